import Verif.Live.ListLemmas
import Verif.Rec.RecLemmas
import Verif.Server.SubTheorems
/-
C109-C111: what the clients of the live data service receive, for every sequence of commands of the source and of the clients.
-/
namespace Sis.Live

open Sis.Access (str)

/-! ### C109: the messages of a session -/

private theorem pub_ok {c c' : Cxt} {s i : Bytes} {ms : List (Int × Msg)} (h : step c (.pub s i) = some (c', ms, .ok)) :
    ∃ m1 cids, readerInit c = some (c', m1, true) ∧ Sub.pub c'.subs s = some cids ∧ ms = m1 ++ cids.map fun j => (j, .data s i) := by
  simp only [step, pub] at h
  cases hr : readerInit c with
  | none => rw [hr] at h; cases h
  | some y =>
    obtain ⟨c1, m1, b1⟩ := y
    rw [hr] at h
    cases b1 with
    | false => simp at h
    | true =>
      simp only [Option.map_eq_some_iff, Prod.mk.injEq] at h
      obtain ⟨cids, h1, rfl, h3, -⟩ := h
      exact ⟨m1, cids, rfl, h1, h3.symm⟩

/-- The messages of a reader init hold no records. -/
private theorem init_nodata {cmds : List Cmd} {c c' : Cxt} {m1 : List (Int × Msg)} (I : Inv cmds c)
    (hr : readerInit c = some (c', m1, true)) (cid : Int) (s i : Bytes) : (cid, Msg.data s i) ∉ m1 := by
  intro h
  rw [← received_mem] at h
  rcases readerInit_spec I hr with ⟨h1, -⟩ | ⟨-, -, -, -, -, -, -, -, -, h9, h10⟩
  · cases h1
  · by_cases hu : ∃ u ∈ c.users, u.cid = cid ∧ u.stat = .init
    · obtain ⟨u, hu, rfl, hi⟩ := hu
      obtain ⟨k, x, t, -, -, -, e⟩ := h9 u hu hi
      rw [e] at h
      unfold opening at h
      cases hk : matchKey u.keys k <;> rw [hk] at h <;> simp at h
    · rw [h10 cid fun u hm he hi => hu ⟨u, hm, he, hi⟩] at h
      cases h

/-- C109: after every sequence of commands, what every connection received is a sequence of sessions, each begun by its date, its
lists and its date again, and records only came in a session. -/
theorem C109_sessions_partial (cmds : List Cmd) (c : Cxt) (out : List (Int × Msg)) (h : run init cmds = some (c, out)) (ht : Texts cmds)
    (cid : Int) : ∃ x, Stream false x (received cid out) := by
  obtain ⟨x, h1, -⟩ := run_stream false h ht (fun h => absurd h (by decide)) cid
  exact ⟨x, h1⟩

/-- C109, if no day is stopped before its subscribers were served: also every stop closes a session, with its date. -/
theorem C109_sessions_served_partial (cmds : List Cmd) (c : Cxt) (out : List (Int × Msg)) (h : run init cmds = some (c, out))
    (ht : Texts cmds) (hs : ∀ pre post, cmds = pre ++ .stop :: post → members pre = [] ∨ Served pre) (cid : Int) :
    ∃ x, Stream true x (received cid out) := by
  obtain ⟨x, h1, -⟩ := run_stream true h ht (fun _ => hs) cid
  exact ⟨x, h1⟩

/-- C109: whoever receives a record was told the day and the lists of this day before, and received nothing but records since. -/
theorem C109_data_partial (cmds : List Cmd) (c c' : Cxt) (out ms : List (Int × Msg)) (h : run init cmds = some (c, out))
    (ht : Texts cmds) (s i : Bytes) (hp : step c (.pub s i) = some (c', ms, .ok)) (cid : Int) (hc : (cid, .data s i) ∈ ms) :
    ∃ pre o post, received cid (out ++ ms) = pre ++ o ++ post ∧ Opening (dayOf cmds) o ∧ post ≠ [] ∧
      ∀ m ∈ post, ∃ s i, m = .data s i := by
  have I := run_inv h
  have S : SInv false c out := run_stream false h ht (fun h => absurd h (by decide))
  have S' := sinv_step I ht S hp (fun h => absurd h (by decide))
  obtain ⟨m1, cids, h1, h2, h3⟩ := pub_ok hp
  have hin : cid ∈ cids := by
    rw [h3] at hc
    rcases List.mem_append.1 hc with hc | hc
    · exact absurd hc (init_nodata I h1 cid s i)
    · obtain ⟨j, hj, e⟩ := List.mem_map.1 hc
      rw [← (Prod.mk.inj e).1]; exact hj
  have I' := inv_step I hp
  have hsub : c'.subs = c.subs := by
    rcases readerInit_spec I h1 with ⟨e, -⟩ | ⟨-, -, -, -, -, -, -, e, -⟩
    · cases e
    · exact e
  obtain ⟨q, hq⟩ := pub_members (I.hist) ht (hsub ▸ h2) hin
  have hq' : (cid, q) ∈ members (cmds ++ [.pub s i]) := by rw [members_snoc]; exact hq
  obtain ⟨u, hu, rfl⟩ := I'.mem_users hq'
  obtain ⟨x, hx, hw⟩ := S' u.cid
  have hx' := hw u hu rfl (served_pub I hp u hu)
  have hd : c'.date = dayOf cmds := by rw [I'.date, dayOf_snoc]
  rw [hd] at hx'
  obtain ⟨pre, o, post, e1, e2, e3⟩ := stream_open hx _ hx'
  refine ⟨pre, o, post, e1, e2, ?_, e3⟩
  rintro rfl
  have hl1 : (received u.cid (out ++ ms)).getLast? = some (.wait (dateStr (dayOf cmds))) := by
    rw [e1, List.append_nil]
    cases e2 <;> simp
  have hne : received u.cid (cids.map fun j => (j, Msg.data s i)) ≠ [] := by
    intro he
    have : Msg.data s i ∈ received u.cid (cids.map fun j => (j, Msg.data s i)) := received_mem.2 (List.mem_map.2 ⟨u.cid, hin, rfl⟩)
    rw [he] at this
    cases this
  have hl2 : (received u.cid (out ++ ms)).getLast? = some (.data s i) := by
    rw [h3, received_append, received_append, ← List.append_assoc, List.getLast?_append_of_ne_nil _ hne,
      List.getLast?_eq_some_getLast hne, received_datas u.cid cids s i _ (List.getLast_mem hne)]
  rw [hl1] at hl2
  cases hl2

/-- C109: before the day is started, and after it was stopped, nothing is sent to anybody, and records are refused. -/
theorem C109_stopped (cmds : List Cmd) (c c' : Cxt) (out ms : List (Int × Msg)) (r : Reply) (k : Cmd)
    (h : run init cmds = some (c, out)) (hst : started cmds = false) (hk : step c k = some (c', ms, r)) :
    ms = [] ∧ ((∃ s i, k = .pub s i) → r = .error) := by
  have I := run_inv h
  have hoff : on c.stat = false := by rw [I.on]; exact hst
  have hs : c.stat = .stop ∨ c.stat = .idle := by
    cases e : c.stat <;> rw [e] at hoff
    · exact Or.inr rfl
    · exact absurd hoff (by decide)
    · exact absurd hoff (by decide)
    · exact Or.inl rfl
  cases k with
  | setKeys info =>
    simp only [step, Option.map_eq_some_iff, Prod.mk.injEq] at hk
    obtain ⟨a, -, -, rfl, -⟩ := hk
    exact ⟨rfl, by rintro ⟨s, i, e⟩; cases e⟩
  | setSdbs info =>
    simp only [step, Option.map_eq_some_iff, Prod.mk.injEq] at hk
    obtain ⟨a, -, -, rfl, -⟩ := hk
    exact ⟨rfl, by rintro ⟨s, i, e⟩; cases e⟩
  | setOther =>
    simp only [step, Option.some.injEq, Prod.mk.injEq] at hk
    exact ⟨hk.2.1.symm, by rintro ⟨s, i, e⟩; cases e⟩
  | start n t =>
    simp only [step, Option.some.injEq, Prod.mk.injEq] at hk
    exact ⟨hk.2.1.symm, by rintro ⟨s, i, e⟩; cases e⟩
  | stop =>
    simp only [step, Option.some.injEq, stop, if_pos hs, Prod.mk.injEq] at hk
    exact ⟨hk.2.1.symm, by rintro ⟨s, i, e⟩; cases e⟩
  | pub s i =>
    have hr : readerInit c = some (c, [], false) := by
      unfold readerInit
      rcases hs with e | e <;> rw [e]
    simp only [step, pub, hr, Option.some.injEq, Prod.mk.injEq] at hk
    exact ⟨hk.2.1.symm, fun _ => hk.2.2.symm⟩
  | sub cid p =>
    simp only [step, Option.map_eq_some_iff, Prod.mk.injEq] at hk
    obtain ⟨a, -, -, rfl, -⟩ := hk
    exact ⟨rfl, by rintro ⟨s, i, e⟩; cases e⟩
  | unsub cid =>
    simp only [step, Option.some.injEq, Prod.mk.injEq] at hk
    exact ⟨hk.2.1.symm, by rintro ⟨s, i, e⟩; cases e⟩

/-- C109: a stop of a started day is accepted, and tells every subscriber once, with the day; nobody else is told anything. -/
theorem C109_stop_all (cmds : List Cmd) (c : Cxt) (out : List (Int × Msg)) (h : run init cmds = some (c, out))
    (hst : started cmds = true) :
    ∃ c' ms, step c .stop = some (c', ms, .ok) ∧
      ∀ cid, received cid ms = if (members cmds).any (fun x => x.1 == cid) then [.stop (dateStr (dayOf cmds))] else [] := by
  have I := run_inv h
  have hon : on c.stat = true := by rw [I.on]; exact hst
  have hs : ¬ (c.stat = .stop ∨ c.stat = .idle) := by
    rintro (e | e) <;> rw [e] at hon <;> exact absurd hon (by decide)
  have hstep : step c .stop = some ({ c with users := c.users.map fun u => { u with stat := .stop }, readers := 0, stat := .stop },
      (c.users.filter fun u => u.stat != .stop).map (fun u => (u.cid, .stop (dateText c.date))), .ok) := by
    simp only [step, stop, if_neg hs]
  refine ⟨_, _, hstep, ?_⟩
  intro cid
  rw [stops_spec I.nodup, ← I.any cid, I.date]
  have : c.users.any (fun u => u.cid == cid && u.stat != .stop) = c.users.any (fun u => u.cid == cid) := by
    rw [Bool.eq_iff_iff, List.any_eq_true, List.any_eq_true]
    constructor
    · rintro ⟨u, hu, e⟩
      exact ⟨u, hu, (Bool.and_eq_true _ _ ▸ e).1⟩
    · rintro ⟨u, hu, e⟩
      refine ⟨u, hu, ?_⟩
      rw [Bool.and_eq_true]
      refine ⟨e, ?_⟩
      rcases I.live hon u hu with e | e <;> rw [e] <;> decide
  rw [this]
  rfl

/-- C109: a connection that did not subscribe, or unsubscribed and did not subscribe again, receives nothing. -/
theorem C109_not_subscribed (cmds : List Cmd) (c c' : Cxt) (out ms : List (Int × Msg)) (r : Reply) (k : Cmd)
    (h : run init cmds = some (c, out)) (ht : Texts cmds) (cid : Int) (hn : ∀ p, (cid, p) ∉ members cmds)
    (hk : step c k = some (c', ms, r)) : received cid ms = [] := by
  have I := run_inv h
  have hu : ∀ u ∈ c.users, u.cid ≠ cid := by
    rintro u hu rfl
    have : u.cid ∈ c.users.map User.cid := List.mem_map.2 ⟨u, hu, rfl⟩
    rw [I.cids] at this
    obtain ⟨x, hx, e⟩ := List.mem_map.1 this
    exact hn x.2 (by rw [← e]; exact hx)
  cases k with
  | setKeys info =>
    simp only [step, Option.map_eq_some_iff, Prod.mk.injEq] at hk
    obtain ⟨a, -, -, rfl, -⟩ := hk
    rfl
  | setSdbs info =>
    simp only [step, Option.map_eq_some_iff, Prod.mk.injEq] at hk
    obtain ⟨a, -, -, rfl, -⟩ := hk
    rfl
  | setOther =>
    simp only [step, Option.some.injEq, Prod.mk.injEq] at hk
    rw [← hk.2.1]; rfl
  | start n t =>
    simp only [step, Option.some.injEq, Prod.mk.injEq] at hk
    rw [← hk.2.1]; rfl
  | stop =>
    simp only [step, Option.some.injEq, stop] at hk
    split at hk
    · rw [← (Prod.mk.inj (Prod.mk.inj hk).2).1]; rfl
    · rw [← (Prod.mk.inj (Prod.mk.inj hk).2).1, stops_spec I.nodup, if_neg]
      rw [Bool.not_eq_true, List.any_eq_false]
      intro u hm
      have := hu u hm
      simp [this]
  | pub s i =>
    simp only [step, pub] at hk
    cases hr : readerInit c with
    | none => rw [hr] at hk; cases hk
    | some y =>
      obtain ⟨c1, m1, b1⟩ := y
      rw [hr] at hk
      rcases readerInit_spec I hr with ⟨rfl, -, rfl⟩ | ⟨rfl, -, -, -, -, -, -, e8, -, -, e10⟩
      · simp only [Option.some.injEq, Prod.mk.injEq] at hk
        rw [← hk.2.1]; rfl
      · simp only [Option.map_eq_some_iff, Prod.mk.injEq] at hk
        obtain ⟨cids, h1, -, rfl, -⟩ := hk
        rw [received_append, e10 cid fun u hm e => absurd e (hu u hm), List.nil_append, received, List.filter_eq_nil_iff.2]
        · rfl
        · intro x hx
          obtain ⟨j, hj, rfl⟩ := List.mem_map.1 hx
          rw [e8] at h1
          obtain ⟨q, hq⟩ := pub_members I.hist ht h1 hj
          simp only [decide_eq_true_eq]
          rintro rfl
          exact hn q hq
  | sub j p =>
    simp only [step, Option.map_eq_some_iff, Prod.mk.injEq] at hk
    obtain ⟨a, -, -, rfl, -⟩ := hk
    rfl
  | unsub j =>
    simp only [step, Option.some.injEq, Prod.mk.injEq] at hk
    rw [← hk.2.1]; rfl

private theorem names_self {l : Bytes} (h : l ≠ []) (hc : 44 ∉ l) : Sub.Names true l l := by
  obtain ⟨x, xs, h1, h2⟩ := Sub.items_cur l [] hc
  have : x = [] ∧ xs = [] := by simpa [Sub.items, eq_comm] using h1
  rw [List.append_nil, this.1, List.append_nil] at h2
  exact ⟨l, by rw [h2]; simp, h, by simp⟩

private theorem low_ne {l : Bytes} (h : l ≠ []) : Sub.low l ≠ [] := by
  intro e
  exact h (by simpa [Sub.low] using e)

/-- C109: an accepted record of a key and a table reaches exactly the connections with a subscription that covers it, by heads. -/
theorem C109_delivery (cmds : List Cmd) (c c' : Cxt) (out ms : List (Int × Msg)) (h : run init cmds = some (c, out)) (ht : Texts cmds)
    (key tab i : Bytes) (hk : key ≠ []) (hkd : 46 ∉ key) (htab : tab ≠ []) (hcs : CStr (key ++ 46 :: tab)) (hcc : 44 ∉ key ++ 46 :: tab)
    (hp : step c (.pub (key ++ 46 :: tab) i) = some (c', ms, .ok)) (cid : Int) :
    (cid, .data (key ++ 46 :: tab) i) ∈ ms ↔
      ∃ p, (cid, p, true) ∈ Sub.active (subOps cmds) ∧ Sub.Covers true (Sub.low p) (Sub.low (key ++ 46 :: tab)) := by
  have I := run_inv h
  obtain ⟨m1, cids, h1, h2, h3⟩ := pub_ok hp
  have hsub : c'.subs = c.subs := by
    rcases readerInit_spec I h1 with ⟨e, -⟩ | ⟨-, -, -, -, -, -, -, e, -⟩
    · cases e
    · exact e
  rw [hsub] at h2
  have hin : (cid, Msg.data (key ++ 46 :: tab) i) ∈ ms ↔ cid ∈ cids := by
    rw [h3, List.mem_append]
    constructor
    · rintro (hc | hc)
      · exact absurd hc (init_nodata I h1 cid _ i)
      · obtain ⟨j, hj, e⟩ := List.mem_map.1 hc
        rw [← (Prod.mk.inj e).1]; exact hj
    · intro hc
      exact Or.inr (List.mem_map.2 ⟨cid, hc, rfl⟩)
  have hw : Sub.step c.subs (.write (key ++ 46 :: tab)) = some (c.subs, .notified cids) := by
    simp only [Sub.step, h2, Option.map_some]
  rw [hin]
  constructor
  · intro hc
    obtain ⟨p, b, ha, hcov⟩ := Sub.C50_only_subscribers_partial _ _ _ I.hist (clean_ops ht) _ hcs hcc cids hw cid hc
    have hb := (active_members cmds cid p b ha).1
    subst hb
    refine ⟨p, ha, ?_⟩
    rcases hcov with e | e
    · rw [e]
      have h46 : ∀ l : Bytes, 46 ∉ l → 46 ∉ Sub.low l := fun l hl hm => hl ((Sub.low_mem (by decide) l).1 hm)
      have h44 : ∀ l : Bytes, 44 ∉ l → 44 ∉ Sub.low l := fun l hl hm => hl ((Sub.low_mem (by decide) l).1 hm)
      have hka : 44 ∉ key := fun hm => hcc (List.mem_append_left _ hm)
      have hta : 44 ∉ tab := fun hm => hcc (List.mem_append_right _ (List.mem_cons_of_mem _ hm))
      have el : Sub.low (key ++ 46 :: tab) = Sub.low key ++ 46 :: Sub.low tab := by
        simp only [Sub.low, List.map_append, List.map_cons]
        rfl
      rw [el]
      exact Or.inr (Or.inr (Or.inr ⟨Sub.low key, Sub.low tab, Sub.low key, Sub.low tab, h46 _ hkd, h46 _ hkd, rfl, rfl,
        Or.inr (names_self (low_ne hk) (h44 _ hka)), Or.inr (names_self (low_ne htab) (h44 _ hta))⟩))
    · exact e
  · rintro ⟨p, ha, hcov⟩
    refine Sub.C51_patterns_partial _ _ _ I.hist (clean_ops ht) _ hcs hcc cids hw cid p true ha (Or.inl rfl) ?_ hcov
    intro j q g hm _
    unfold subOps at hm
    obtain ⟨k, -, e⟩ := List.mem_filterMap.1 hm
    cases k <;> simp at e
    exact e.2.2

/-- C109, for careful commands: a record is accepted exactly if the day is started and both lists were given. -/
theorem C109_accepted_partial (cmds : List Cmd) (c : Cxt) (out : List (Int × Msg)) (h : run init cmds = some (c, out)) (ht : Texts cmds)
    (hc : ∀ k ∈ cmds, Careful k) (s i : Bytes) (hs : s.length < 128) :
    ∃ c' ms r, step c (.pub s i) = some (c', ms, r) ∧
      (r = .ok ↔ started cmds = true ∧ (keysOf cmds).isSome ∧ (tabsOf cmds).isSome) := by
  obtain ⟨c0, o0, h0, K⟩ := careful_run ht hc
  rw [h] at h0
  have e := (Prod.mk.inj (Option.some.inj h0)).1
  subst e
  obtain ⟨c', ms, r, h1, -, h3⟩ := pub_careful (run_inv h) K ht (i := i) hs
  exact ⟨c', ms, r, h1, h3⟩

/-- The text of a day is its number in decimal. -/
theorem C109_day_text (d : Nat) (h : d < 10 ^ 31) : dateStr d = Rec.dec d := Rec.llutoa_dec h

/-- Two tables. -/
def twoTables : Bytes := str "{\"tick\":{\"a\":1},\"tick2\":{\"a\":1}}"

/-- A day with three clients, who ask for the table `tick` of the keys with the head `sh`, for everything, and for `sz`. -/
def aDay : List Cmd :=
  [.start 20210101 5, .sub 1 (str "sh.tick"), .setKeys (some (str "sh1,sh2,sz1")), .sub 2 (str "*.*"), .setSdbs (some twoTables)]

/-- What they receive: each the lists first, then its records, then the end. -/
example : (run init (aDay ++ [.pub (str "sh1.tick") (str "x"), .pub (str "sz1.tick") (str "y"), .stop, .pub (str "sh1.tick") (str "z")])).map
      (fun p => (received 1 p.2, received 2 p.2)) =
    some ([.start (str "20210101"), .keys (str "sh1,sh2"), .sdbs (str "{\"tick\":{\"a\":1}}"), .wait (str "20210101"),
        .data (str "sh1.tick") (str "x"), .stop (str "20210101")],
      [.start (str "20210101"), .keys (str "sh1,sh2,sz1"), .sdbs twoTables, .wait (str "20210101"),
        .data (str "sh1.tick") (str "x"), .data (str "sz1.tick") (str "y"), .stop (str "20210101")]) := by decide +kernel

example : started aDay = true ∧ dayOf aDay = 20210101 ∧ members aDay = [(1, str "sh.tick"), (2, str "*.*")] ∧
    keysOf aDay = some (str "sh1,sh2,sz1") ∧ tabsOf aDay = some twoTables := by decide +kernel

example : Texts aDay := by
  intro c p h
  simp only [aDay, List.mem_cons, List.not_mem_nil, or_false, reduceCtorEq, false_or, Cmd.sub.injEq] at h
  rcases h with ⟨-, rfl⟩ | ⟨-, rfl⟩ <;> (unfold CStr; decide +kernel)

/-- C109 fails: a client who subscribed when no record was published is told of the end of a session that never began. -/
theorem C109_stop_violated : (run init [.start 20210101 5, .sub 1 (str "sh.tick"), .stop]).map (fun p => received 1 p.2) =
    some [.stop (str "20210101")] := by decide +kernel

/-- A stop cannot be the first message of a strict stream. -/
example (x : Option Nat) : ¬ Stream true x [.stop (str "20210101")] := by
  intro h
  generalize hl : [Msg.stop (str "20210101")] = l at h
  cases h with
  | nil => cases hl
  | @opened x l d o h ho =>
    have : (l ++ o).length = 1 := by rw [← hl]; rfl
    cases ho <;> simp at this
  | @data d l s i h =>
    have h1 : (l ++ [Msg.data s i]).getLast? = some (.stop (str "20210101")) := by rw [← hl]; rfl
    simp at h1
  | @stopped x l d h hx =>
    have : (l ++ [Msg.stop (dateStr d)]).length = 1 := by rw [← hl]; rfl
    have hl' : l = [] := List.eq_nil_of_length_eq_zero (by simpa using this)
    subst hl'
    have hx := hx rfl
    subst hx
    generalize he : ([] : List Msg) = e at h
    cases h with
    | @opened x l d o h ho =>
      have : (l ++ o).length = 0 := by rw [← he]; rfl
      cases ho <;> simp at this
    | @data d l s i h =>
      have : (l ++ [Msg.data s i]).length = 0 := by rw [← he]; rfl
      simp at this

/-! ### C110: the lists a client is told -/

private theorem tables_child {n m : Json.Node} {s : Bytes} (h1 : Tables n s) (h2 : Tables m s) : n.child = m.child := by
  obtain ⟨t1, a1, -⟩ := tables_load h1
  obtain ⟨t2, b1, -⟩ := tables_load h2
  rw [a1] at b1
  have := congrArg Json.Node.child (Option.some.inj (Option.some.inj b1))
  obtain ⟨_, _, _, _⟩ := n
  obtain ⟨_, _, _, _⟩ := m
  exact this

/-- C110, for careful commands and keys that are plain names: a client whose session begins with a record is told the keys of the list
last given that its (first) subject asks for by their heads, and the tables last given that it asks for by their names, and then gets
this record, if at all. -/
theorem C110_lists_partial (cmds : List Cmd) (c c' : Cxt) (out ms : List (Int × Msg)) (h : run init cmds = some (c, out))
    (ht : Texts cmds) (hc : ∀ k ∈ cmds, Careful k) (names : List Bytes) (hn : ∀ n ∈ names, Name n) (hne : names ≠ [])
    (hk : keysOf cmds = some (List.intercalate [44] names)) (n : Json.Node) (txt : Bytes) (htx : tabsOf cmds = some txt)
    (hT : Tables n txt) (s i : Bytes) (hp : step c (.pub s i) = some (c', ms, .ok)) (cid : Int) (p : Bytes)
    (hm : (cid, p) ∈ members cmds) (d : Bytes) (hb : (cid, .start d) ∈ ms) :
    ∃ t post, TabText p n t ∧ received cid ms = announced (dayOf cmds) p names t ++ post ∧ ∀ m ∈ post, m = .data s i := by
  have I := run_inv h
  obtain ⟨c0, o0, h0, K⟩ := careful_run ht hc
  rw [h] at h0
  have e := (Prod.mk.inj (Option.some.inj h0)).1
  subst e
  obtain ⟨m1, cids, h1, h2, h3⟩ := pub_ok hp
  obtain ⟨u, hu, rfl⟩ := I.mem_users hm
  obtain ⟨p', hp', hu2, hu3, hcp⟩ := user_subject I ht hu
  have hpp : p' = p := by
    have hnd : ((members cmds).map Prod.fst).Nodup := by rw [← I.cids]; exact I.nodup
    revert hm hp' hnd
    generalize members cmds = l
    intro hm hp' hnd
    induction l with
    | nil => cases hm
    | cons x l ih =>
      simp only [List.map_cons, List.nodup_cons, List.mem_map, not_exists, not_and] at hnd
      rcases List.mem_cons.1 hm with e1 | e1 <;> rcases List.mem_cons.1 hp' with e2 | e2
      · rw [← e1] at e2; exact (Prod.mk.inj e2).2
      · exact absurd (by rw [← e1]) (hnd.1 _ e2)
      · exact absurd (by rw [← e2]) (hnd.1 _ e1)
      · exact ih e1 e2 hnd.2
  subst hpp
  have hi : u.stat = .init := by
    cases hst : u.stat with
    | init => rfl
    | _ =>
      exfalso
      rw [h3] at hb
      rcases List.mem_append.1 hb with hb | hb
      · rcases readerInit_spec I h1 with ⟨e, -⟩ | ⟨-, -, -, -, -, -, -, -, -, -, h10⟩
        · cases e
        · rw [← received_mem, h10 u.cid ?_] at hb
          · cases hb
          · intro v hv he
            rw [I.user_eq hv hu he, hst]
            simp
      · obtain ⟨j, -, e⟩ := List.mem_map.1 hb
        cases (Prod.mk.inj e).2
  rcases readerInit_spec I h1 with ⟨e, -⟩ | ⟨-, -, -, -, -, -, -, -, -, h9, -⟩
  · cases e
  · obtain ⟨k, s', t, e1, e2, e3, e4⟩ := h9 u hu hi
    have e5 : k = List.intercalate [44] names := by
      rw [K.keys, hk] at e1; exact (Option.some.inj e1).symm
    subst e5
    rcases K.sdbs with ⟨-, e⟩ | ⟨n', s'', t', g1, g2, g3, g4⟩
    · rw [e] at htx; cases htx
    · rw [htx] at g1
      have g1 := Option.some.inj g1
      subst g1
      rw [g4] at e2
      have e2 := Ptr.live.inj e2
      subst e2
      obtain ⟨x, x1, x2⟩ := matchSdbs_spec hcp g2 g3
      rw [← hu3, e3] at x2
      have x2 := Option.some.inj x2
      subst x2
      refine ⟨t, received u.cid (cids.map fun j => (j, .data s i)), ?_, ?_, received_datas u.cid cids s i⟩
      · unfold TabText at x1 ⊢
        rw [tables_child hT g2]; exact x1
      · rw [h3, received_append, e4, hu2, matchKey_spec hcp hn hne, I.date]
        unfold opening announced
        congr 1
        by_cases hf : (names.filter (asks true (keyPart p'))).isEmpty = true
        · rw [if_pos hf, if_pos hf]; rfl
        · rw [if_neg hf, if_neg hf]; rfl

/-- The document of the two tables. -/
def twoNode : Json.Node :=
  let t (k : String) : Json.Node := .mk .object (some (str k)) none [.mk .int (some (str "a")) (some (str "1")) []]
  .mk .object none none [t "tick", t "tick2"]

theorem twoNode_ok : Tables twoNode twoTables := by
  refine ⟨rfl, ?_, ?_, Or.inl (by decide +kernel)⟩
  · have hn : Json.okNum false (str "1") := Json.okNum_iff.2 ⟨⟨49, [], by decide +kernel, .inr (by decide)⟩, by decide +kernel, by decide +kernel⟩
    have hk : ∀ k ∈ [str "tick", str "tick2", str "a"], Json.okKey k := by unfold Json.okKey; decide +kernel
    simp only [twoNode, Json.Ok, Json.OkMembers]
    exact ⟨trivial, ⟨_, rfl, hk _ (by simp)⟩, ⟨trivial, ⟨_, rfl, hk _ (by simp)⟩, ⟨⟨_, rfl, hn⟩, trivial⟩, trivial⟩,
      ⟨_, rfl, hk _ (by simp)⟩, ⟨trivial, ⟨_, rfl, hk _ (by simp)⟩, ⟨⟨_, rfl, hn⟩, trivial⟩, trivial⟩, trivial⟩
  · intro c hc k hk
    simp only [twoNode, Json.Node.child, List.mem_cons, List.not_mem_nil, or_false] at hc
    rcases hc with rfl | rfl <;> (cases hk; decide +kernel)

/-- The day above meets the hypotheses. -/
example : (∀ k ∈ aDay, Careful k) ∧ (∀ n ∈ [str "sh1", str "sh2", str "sz1"], Name n) ∧
    keysOf aDay = some (List.intercalate [44] [str "sh1", str "sh2", str "sz1"]) := by
  refine ⟨?_, ?_, by decide +kernel⟩
  · intro k hk
    simp only [aDay, List.mem_cons, List.not_mem_nil, or_false] at hk
    rcases hk with rfl | rfl | rfl | rfl | rfl
    · trivial
    · trivial
    · rfl
    · trivial
    · exact ⟨twoNode, twoTables, rfl, twoNode_ok⟩
  · unfold Name; decide +kernel

/-- C110 fails: records of a table come to a client that was not told of it: tables are told by their names, and delivered by heads. -/
theorem C110_heads_violated :
    (run init (aDay ++ [.pub (str "sh1.tick2") (str "x")])).map (fun p => received 1 p.2) =
    some [.start (str "20210101"), .keys (str "sh1,sh2"), .sdbs (str "{\"tick\":{\"a\":1}}"), .wait (str "20210101"),
        .data (str "sh1.tick2") (str "x")] := by decide +kernel

/-- C110 fails: who asks for everything with `*` is told of no tables, and gets their records. -/
theorem C110_star_violated :
    (run init (aDay ++ [.sub 3 (str "*"), .pub (str "sh1.tick") (str "x")])).map (fun p => received 3 p.2) =
    some [.start (str "20210101"), .keys (str "sh1,sh2,sz1"), .sdbs (str "{}"), .wait (str "20210101"),
        .data (str "sh1.tick") (str "x")] := by decide +kernel

/-- C110 fails: the lists of a second subject are never told, only its records come. -/
theorem C110_second_violated :
    (run init (aDay ++ [.pub (str "sh1.tick") (str "x"), .sub 1 (str "sz.tick"), .pub (str "sz1.tick") (str "y")])).map
      (fun p => received 1 p.2) =
    some [.start (str "20210101"), .keys (str "sh1,sh2"), .sdbs (str "{\"tick\":{\"a\":1}}"), .wait (str "20210101"),
        .data (str "sh1.tick") (str "x"), .data (str "sz1.tick") (str "y")] := by decide +kernel

/-- C110 fails: lists given again during the day are not told to those who have a session already. -/
theorem C110_changed_violated :
    (run init (aDay ++ [.pub (str "sh1.tick") (str "x"), .setKeys (some (str "sh3")), .pub (str "sh3.tick") (str "y")])).map
      (fun p => received 1 p.2) =
    some [.start (str "20210101"), .keys (str "sh1,sh2"), .sdbs (str "{\"tick\":{\"a\":1}}"), .wait (str "20210101"),
        .data (str "sh1.tick") (str "x"), .data (str "sh3.tick") (str "y")] := by decide +kernel

/-! ### C111: no command reads through a bad pointer -/

/-- C111, for careful commands in any order and number. -/
theorem C111_defined_partial (cmds : List Cmd) (ht : Texts cmds) (hc : ∀ k ∈ cmds, Careful k) : (run init cmds).isSome := by
  obtain ⟨c, out, h, -⟩ := careful_run ht hc
  rw [h]; rfl

/-- C111 fails: a refused list of tables leaves the old one freed, and the next client is told the freed text. -/
theorem C111_refused_violated :
    (run init (aDay ++ [.setSdbs (some (str "{\"a\":true}"))])).isSome = true ∧
    run init (aDay ++ [.setSdbs (some (str "{\"a\":true}")), .pub (str "sh1.tick") (str "x")]) = none ∧
    run init (aDay ++ [.setSdbs (some (str "{\"a\":true}")), .setSdbs (some twoTables)]) = none := by decide +kernel

/-- C111 fails: keys or tables without a text. -/
theorem C111_null_violated : run init [.setKeys none] = none ∧ run init [.setSdbs none] = none := by decide +kernel

/-- C111 fails: records with a subject of 128 bytes or more, if somebody subscribed to a pattern. -/
theorem C111_long_violated :
    run init (aDay ++ [.pub (List.replicate 130 97 ++ str ".tick") (str "x")]) = none := by decide +kernel

end Sis.Live
