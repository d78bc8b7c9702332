import Verif.Client.ClientLemmas
import Verif.Mem.MemdbTheorems
namespace Sis.Cli
open Sis Msg Json

/-! ### C114 -/

theorem recv_mem {s s' : St} {m : Msg} {o : List Out} (h : step s (.recv m) = some (s', o)) {x : Out} (hx : x ∈ o)
    (hns : ∀ y, x ≠ .send y) : s.status = .work ∧ m.sw.tag = true ∧ ∃ a, find s m.name = some a ∧ x ∈ reply a m := by
  simp only [step, Option.some.injEq] at h
  unfold recv at h
  split at h
  · rename_i hw
    split at h
    · rename_i a hf
      split at h
      · rename_i htag
        refine ⟨hw, htag, a, hf, ?_⟩
        unfold answer at h
        split at h <;> cases h <;> exact hx
      · cases h; simp at hx
    · cases h; simp at hx
  · split at h
    · cases h
      obtain ⟨a, -, rfl⟩ := List.mem_map.1 hx
      exact absurd rfl (hns _)
    · cases h; simp at hx
  · cases h; simp at hx

theorem only_recv {s s' : St} {e : Ev} {o : List Out} (h : step s e = some (s', o)) {x : Out} (hx : x ∈ o)
    (hx1 : (∃ id t k v, x = .call id t k v) ∨ (∃ id b, x = .back id b) ∨ ∃ id, x = .stale id) : ∃ m, e = .recv m := by
  have no : ∀ y : Out, x = y → (∀ id t k v, y ≠ .call id t k v) → (∀ id b, y ≠ .back id b) → (∀ id, y ≠ .stale id) → False := by
    rintro y rfl h1 h2 h3
    rcases hx1 with ⟨id, t, k, v, rfl⟩ | ⟨id, b, rfl⟩ | ⟨id, rfl⟩
    · exact h1 _ _ _ _ rfl
    · exact h2 _ _ rfl
    · exact h3 _ rfl
  cases e with
  | recv m => exact ⟨m, rfl⟩
  | connected =>
    exfalso
    simp only [step, Option.some.injEq] at h
    unfold connect at h
    split at h
    · cases h; exact no _ (List.mem_singleton.1 hx) (by simp) (by simp) (by simp)
    · cases h; exact no _ (List.mem_singleton.1 hx) (by simp) (by simp) (by simp)
    · split at h
      · cases h
        rcases List.mem_cons.1 hx with hx | hx
        · exact no _ hx (by simp) (by simp) (by simp)
        · exact no _ (List.mem_singleton.1 hx) (by simp) (by simp) (by simp)
      · cases h; exact no _ (List.mem_singleton.1 hx) (by simp) (by simp) (by simp)
  | disconnect =>
    simp only [step, Option.some.injEq] at h
    cases h; exact (no _ (List.mem_singleton.1 hx) (by simp) (by simp) (by simp)).elim
  | close =>
    simp only [step, Option.some.injEq] at h
    cases h; simp at hx
  | ask q =>
    exfalso
    simp only [step] at h
    unfold ask at h
    split at h
    · cases hb : isSub q.cmd with
      | none => rw [hb] at h; simp at h
      | some b =>
        rw [hb] at h
        simp only [Option.map_some, Option.some.injEq] at h
        cases h
        rcases List.mem_cons.1 hx with hx | hx
        · exact no _ hx (by simp) (by simp) (by simp)
        · exact no _ (List.mem_singleton.1 hx) (by simp) (by simp) (by simp)
    · cases h; exact no _ (List.mem_singleton.1 hx) (by simp) (by simp) (by simp)
  | unsub n =>
    exfalso
    simp only [step, Option.some.injEq] at h
    unfold unsub at h
    split at h
    · split at h
      · cases h; exact no _ (List.mem_singleton.1 hx) (by simp) (by simp) (by simp)
      · cases h; simp at hx
    · cases h; simp at hx

theorem count_le {user pass : Bytes} {evs : List Ev} {s : St} {outs} (hr : run (start user pass) evs = some (s, outs))
    (hI : Inv (evs.zip outs) s) : s.count ≤ asked evs := by
  have := hI.le
  rw [askedIn, List.map_fst_zip (by rw [run_length hr]; exact Nat.le_refl _)] at this
  exact this

theorem buf_filled (v : Option Bytes) : buf v = filled v := by
  cases v with
  | none => rfl
  | some v => rw [filled_some]; rfl

theorem sub_of {tr : Life} {s : St} (hI : Inv tr s) {a : Ask} (ha : a ∈ s.asks) : a.sub = decide (Subscribes a.q.cmd) := by
  have := isSub_iff (hI.sub a ha)
  by_cases h : Subscribes a.q.cmd
  · rw [this.2 h]; simp [h]
  · have : a.sub = false := by
      cases hb : a.sub with
      | false => rfl
      | true => exact absurd (this.1 hb) h
    rw [this]; simp [h]

/-- C114. Whatever happens to a client - connections won and lost, messages of any kind, questions of any number of callers - a
callback is called only when a message arrives that bears the number of its own question, with what that message tells; and the
callback of a question that does not subscribe is called at most once.  Missing: lives of more than 16777215 questions
(`C114_violated_wrap`) and threads that ask at the same moment (`C114_violated_race`). -/
theorem C114_own_partial (user pass : Bytes) (evs : List Ev) (s : St) (outs) (hr : run (start user pass) evs = some (s, outs))
    (hn : asked evs ≤ 0xFFFFFF) (e : Ev) (s' : St) (o : List Out) (hs : step s e = some (s', o)) (id : Nat) (tag : Int)
    (key val : Option Bytes) (hc : .call id tag key val ∈ o) :
    ∃ m q x, e = .recv m ∧ works s = true ∧ m.sw.tag = true ∧ Named m id ∧ x ∈ evs.zip outs ∧ Took x id q ∧
      (tag, key, val) = (if q.wait then ((tells m).1, (tells m).2.1, filled (tells m).2.2) else tells m) ∧
      (¬ Subscribes q.cmd → ∀ p ∈ outs, ∀ t k v, .call id t k v ∉ p) := by
  have hI := inv_run hr hn
  obtain ⟨m, rfl⟩ := only_recv hs hc (.inl ⟨_, _, _, _, rfl⟩)
  obtain ⟨hw, htag, a, hf, hm⟩ := recv_mem hs hc (by simp)
  have hcnt : s.count ≤ 0xFFFFFF := Nat.le_trans (count_le hr hI) hn
  obtain ⟨ha, hnm⟩ := (find_named hI hcnt).1 hf
  have hid := mem_reply hm
  subst hid
  obtain ⟨x, hx, hT⟩ := hI.took a ha
  refine ⟨m, a.q, x, rfl, by simp [works, hw], htag, hnm, hx, hT, ?_, ?_⟩
  · unfold reply at hm
    rw [told_tells] at hm
    split at hm
    · rename_i hwait
      rw [if_pos hwait]
      split at hm
      · simp at hm
      · simp only [buf_filled, List.mem_cons, Out.call.injEq, true_and, reduceCtorEq, List.not_mem_nil, or_false] at hm
        rw [hm.1, hm.2.1, hm.2.2]
    · rename_i hwait
      rw [if_neg hwait]
      split at hm
      · simp only [List.mem_cons, Out.call.injEq, true_and, List.not_mem_nil, or_false] at hm
        rw [hm.1, hm.2.1, hm.2.2]
      · simp at hm
  · intro hns p hp t k v
    have hsub : a.sub = false := by rw [sub_of hI ha]; simp [hns]
    obtain ⟨i, hi, rfl⟩ := List.getElem_of_mem hp
    have hlen := run_length hr
    have : (evs[i]'(by omega), outs[i]) ∈ evs.zip outs := by
      rw [← List.getElem_zip (h := by rw [List.length_zip]; omega)]
      exact List.getElem_mem _
    exact (hI.fresh a ha hsub).2 _ this t k v

/-- C114, a call that waits comes back, or has an answer written into its message later on, only when a message arrives that bears the
number of its question. -/
theorem C114_back_partial (user pass : Bytes) (evs : List Ev) (s : St) (outs) (hr : run (start user pass) evs = some (s, outs))
    (hn : asked evs ≤ 0xFFFFFF) (e : Ev) (s' : St) (o : List Out) (hs : step s e = some (s', o)) (id : Nat)
    (hc : (∃ ok, .back id ok ∈ o) ∨ .stale id ∈ o) : ∃ m, e = .recv m ∧ works s = true ∧ m.sw.tag = true ∧ Named m id := by
  have hI := inv_run hr hn
  have hcnt : s.count ≤ 0xFFFFFF := Nat.le_trans (count_le hr hI) hn
  have hid : ∀ a m x, x ∈ reply a m → ((∃ ok, x = .back id ok) ∨ x = .stale id) → id = a.id := by
    intro a m x hx hh
    unfold reply at hx
    split at hx
    · split at hx
      · rw [List.mem_singleton.1 hx] at hh
        simp at hh
        exact hh.symm
      · simp only [List.mem_cons, List.not_mem_nil, or_false] at hx
        rcases hx with rfl | rfl
        · simp at hh
        · simp at hh
          exact hh.symm
    · split at hx
      · rw [List.mem_singleton.1 hx] at hh
        simp at hh
      · simp at hx
  have key : ∀ x ∈ o, ((∃ ok, x = .back id ok) ∨ x = .stale id) → ∃ m, e = .recv m ∧ works s = true ∧ m.sw.tag = true ∧ Named m id := by
    intro x hx hh
    obtain ⟨m, rfl⟩ := only_recv hs hx (.inr (by
      rcases hh with ⟨ok, rfl⟩ | rfl
      · exact .inl ⟨_, _, rfl⟩
      · exact .inr ⟨_, rfl⟩))
    obtain ⟨hw, htag, a, hf, hm⟩ := recv_mem hs hx (by rcases hh with ⟨ok, rfl⟩ | rfl <;> simp)
    refine ⟨m, rfl, by simp [works, hw], htag, ?_⟩
    rw [hid a m x hm hh]
    exact ((find_named hI hcnt).1 hf).2
  rcases hc with ⟨ok, h⟩ | h
  · exact key _ h (.inl ⟨ok, rfl⟩)
  · exact key _ h (.inr rfl)

/-- C114, and no answer is lost: if question `id` was taken, and since then - if it subscribes - it was not cancelled, and - if it does
not - no message with its number came, then a message with its number and a tag that reaches a client that works makes the client
call the callback of that question and nothing else, or makes the call that waits for it come back.  Missing: subscribing with a
call that waits (`C114_violated_stale`), messages without a tag (`C114_violated_untagged`). -/
theorem C114_answer_partial (user pass : Bytes) (evs1 evs2 : List Ev) (q : Query) (s : St) (outs1 outs2) (o1 : List Out) (id : Nat)
    (hr : run (start user pass) (evs1 ++ .ask q :: evs2) = some (s, outs1 ++ o1 :: outs2)) (hl : outs1.length = evs1.length)
    (hn : asked (evs1 ++ .ask q :: evs2) ≤ 0xFFFFFF) (ht : .taken id ∈ o1)
    (hsub : Subscribes q.cmd → q.wait = false ∧ ∀ n, .unsub n ∈ evs2 → upTo0 n ≠ Rec.dec id)
    (hnot : ¬ Subscribes q.cmd → ∀ m, .recv m ∈ evs2 → m.sw.tag = true → ¬ Named m id)
    (hw : works s = true) (m : Msg) (hm : Named m id) (htag : m.sw.tag = true) :
    ∃ s', works s' = true ∧ step s (.recv m) = some (s',
      if q.wait then [.call id (tells m).1 (tells m).2.1 (filled (tells m).2.2), .back id (decide (0 ≤ (tells m).1))]
      else if q.cb then [.call id (tells m).1 (tells m).2.1 (tells m).2.2] else []) := by
  have hI := inv_run hr hn
  have hcnt : s.count ≤ 0xFFFFFF := Nat.le_trans (count_le hr hI) hn
  have hz : (evs1 ++ .ask q :: evs2).zip (outs1 ++ o1 :: outs2) = evs1.zip outs1 ++ (.ask q, o1) :: evs2.zip outs2 := by
    rw [List.zip_append hl.symm]; rfl
  obtain ⟨a, ha, h1, h2⟩ := hI.live (evs1.zip outs1) (.ask q, o1) (evs2.zip outs2) id q hz ⟨rfl, ht⟩
    (fun hq y hy n hy2 => (hsub hq).2 n (by rw [← hy2]; exact (List.of_mem_zip hy).1))
    (fun hq y hy m hy2 => hnot hq m (by rw [← hy2]; exact (List.of_mem_zip hy).1))
  have hf : find s m.name = some a := (find_named hI hcnt).2 ⟨ha, by rw [h1]; exact hm⟩
  have hwk : s.status = .work := by simpa [works] using hw
  have hrep : reply a m = if q.wait then [.call id (tells m).1 (tells m).2.1 (filled (tells m).2.2), .back id (decide (0 ≤ (tells m).1))]
      else if q.cb then [.call id (tells m).1 (tells m).2.1 (tells m).2.2] else [] := by
    unfold reply
    rw [told_tells, h2, h1]
    by_cases hwt : q.wait = true
    · have hns : ¬ Subscribes q.cmd := fun hq => by rw [(hsub hq).1] at hwt; simp at hwt
      have hb : a.back = false := (hI.fresh a ha (by rw [sub_of hI ha, h2]; simp [hns])).1
      rw [if_pos hwt, if_pos hwt, hb]
      simp [buf_filled]
    · rw [if_neg hwt, if_neg hwt]
  rw [← hrep]
  refine ⟨(answer s a m).1, ?_, ?_⟩
  · unfold answer
    split <;> simp [works, drop, hwk]
  · simp only [step, recv, hwk, hf, htag, if_true, Option.some.injEq]
    unfold answer
    split <;> rfl

/-- C114, asking: a client that works takes the question, gives it the next number and sends it as it was asked; one that does not
work refuses it, sends nothing and remembers nothing. -/
theorem C114_ask_partial (user pass : Bytes) (evs : List Ev) (s : St) (outs) (hr : run (start user pass) evs = some (s, outs))
    (hn : asked evs < 0xFFFFFF) (q : Query) (s' : St) (o : List Out) (hs : step s (.ask q) = some (s', o)) :
    (works s = false → o = [.refused] ∧ s' = s) ∧
    (works s = true → works s' = true ∧ ∃ m, o = [.taken (takenIn outs), .send m] ∧ m.bytes = q.bytes ∧ content m = question (takenIn outs) q) := by
  have hI := inv_run hr (Nat.le_of_lt hn)
  have hlt : s.count < 0xFFFFFF := Nat.lt_of_le_of_lt (count_le hr hI) hn
  simp only [step] at hs
  unfold ask at hs
  split at hs
  · rename_i hw
    refine ⟨fun h => by simp [works, hw] at h, fun _ => ?_⟩
    cases hb : isSub q.cmd with
    | none => rw [hb] at hs; simp at hs
    | some b =>
      rw [hb] at hs
      simp only [Option.map_some, Option.some.injEq] at hs
      obtain ⟨h1, h2, -⟩ := inv_ask hI q b hb hlt
      rw [← (run_count hr).1]
      cases hs
      refine ⟨by simp [works, put, drop, hw], _, rfl, rfl, ?_⟩
      rw [content_message]
      show question (number s) q = _
      rw [h1]
  · rename_i hw
    cases hs
    exact ⟨fun _ => ⟨rfl, rfl⟩, fun h => absurd (by simpa [works] using h) hw⟩

/-- C114, after a new connection: when the server says yes to the login, the client works and sends every subscription that is in
force again, each once and as it was asked.  Missing: clients without user name or password (`C114_violated_anonymous`), questions
that do not subscribe (`C114_violated_lost`). -/
theorem C114_resubscribe_partial (user pass : Bytes) (evs : List Ev) (s : St) (outs)
    (hr : run (start user pass) evs = some (s, outs)) (hn : asked evs ≤ 0xFFFFFF) (m : Msg) (s' : St) (o : List Out)
    (hs : step s (.recv m) = some (s', o)) (h0 : works s = false) (h1 : works s' = true) :
    List.Perm (o.map said) ((subsOf (evs.zip outs)).map fun x => some (x.2.bytes, question x.1 x.2)) := by
  have hI := inv_run hr hn
  have hnw : s.status ≠ .work := by simpa [works] using h0
  simp only [step, Option.some.injEq] at hs
  unfold recv at hs
  split at hs
  · rename_i hw; exact absurd hw hnw
  · split at hs
    · cases hs
      rw [← hI.list, List.map_map, List.map_map]
      refine List.Perm.of_eq (List.map_congr_left fun a ha => ?_)
      simp only [Function.comp, said, content_message, (hI.ids a (List.mem_filter.1 ha).1).1]
      rfl
    · cases hs; rw [h0] at h1; simp at h1
  · cases hs; rw [h0] at h1; simp at h1

theorem auth_iff (s : St) (user pass : Bytes) (h1 : s.user = cut32 user) (h2 : s.pass = cut32 pass) :
    s.auth = (decide (upTo0 user ≠ []) && decide (upTo0 pass ≠ [])) := by
  have key : ∀ x : Bytes, decide (0 < (cut32 x).length) = decide (upTo0 x ≠ []) := by
    intro x
    have : cut32 x = (upTo0 x).take 31 := rfl
    rw [this]
    cases upTo0 x <;> simp
  rw [St.auth, h1, h2, key, key]

theorem where_run {user pass : Bytes} {evs : List Ev} {s : St} {outs} (hr : run (start user pass) evs = some (s, outs)) :
    Where (decide (upTo0 user ≠ []) && decide (upTo0 pass ≠ [])) (lately evs) s.status := by
  induction evs using List.reverseRecOn generalizing s outs with
  | nil =>
    simp only [run, Option.some.injEq, Prod.mk.injEq] at hr
    rw [← hr.1]
    have hng : ¬ Greeted [] := by rintro ⟨a, b, m, h1, -⟩; simp at h1
    refine ⟨by simp [start, lately], ?_, by simp [start, lately]⟩
    have : lately [] = [] := rfl
    rw [this]
    split <;> simp [start, hng]
  | append_singleton es e ih =>
    obtain ⟨t, o, p, h1, h2, -⟩ := run_snoc hr
    rw [lately_snoc]
    exact where_step (auth_iff t user pass (run_count h1).2.1 (run_count h1).2.2) (ih h1) h2

/-- C114, the state that `status` reports: after any life the client works exactly when, since the connection was last lost, it has been
connected and not closed and - if it has a user name and a password - the server has said yes afterwards. -/
theorem C114_works (user pass : Bytes) (evs : List Ev) (s : St) (outs) (hr : run (start user pass) evs = some (s, outs)) :
    works s = true ↔ Up (decide (upTo0 user ≠ []) && decide (upTo0 pass ≠ [])) evs := by
  simp only [works, decide_eq_true_eq, (where_run hr).work, Up]
  rfl

/-- C114, the login: a client with user name and password that is connected sends them at once, before anything else, and does not
work until the server has said yes (`C114_works`).  Missing: names and passwords longer than 31 bytes (`C114_violated_password`). -/
theorem C114_login_partial (user pass : Bytes) (evs : List Ev) (s : St) (outs) (hr : run (start user pass) evs = some (s, outs))
    (hu : upTo0 user ≠ []) (hp : upTo0 pass ≠ []) (lu : (upTo0 user).length ≤ 31) (lp : (upTo0 pass).length ≤ 31)
    (s' : St) (o : List Out) (hs : step s .connected = some (s', o)) (hw : works s' = false) (hc : .close ∉ lately evs) :
    ∃ m, o = [.send m, .up] ∧ m.bytes = false ∧ content m =
      { name := [], sno := none, service := none, cmd := some (str "auth"), subject := none, tag := none,
        info := some (str "{\"username\":\"" ++ upTo0 user ++ str "\",\"password\":\"" ++ upTo0 pass ++ str "\"}") } := by
  have hau := auth_iff s user pass (run_count hr).2.1 (run_count hr).2.2
  have hex : s.status ≠ .exit := fun h => hc ((where_run hr).exit.1 h)
  have e1 : s.user = upTo0 user := by
    rw [(run_count hr).2.1]; exact List.take_of_length_le lu
  have e2 : s.pass = upTo0 pass := by
    rw [(run_count hr).2.2]; exact List.take_of_length_le lp
  simp only [step, Option.some.injEq] at hs
  unfold connect at hs
  split at hs
  · rename_i h; cases hs; simp [works, h] at hw
  · rename_i h; exact absurd h hex
  · rw [hau] at hs
    rw [if_pos (by simp [hu, hp])] at hs
    cases hs
    refine ⟨_, rfl, rfl, ?_⟩
    simp only [login, content, e1, e2]
    rw [List.take_of_length_le]
    · rfl
    simp only [List.length_append]
    have : (str "{\"username\":\"").length = 13 ∧ (str "\",\"password\":\"").length = 14 ∧ (str "\"}").length = 2 := by decide +kernel
    omega

/-- C114, nothing goes wrong as long as no command is longer than 127 bytes. -/
theorem C114_defined_partial (user pass : Bytes) (evs : List Ev)
    (h : ∀ q c, .ask q ∈ evs → q.cmd = some c → (upTo0 c).length < 128) : ∃ s outs, run (start user pass) evs = some (s, outs) := by
  have key : ∀ (evs : List Ev) (s : St), (∀ q c, .ask q ∈ evs → q.cmd = some c → (upTo0 c).length < 128) → ∃ s' outs, run s evs = some (s', outs) := by
    intro evs
    induction evs with
    | nil => exact fun s _ => ⟨s, [], rfl⟩
    | cons e es ih =>
      intro s hq
      have hstep : ∃ x, step s e = some x := by
        cases e with
        | ask q =>
          simp only [step, ask]
          split
          · have : ∃ b, isSub q.cmd = some b := by
              cases hc : q.cmd with
              | none => exact ⟨_, rfl⟩
              | some c =>
                have hl := hq q c (by simp) hc
                refine ⟨_, if_pos ⟨?_, ?_⟩⟩
                · exact Nat.lt_of_le_of_lt (List.takeWhile_sublist _).length_le hl
                · refine Nat.lt_of_le_of_lt ?_ hl
                  unfold Sub.after
                  rw [List.length_tail]
                  have := (List.dropWhile_sublist (l := cstrOf c) (· != Sub.dot)).length_le
                  have e : (cstrOf c).length = (upTo0 c).length := rfl
                  omega
            obtain ⟨b, hb⟩ := this
            exact ⟨_, by rw [hb]; rfl⟩
          · exact ⟨_, rfl⟩
        | _ => exact ⟨_, rfl⟩
      obtain ⟨x, hx⟩ := hstep
      obtain ⟨s', outs, hr⟩ := ih x.1 fun q c hm => hq q c (by simp [hm])
      exact ⟨s', x.2 :: outs, by simp [run, hx, hr]⟩
  exact key evs _ h

/-- A message with a tag. -/
def answerTo (name : Option Nat) (tag : Int) (v : String) : Msg :=
  { name := name.map Rec.dec, tag := tag, info := some (str v), sw := { tag := true, info := true } }

/-- A life: login, a subscription and a question, their answers, the connection lost and won again. -/
def aLife : List Ev :=
  [.connected, .recv (answerTo none 0 ""), .ask ⟨some (str "mdb.sub"), some (str "IF"), none, false, false, true⟩,
   .ask ⟨some (str "mdb.get"), some (str "IF"), none, true, true, false⟩, .recv (answerTo (some 1) 0 "x"), .recv (answerTo (some 1) 0 "y"),
   .recv (answerTo (some 0) 103 "z"), .disconnect, .ask ⟨some (str "mdb.get"), none, none, true, true, false⟩, .connected,
   .recv (answerTo none 0 "")]

/-- What its login says. -/
def loginSays : Content :=
  ⟨[], none, none, some (str "auth"), none, none, some (str "{\"username\":\"u\",\"password\":\"p\"}")⟩

/-- The hypotheses of the theorems above are met by this life: it is defined, and the client answers, calls and subscribes again. -/
example : (run (start (str "u") (str "p")) aLife).map (fun x => (works x.1, x.2.map (·.map said))) =
    some (true, [[some (false, loginSays), none], [],
      [none, some (false, question 0 ⟨some (str "mdb.sub"), some (str "IF"), none, false, false, true⟩)],
      [none, some (true, question 1 ⟨some (str "mdb.get"), some (str "IF"), none, true, true, false⟩)],
      [none, none], [], [none], [none], [none],
      [some (false, loginSays), none],
      [some (false, question 0 ⟨some (str "mdb.sub"), some (str "IF"), none, false, false, true⟩)]]) := by decide +kernel

example : (run (start (str "u") (str "p")) aLife).map (fun x => ((x.2.drop 4).take 5, asked aLife, takenIn x.2, subsOf (aLife.zip x.2))) =
    some ([[.call 1 0 none (some (str "x")), .back 1 true], [], [.call 0 103 none (some (str "z"))], [.down], [.refused]], 3, 2,
      [(0, ⟨some (str "mdb.sub"), some (str "IF"), none, false, false, true⟩)]) := by decide +kernel

/-! ### What goes wrong -/

/-- C114 is violated for `sub` without a service (the way the interface of the client documents it): it is not taken for a
subscription, so after its first answer no message of the server reaches its callback any more, whatever happens. -/
theorem C114_violated_plain (user pass : Bytes) (evs : List Ev) (s : St) (outs) (hr : run (start user pass) evs = some (s, outs))
    (hn : asked evs ≤ 0xFFFFFF) (q : Query) (hq : q.cmd = some (str "sub")) (id : Nat)
    (ht : ∀ x ∈ evs.zip outs, ∀ q', Took x id q' → q' = q) (p : List Out) (hp : p ∈ outs) (t : Int) (k v : Option Bytes)
    (hc : .call id t k v ∈ p) (e : Ev) (s' : St) (o : List Out) (hs : step s e = some (s', o)) :
    ∀ t' k' v', .call id t' k' v' ∉ o := by
  intro t' k' v' hm
  obtain ⟨m, q', x, -, -, -, -, hx, hT, -, h1⟩ := C114_own_partial user pass evs s outs hr hn e s' o hs id t' k' v' hm
  have := ht x hx q' hT
  subst this
  exact h1 (by rw [hq]; decide +kernel) p hp t k v hc

/-- A life with such a subscription: the second message for it is not told. -/
example : (run (start [] []) [.connected, .ask ⟨some (str "sub"), some (str "IF"), none, false, false, true⟩,
    .recv (answerTo (some 0) 0 "x"), .recv (answerTo (some 0) 103 "y")]).map (fun x => (x.2.drop 2, takenIn x.2)) =
    some ([[.call 0 0 none (some (str "x"))], []], 1) := by decide +kernel

/-- C114 is violated for messages without a tag: whoever they are for, a client that works throws them away. -/
theorem C114_violated_untagged (s : St) (hw : works s = true) (m : Msg) (ht : m.sw.tag = false) : step s (.recv m) = some (s, []) := by
  have : s.status = .work := by simpa [works] using hw
  simp only [step, recv, this, ht, Option.some.injEq]
  split <;> simp

/-- C114 is violated for a client without user name or password: when its connection comes back it works again, but none of its
subscriptions is sent, and so the server does not know them. -/
theorem C114_violated_anonymous (user pass : Bytes) (h : upTo0 user = [] ∨ upTo0 pass = []) (evs : List Ev) (s : St) (outs)
    (hr : run (start user pass) evs = some (s, outs)) :
    ∃ s', run s [.disconnect, .connected] = some (s', [[.down], [.up]]) ∧ works s' = true ∧ s'.asks = s.asks := by
  have hau := auth_iff s user pass (run_count hr).2.1 (run_count hr).2.2
  have : s.auth = false := by
    rw [hau]
    rcases h with h | h <;> simp [h]
  refine ⟨{ s with status := .work }, ?_, rfl, rfl⟩
  have h2 : ({ s with status := .init } : St).auth = false := this
  simp [run, step, connect, h2]

/-- C114 is violated for a question that is open when the connection is lost: it is not sent again after the new login, so a call that
waits for its answer goes on waiting (`C114_back_partial`), with no limit of time. -/
theorem C114_violated_lost (user pass : Bytes) (evs : List Ev) (s : St) (outs) (hr : run (start user pass) evs = some (s, outs))
    (hn : asked evs ≤ 0xFFFFFF) (id : Nat) (q : Query) (ht : ∀ x ∈ evs.zip outs, ∀ q', Took x id q' → q' = q)
    (hq : ¬ Subscribes q.cmd) :
    ∃ s1 o1, run s [.disconnect, .connected, .recv { tag := 0, sw := { tag := true } }] = some (s1, o1) ∧ works s1 = true ∧
      (∀ o ∈ o1, ∀ m, .send m ∈ o → (content m).name ≠ Rec.dec id) ∧ ∀ o ∈ o1, ∀ ok, .back id ok ∉ o := by
  have hI := inv_run hr hn
  have hds : ∀ a ∈ s.asks.filter Ask.sub, Rec.dec a.sno ≠ Rec.dec id := by
    intro a ha he
    rw [List.mem_filter] at ha
    have h1 := Rec.dec_inj he
    rw [(hI.ids a ha.1).1] at h1
    obtain ⟨x, hx, hT⟩ := hI.took a ha.1
    rw [h1] at hT
    have := ht x hx _ hT
    have h2 := (isSub_iff (hI.sub a ha.1)).1 ha.2
    rw [this] at h2
    exact hq h2
  have hn0 : (content (login { s with status := .init })).name ≠ Rec.dec id := by
    intro h
    exact (Rec.dec_facts id).1 h.symm
  by_cases hau : ({ s with status := .init } : St).auth = true
  · refine ⟨{ s with status := .work }, [[.down], [.send (login { s with status := .init }), .up],
      (s.asks.filter Ask.sub).map fun a => .send (message a)], ?_, rfl, ?_, ?_⟩
    · simp only [run, step, connect, recv, hau, if_true, Option.bind_some, Option.map_some, and_self]
    · intro o ho m hm
      simp only [List.mem_cons, List.not_mem_nil, or_false] at ho
      rcases ho with rfl | rfl | rfl
      · simp at hm
      · simp at hm
        rw [hm]; exact hn0
      · obtain ⟨a, ha, he⟩ := List.mem_map.1 hm
        cases he
        rw [content_message]
        exact hds a ha
    · intro o ho ok hm
      simp only [List.mem_cons, List.not_mem_nil, or_false] at ho
      rcases ho with rfl | rfl | rfl <;> simp at hm
  · have h2 : ({ s with status := .work } : St).asks = s.asks := rfl
    have hfind : find { s with status := .work } none = none := rfl
    refine ⟨{ s with status := .work }, [[.down], [.up], []], ?_, rfl, by simp, by simp⟩
    simp only [run, step, connect, hau, Option.bind_some, Option.map_some, recv]
    rfl

/-- C114 is violated for a subscription made with a call that waits: the second message with its number is written into the message of
that call, which has come back (and whose message may be gone). -/
theorem C114_violated_stale (user pass : Bytes) (evs : List Ev) (s : St) (outs) (hr : run (start user pass) evs = some (s, outs))
    (hn : asked evs < 0xFFFFFF) (hw : works s = true) (key val : Option Bytes) (bytes cb : Bool) (m1 m2 : Msg)
    (h1 : Named m1 (takenIn outs)) (t1 : m1.sw.tag = true) (h2 : Named m2 (takenIn outs)) (t2 : m2.sw.tag = true) :
    ∃ s' o1 o2, run s [.ask ⟨some (str "mdb.sub"), key, val, bytes, true, cb⟩, .recv m1, .recv m2] =
      some (s', [o1, o2, [.stale (takenIn outs)]]) ∧ ∃ ok, .back (takenIn outs) ok ∈ o2 := by
  have hI := inv_run hr (Nat.le_of_lt hn)
  have hlt : s.count < 0xFFFFFF := Nat.lt_of_le_of_lt (count_le hr hI) hn
  have hcnt := (run_count hr).1
  have hwk : s.status = .work := by simpa [works] using hw
  have hb : isSub (some (str "mdb.sub")) = some true := by decide +kernel
  let q : Query := ⟨some (str "mdb.sub"), key, val, bytes, true, cb⟩
  obtain ⟨e1, e2, hI1⟩ := inv_ask hI q true hb hlt
  let s1 := (put s true q).1
  have hs1 : step s (.ask q) = some (s1, [.taken s.count, .send (message (put s true q).2)]) := by
    have : isSub q.cmd = some true := hb
    simp only [step, ask, hwk, this, Option.map_some, s1]
  have hw1 : s1.status = .work := hwk
  have hc1 : s1.count ≤ 0xFFFFFF := hlt
  let a : Ask := ⟨s.count, number s, true, q, false⟩
  have hf1 : find s1 m1.name = some a := (find_named hI1 hc1).2 ⟨by simp [put, a], by rw [← hcnt] at h1; exact h1⟩
  let s2 : St := { s1 with asks := s1.asks.map fun b => if b.sno = a.sno then { b with back := b.back || b.q.wait } else b }
  have hs2 : step s1 (.recv m1) = some (s2, reply a m1) := by
    simp only [step, recv, hw1, hf1, t1, if_true, answer, a, s2]
  have hI2 := inv_step hI1 (by
    have hz : askedIn (evs.zip outs) = asked evs := by
      rw [askedIn, List.map_fst_zip (by rw [run_length hr]; exact Nat.le_refl _)]
    simp only [askedIn, asked, List.map_append, List.countP_append] at hz ⊢
    rw [hz]
    simp only [List.map_cons, List.map_nil, List.countP_cons, List.countP_nil]
    exact hn) hs2
  have hf2 : find s2 m2.name = some { a with back := true } := by
    refine (find_named hI2 hc1).2 ⟨?_, by rw [← hcnt] at h2; exact h2⟩
    refine List.mem_map.2 ⟨a, by simp [s1, put, a], ?_⟩
    rw [if_pos rfl]
    rfl
  have hw2 : s2.status = .work := hwk
  have hs3 : ∃ s3, step s2 (.recv m2) = some (s3, reply { a with back := true } m2) := by
    simp only [step, recv, hw2, hf2, t2, if_true, answer, a]
    exact ⟨_, rfl⟩
  obtain ⟨s3, hs3⟩ := hs3
  refine ⟨s3, [.taken s.count, .send (message (put s true q).2)], reply a m1, ?_, decide (0 ≤ (told m1).1), ?_⟩
  · simp only [run]
    rw [hs1, Option.bind_some, hs2, Option.bind_some, hs3]
    rw [← hcnt]
    rfl
  · rw [← hcnt]; simp [reply, a, q]

/-- Such a life: login, and the names of the two messages. -/
example : (run (start [] []) [.connected]).map (fun x => (works x.1, takenIn x.2)) = some (true, 0) ∧
    Named (answerTo (some 0) 0 "x") 0 ∧ (answerTo (some 0) 0 "x").sw.tag = true :=
  ⟨by decide +kernel, ⟨Rec.dec 0, rfl, by decide +kernel⟩, rfl⟩

/-- C114 is violated for commands of 128 bytes and more, even without any point in them: they are copied into arrays of 128 bytes. -/
theorem C114_violated_long (s : St) (hw : works s = true) (c : Bytes) (h0 : (0 : UInt8) ∉ c) (hd : (46 : UInt8) ∉ c) (hl : 128 ≤ c.length)
    (q : Query) (hq : q.cmd = some c) : step s (.ask q) = none := by
  have hwk : s.status = .work := by simpa [works] using hw
  have e1 : cstrOf c = c := takeWhile_cstr fun x hx h => h0 (h ▸ hx)
  have e2 : Sub.before c = c := by
    unfold Sub.before
    have : ∀ l : Bytes, (46 : UInt8) ∉ l → l.takeWhile (· != Sub.dot) = l := by
      intro l
      induction l with
      | nil => intro _; rfl
      | cons a l ih =>
        intro h
        simp only [List.mem_cons, not_or] at h
        rw [List.takeWhile_cons, if_pos (by simp only [Sub.dot, bne_iff_ne]; exact fun e => h.1 e.symm), ih h.2]
    exact this c hd
  simp only [step, ask, hwk, hq, isSub, e1, e2, Option.map_eq_none_iff]
  rw [if_neg (by omega)]

/-- C114 is violated for passwords longer than 31 bytes (and so for user names): the rest is ignored, so that the server may refuse
the right password, and take a wrong one. -/
theorem C114_violated_password (user pass rest : Bytes) (h0 : (0 : UInt8) ∉ pass) (hl : pass.length = 31) :
    start user (pass ++ rest) = start user pass := by
  have key : ∀ p : Bytes, (0 : UInt8) ∉ p → (p ++ rest).takeWhile (· != 0) = p ++ rest.takeWhile (· != 0) := by
    intro p
    induction p with
    | nil => intro _; rfl
    | cons a p ih =>
      intro h
      simp only [List.mem_cons, not_or] at h
      rw [List.cons_append, List.takeWhile_cons, if_pos (by simp only [bne_iff_ne]; exact fun e => h.1 e.symm), ih h.2, List.cons_append]
  unfold start
  congr 1
  unfold cut32
  have e1 : cstrOf (pass ++ rest) = pass ++ cstrOf rest := key pass h0
  have e2 : cstrOf pass = pass := takeWhile_cstr fun x hx h => h0 (h ▸ hx)
  rw [e1, e2, List.take_append_of_le_length (by omega)]

/-- C114, threads: a thread that asks while no other does ends where the question as one event ends. -/
theorem C114_alone (s : St) (hw : works s = true) (l : Nat → Local) (t : Nat) (q : Query) (s' : St) (o : List Out)
    (hs : step s (.ask q) = some (s', o)) : ∃ l', micros (s, l) [.read t, .write t, .enter t q, .fin t] = some (s', l') := by
  have hwk : s.status = .work := by simpa [works] using hw
  simp only [step, ask, hwk] at hs
  cases hb : isSub q.cmd with
  | none => rw [hb] at hs; simp at hs
  | some b =>
    rw [hb] at hs
    simp only [Option.map_some, Option.some.injEq, Prod.mk.injEq] at hs
    rw [← hs.1]
    simp only [micros, micro, hb, if_true, Option.bind_some, Option.map_some, List.any_append, List.any_cons, decide_true, Bool.true_or,
      Bool.or_true]
    exact ⟨_, rfl⟩

/-- C114 is violated for two threads that ask at the same moment: both read the counter before one of them writes it, both questions
get the same number, the first is freed while its thread still writes to it; and even without that write only the second is left. -/
theorem C114_violated_race (user pass : Bytes) (evs : List Ev) (s : St) (outs) (hr : run (start user pass) evs = some (s, outs))
    (hn : asked evs < 0xFFFFFF) (l : Nat → Local) (q q' : Query) (hq : q.cmd = some (str "mdb.get")) (hq' : q'.cmd = some (str "mdb.get")) :
    (∃ x, micros (s, l) [.read 0, .read 1, .write 0, .write 1, .enter 0 q, .enter 1 q', .fin 1] = some x ∧
      x.1.count = s.count + 2 ∧ x.1.next = (s.next + 1) % 4294967296 ∧ x.1.asks.map Ask.id = s.asks.map Ask.id ++ [s.count + 1]) ∧
    micros (s, l) [.read 0, .read 1, .write 0, .write 1, .enter 0 q, .enter 1 q', .fin 0] = none := by
  have hI := inv_run hr (Nat.le_of_lt hn)
  have hlt : s.count < 0xFFFFFF := Nat.lt_of_le_of_lt (count_le hr hI) hn
  have hb : isSub (some (str "mdb.get")) = some false := by decide +kernel
  obtain ⟨e1, e2, -⟩ := inv_ask hI q false (by rw [hq]; exact hb) hlt
  have e2' : (s.asks.filter fun a => !decide (a.sno = s.next % 0xFFFFFF)) = s.asks := e2
  have hall : (s.asks.any fun b => decide (b.id = s.count)) = false := by
    rw [List.any_eq_false]
    intro a ha
    have := (hI.ids a ha).2
    simp only [decide_eq_true_eq]
    omega
  constructor
  · simp [micros, micro, hq, hq', hb, drop, e2', List.filter_append]
  · simp [micros, micro, hq, hq', hb, drop, e2', List.filter_append]
    intro a ha
    have := (hI.ids a ha).2
    omega

/-- Such a state: a client that has connected. -/
example : ∃ s, run (start [] []) [.connected] = some (s, [[.up]]) ∧ works s = true := ⟨_, rfl, rfl⟩

/-! ### Questions without end -/

/-- A message that answers question number `k`. -/
def reply0 (k : Nat) (v : Bytes) : Msg := { name := some (Rec.dec k), tag := 0, info := some v, sw := { tag := true, info := true } }

/-- A subscription and a question. -/
def theSub : Query := ⟨some (str "mdb.sub"), some (str "IF"), none, false, false, true⟩
/-- The question. -/
def theGet : Query := ⟨some (str "mdb.get"), some (str "IF"), none, false, false, true⟩

/-- `n` questions, each answered before the next is asked. -/
def rounds (n : Nat) : List Ev := (List.range n).flatMap fun k => [.ask theGet, .recv (reply0 (k + 1) (str "x"))]

theorem run_append {s t : St} {a b : List Ev} {o} (h : run s a = some (t, o)) : run s (a ++ b) = (run t b).map fun y => (y.1, o ++ y.2) := by
  induction a generalizing s o with
  | nil =>
    simp only [run, Option.some.injEq, Prod.mk.injEq] at h
    rw [← h.1, ← h.2]
    cases hb : run s b <;> simp [hb]
  | cons e es ih =>
    simp only [run] at h
    cases hs : step s e with
    | none => rw [hs] at h; simp at h
    | some x =>
      rw [hs, Option.bind_some] at h
      cases hr : run x.1 es with
      | none => rw [hr] at h; simp at h
      | some y =>
        rw [hr] at h
        simp only [Option.map_some, Option.some.injEq, Prod.mk.injEq] at h
        simp only [List.cons_append, run, hs, Option.bind_some]
        rw [ih (s := x.1) (o := y.2) (by rw [hr, ← h.1]), Option.map_map, ← h.2]
        rfl

theorem round (n : Nat) (h : n + 1 < 0xFFFFFF) :
    ∃ o, run ⟨.work, [], [], n + 1, n + 1, [⟨0, 0, true, theSub, false⟩]⟩ [.ask theGet, .recv (reply0 (n + 1) (str "x"))] =
      some (⟨.work, [], [], n + 2, n + 2, [⟨0, 0, true, theSub, false⟩]⟩, o) := by
  have hb : isSub theGet.cmd = some false := by decide +kernel
  have hm : (n + 1) % 0xFFFFFF = n + 1 := Nat.mod_eq_of_lt h
  have hm2 : (n + 1 + 1) % 4294967296 = n + 2 := Nat.mod_eq_of_lt (by omega)
  have hu : upTo0 (Rec.dec (n + 1)) = Rec.dec (n + 1) := takeWhile_cstr (Rec.dec_cstr _).1
  have f0 : caseEq (Rec.dec (n + 1)) (serial 0) = false := by
    rw [Bool.eq_false_iff, Ne, caseEq_serial (by omega), hu]
    intro e
    have := Rec.dec_inj e
    omega
  have f1 : caseEq (Rec.dec (n + 1)) (serial (n + 1)) = true := by rw [caseEq_serial (by omega), hu]
  have hf : List.find? (fun a => caseEq (Rec.dec (n + 1)) (serial a.sno)) [(⟨0, 0, true, theSub, false⟩ : Ask), ⟨n + 1, n + 1, false, theGet, false⟩] =
      some ⟨n + 1, n + 1, false, theGet, false⟩ := by
    rw [List.find?_cons_of_neg (by simpa using f0), List.find?_cons_of_pos (by exact f1)]
  simp only [run, step, ask, hb, Option.map_some, put, number, hm, hm2, drop, recv, find, reply0, Option.bind_some]
  simp [answer, drop, hf]

theorem many (n : Nat) (h : n < 0xFFFFFF) :
    ∃ o, run (start [] []) (.connected :: .ask theSub :: rounds n) =
      some (⟨.work, [], [], n + 1, n + 1, [⟨0, 0, true, theSub, false⟩]⟩, o) := by
  induction n with
  | zero =>
    have hb : isSub theSub.cmd = some true := by decide +kernel
    simp [rounds, run, step, connect, start, St.auth, cut32, cstrOf, ask, hb, put, drop, number]
  | succ n ih =>
    obtain ⟨o, ho⟩ := ih (by omega)
    obtain ⟨p, hp⟩ := round n (by omega)
    have e : (.connected :: .ask theSub :: rounds (n + 1) : List Ev) =
        (.connected :: .ask theSub :: rounds n) ++ [.ask theGet, .recv (reply0 (n + 1) (str "x"))] := by
      simp [rounds, List.range_succ]
    rw [e, run_append ho, hp]
    exact ⟨_, rfl⟩

/-- C114 is violated after 16777215 questions: the numbers begin again, a new question gets the number of a subscription that is in
force, and the subscription is gone: the next message for it goes to the callback of the new question, and the ones after that to
nobody. -/
theorem C114_violated_wrap :
    ∃ s outs, run (start [] []) (.connected :: .ask theSub :: rounds 0xFFFFFE) = some (s, outs) ∧
      subsOf ((.connected :: .ask theSub :: rounds 0xFFFFFE).zip outs) = [(0, theSub)] ∧
      ∃ s' o, run s [.ask theGet, .recv (reply0 0 (str "news")), .recv (reply0 0 (str "more"))] =
        some (s', [o, [.call 0xFFFFFF 0 none (some (str "news"))], []]) := by
  obtain ⟨outs, h⟩ := many 0xFFFFFE (by omega)
  refine ⟨_, outs, h, ?_, ?_⟩
  · have hc : ∀ n, asked (.connected :: .ask theSub :: rounds n) = n + 1 := by
      intro n
      have : asked (rounds n) = n := by
        unfold asked rounds
        induction n with
        | zero => rfl
        | succ n ih => rw [List.range_succ, List.flatMap_append, List.countP_append, ih]; rfl
      unfold asked at this ⊢
      rw [List.countP_cons, List.countP_cons, this]
      simp
    have hI := inv_run h (by rw [hc]; exact Nat.le_refl _)
    rw [← hI.list]
    rfl
  · have hl : ∀ x : Option (St × List (List Out)), x.map (fun y => y.2.drop 1) = some [[.call 0xFFFFFF 0 none (some (str "news"))], []] →
        ∃ s' o, x = some (s', [o, [.call 0xFFFFFF 0 none (some (str "news"))], []]) := by
      rintro (_ | ⟨s', l⟩) h
      · simp at h
      · cases l with
        | nil => simp at h
        | cons o l =>
          simp only [Option.map_some, List.drop_succ_cons, List.drop_zero, Option.some.injEq] at h
          exact ⟨s', o, by rw [h]⟩
    have hv : (run ⟨.work, [], [], 0xFFFFFE + 1, 0xFFFFFE + 1, [⟨0, 0, true, theSub, false⟩]⟩
        [.ask theGet, .recv (reply0 0 (str "news")), .recv (reply0 0 (str "more"))]).map (fun y => y.2.drop 1) =
        some [[.call 0xFFFFFF 0 none (some (str "news"))], []] := by decide +kernel
    exact hl _ hv

/-! ### Against the data set in memory (`Verif.Mem.Memdb`) -/

/-- C114 is violated for subscriptions to the data set in memory: the server takes the subscription and says so with the number of
subscribers, and the client, which does not know that kind of answer, tells the callback of an error. -/
theorem C114_violated_memdb (user pass : Bytes) (evs : List Ev) (s : St) (outs) (hr : run (start user pass) evs = some (s, outs))
    (hn : asked evs < 0xFFFFFF) (hw : works s = true) (key : Bytes) (w w' : Memdb.W) (cid level : Int) (hl : 0 ≤ level)
    (s1 : St) (m : Msg) (id : Nat)
    (hs : step s (.ask ⟨some (str "memdb.sub"), some key, none, false, false, true⟩) = some (s1, [.taken id, .send m]))
    (rs : List (Int × Msg)) (hsv : Memdb.serve w ⟨cid, level, m⟩ = some (w', rs)) :
    ∃ r n, rs = [(cid, r)] ∧ Sub.sub w.subs cid (upTo0 key) false = some (w'.subs, n) ∧ content r = { content m with tag := some 1, info := some (toString n).toUTF8.toList } ∧
      ∃ s2, step s1 (.recv r) = some (s2, [.call id (-2) (some (upTo0 key)) r.info]) := by
  have hI := inv_run hr (Nat.le_of_lt hn)
  have hlt : s.count < 0xFFFFFF := Nat.lt_of_le_of_lt (count_le hr hI) hn
  have hwk : s.status = .work := by simpa [works] using hw
  let q : Query := ⟨some (str "memdb.sub"), some key, none, false, false, true⟩
  have hb : isSub q.cmd = some true := by
    show isSub (some (str "memdb.sub")) = _
    decide +kernel
  obtain ⟨e1, e2, hI1⟩ := inv_ask hI q true hb hlt
  have hs0 : step s (.ask q) = some ((put s true q).1, [.taken s.count, .send (message (put s true q).2)]) := by
    simp only [step, ask, hwk, hb, Option.map_some]
  rw [hs0] at hs
  simp only [Option.some.injEq, Prod.mk.injEq, List.cons.injEq, Out.taken.injEq, Out.send.injEq, and_true] at hs
  obtain ⟨rfl, rfl, rfl⟩ := hs
  have hcmd : (message (put s true q).2).cmd = some (str "sub") := by
    show command (cstrOf (str "memdb.sub")) = _
    decide +kernel
  have hsubj : (message (put s true q).2).subject = some (upTo0 key) := rfl
  have hme : Memdb.method (some (str "sub")) = some .sub := by decide +kernel
  have hlv : ¬ (level < 0 ∧ Memdb.isAuth (some (str "sub")) = false) := by omega
  simp only [Memdb.serve, hcmd, if_neg hlv, hme, Memdb.access, Access.accessMethod, if_true, Memdb.exec, hsubj, Option.getD_some] at hsv
  cases hx : Sub.sub w.subs cid (upTo0 key) false with
  | none => rw [hx] at hsv; simp at hsv
  | some x =>
    obtain ⟨ws, n⟩ := x
    rw [hx] at hsv
    simp only [Option.map_some, Option.some.injEq, Prod.mk.injEq] at hsv
    obtain ⟨rfl, rfl⟩ := hsv
    refine ⟨_, n, rfl, rfl, rfl, ?_⟩
    have hf1 : find (put s true q).1 (message (put s true q).2).name = some ⟨s.count, number s, true, q, false⟩ :=
      (find_named hI1 (Nat.succ_le_of_lt hlt)).2 ⟨by simp [put], Rec.dec s.count, by
        show Csv.ll2str (number s) = _
        rw [e1, ll2str_nat], takeWhile_cstr (Rec.dec_cstr _).1⟩
    have hw1 : (put s true q).1.status = .work := hwk
    have hnm : (Memdb.replyOk (Memdb.tagInt (message (put s true q).2) n)).name = (message (put s true q).2).name := rfl
    have htg : (Memdb.replyOk (Memdb.tagInt (message (put s true q).2) n)).sw.tag = true := rfl
    have hid : cstrOf (cstrOf key) = upTo0 key := takeWhile_cstr (cstr_upTo0 key)
    simp only [step, recv, hw1, hnm, hf1, htg, if_true, answer]
    rw [← hid]
    exact ⟨_, rfl⟩

/-- The server takes such a subscription. -/
example : ((step ⟨.work, [], [], 0, 0, []⟩ (.ask ⟨some (str "memdb.sub"), some (str "IF"), none, false, false, true⟩)).bind fun x =>
    match x.2 with
    | [.taken id, .send m] => (Memdb.serve Memdb.start ⟨3, 0, m⟩).map fun y => (id, y.2.map fun r => (r.1, (content r.2).tag))
    | _ => none) = some (0, [(3, some 1)]) := by decide +kernel

/-- C114 is violated for what other clients publish in the data set in memory: what the server passes on of a `pub` of a client has no
tag, so no client that works tells any callback of it (`C114_violated_untagged`). -/
theorem C114_violated_published (s : St) (q : Query) (hq : q.cmd = some (str "memdb.pub")) (s1 : St) (id : Nat) (m : Msg)
    (hs : step s (.ask q) = some (s1, [.taken id, .send m])) (w w' : Memdb.W) (cid level : Int) (hl : 0 ≤ level)
    (rs : List (Int × Msg)) (hsv : Memdb.serve w ⟨cid, level, m⟩ = some (w', rs)) (x : Int × Msg) (hx : x ∈ rs) (t : St) (ht : works t = true) :
    step t (.recv x.2) = some (t, []) := by
  have hb : isSub q.cmd = some false := by rw [hq]; decide +kernel
  simp only [step, ask, hb, Option.map_some] at hs
  split at hs
  · simp only [Option.some.injEq, Prod.mk.injEq, List.cons.injEq, Out.taken.injEq, Out.send.injEq, and_true] at hs
    obtain ⟨-, -, rfl⟩ := hs
    have hcmd : (message (put s false q).2).cmd = some (str "pub") := by
      show (q.cmd.map cstrOf).bind command = _
      rw [hq]
      decide +kernel
    have hme : Memdb.method (some (str "pub")) = some .pub := by decide +kernel
    have hlv : ¬ (level < 0 ∧ Memdb.isAuth (some (str "pub")) = false) := by omega
    simp only [Memdb.serve, hcmd, if_neg hlv, hme, Memdb.access, Access.accessMethod, if_true, Memdb.exec] at hsv
    generalize hM : message (put s false q).2 = M at hsv
    have hMt : M.sw.tag = false := by rw [← hM]; rfl
    refine C114_violated_untagged t ht x.2 ?_
    cases hp : Sub.pub w.subs (M.subject.getD []) with
    | none => rw [hp] at hsv; simp at hsv
    | some cids =>
      rw [hp] at hsv
      simp only [Option.map_some, Option.some.injEq, Prod.mk.injEq] at hsv
      rw [← hsv.2] at hx
      unfold Memdb.notice at hx
      split at hx
      · obtain ⟨c, -, rfl⟩ := List.mem_map.1 hx
        exact hMt
      · simp at hx
  · simp at hs

/-- The server passes such a message on. -/
example : ((step ⟨.work, [], [], 0, 0, []⟩ (.ask ⟨some (str "memdb.pub"), some (str "IF"), some (str "v"), false, false, true⟩)).bind fun x =>
    match x.2 with
    | [.taken _, .send m] => ((Sub.sub Sub.start 3 (str "IF") false).bind fun z => Memdb.serve { Memdb.start with subs := z.1 } ⟨4, 0, m⟩).map
        fun y => y.2.map fun r => (r.1, (content r.2).tag, (content r.2).info)
    | _ => none) = some [(3, none, some (str "v"))] := by decide +kernel

end Sis.Cli
