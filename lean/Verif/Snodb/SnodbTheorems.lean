import Verif.Snodb.SnodbMore
/-
C117: the stream of a day.  A source starts a day, publishes, and stops; connections subscribe at any time.
-/
namespace Sis.Snodb
open Sis

/-- A world: names are kept as they are. -/
private def w (keep : Bool) : Env := ⟨keep, fun b => if b = [0] then none else some b, fun a _ => a, fun a _ => a⟩
private def ask (cid : Nat) (head : Bool) : Ask := ⟨cid, none, some ([42], [42]), true, head, none, 1, false⟩
private def day1 : List Ev := [.keys (some [107]), .sdbs (some [116]), .sub (ask 5 false)]
private def day3 : List Ev := [.zpub [1], .zpub [129, 2], .read 5, .read 5, .read 5, .read 5, .zpub [3], .read 5]
private def day2 : List Ev := [.zpub [1], .zpub [129, 2], .read 5, .sub (ask 6 true), .read 5, .read 5, .zpub [3], .read 5, .read 6, .read 6, .read 6]

/-- Whatever happened before, since the day started (`start`, and no other one behind it), a packet reaches a connection only behind the
messages that the day starts and what its keys and tables are; the packets between those messages and this one, and this one, are a piece of
the day's packets without gap, in their order, and the first of them begins a block.  Here the list keeps all packets
(`catch-size` 0). -/
theorem C117_day_partial {e : Env} (hk : e.keep = true) {today d cid : Nat} {e1 e2 : List Ev} {s : St} {os0 os : List (List Out)} {a : List Out}
    (h : run e (init today) (e1 ++ .start d :: e2) = some (s, os0 ++ a :: os)) (hl : os0.length = e1.length)
    (hno : ∀ v ∈ e2, isStart v = false) {x y : List Note} {p : Bytes} (hp : got cid (a :: os) = x ++ .packet p :: y) :
    ∃ u d' k t n, x = u ++ [.start d', .keys k, .sdbs t] ++ n ∧ (∀ m ∈ n, (∃ p, m = .packet p) ∨ (∃ p, m = .part p) ∨ ∃ d, m = .wait d) ∧
      packets n ++ [p] <:+: stream e2 os ∧ ∃ f l, packets n ++ [p] = f :: l ∧ Begins f := by
  obtain ⟨s1, h1, h2⟩ := run_split h hl
  obtain ⟨s2, h3, h4⟩ := run_head h2
  have hg1 := good_run (m := .all) (fun _ => hk) (good_init .all today) (fun h => by cases h) h1
  have hg2 := good_step (m := .all) (fun _ => hk) hg1 h3 (fun h => by cases h)
  cases h3
  have hd := day_run (m := .all) (by simp) (fun _ => hk) hg2 hno (Or.inl rfl) h4 (day_start (cid := cid) (e := e) (s := s1) (d := d) (Or.inl rfl))
  have hout := stream_run (m := .all) (fun _ => hk) hg2 hno h4
  rw [got_cons, got_answer, List.nil_append] at hp
  obtain ⟨u, d', k, t, n, a1, a2, a3, f, l, a4, a5⟩ := hd.fair x p y hp
  refine ⟨u, d', k, t, n, a1, a2, ?_, f, l, a4, (begins_iff f).1 a5⟩
  rw [hout] at a3
  simpa [hk] using a3

example : ∃ s os0 a os x p y, run (w true) (init 1) (day1 ++ .start 1 :: day2) = some (s, os0 ++ a :: os) ∧ os0.length = day1.length ∧
    (∀ v ∈ day2, isStart v = false) ∧ got 5 (a :: os) = x ++ .packet p :: y ∧ p = [3] ∧ packets x = [[129, 2]] ∧
    stream day2 os = [[1], [129, 2], [3]] :=
  ⟨_, [_, _, _], _, _, [.start 1, .keys [107], .sdbs [116], .packet [129, 2]], [3], [], rfl, rfl, by decide, by decide +kernel, rfl, rfl, by decide +kernel⟩

/-- As the program comes (the list keeps nothing), the same is true of a connection that never asks for a day from its head, if before the
day nobody was reading any more: no day was started before, or one was ended by `stop` and nothing was published behind it. -/
theorem C117_default_partial {e : Env} (hk : e.keep = false) {today d cid : Nat} {e1 e2 : List Ev} {s : St} {os0 os : List (List Out)} {a : List Out}
    (h : run e (init today) (e1 ++ .start d :: e2) = some (s, os0 ++ a :: os)) (hl : os0.length = e1.length)
    (hno : ∀ v ∈ e2, isStart v = false) (hsub : ∀ x, .sub x ∈ e1 ++ e2 → x.cid = cid → x.head = false)
    (hidle : (∀ v ∈ e1, isStart v = false) ∨ ∃ e0 l e', e1 = e0 ++ .stop l :: e' ∧ ∀ v ∈ e', isPub v = false)
    {x y : List Note} {p : Bytes} (hp : got cid (a :: os) = x ++ .packet p :: y) :
    ∃ u d' k t n, x = u ++ [.start d', .keys k, .sdbs t] ++ n ∧ (∀ m ∈ n, (∃ p, m = .packet p) ∨ (∃ p, m = .part p) ∨ ∃ d, m = .wait d) ∧
      packets n ++ [p] <:+: stream e2 os ∧ ∃ f l, packets n ++ [p] = f :: l ∧ Begins f := by
  obtain ⟨s1, h1, h2⟩ := run_split h hl
  obtain ⟨s2, h3, h4⟩ := run_head h2
  have hw : Mode.weak = .all → e.keep = true := fun h => by cases h
  have hw2 : Mode.weak = .part → ∀ v ∈ e1, isStart v = false := fun h => by cases h
  have hg1 := good_run (m := .weak) hw (good_init .weak today) hw2 h1
  have hclosed : ∀ r ∈ s1.readers, r.cursor = .closed := by
    rcases hidle with hi | ⟨e0, l, e', rfl, hi⟩
    · exact hg1.born (none_run (good_init .weak today) h1 hi rfl)
    · obtain ⟨t1, o1, o2, r1, r2, r3⟩ := run_append.1 h1
      obtain ⟨t2, o, o3, r4, r5, r6⟩ := run_cons.1 r2
      have hgt1 := good_run (m := .weak) hw (good_init .weak today) (fun h => by cases h) r1
      have hgt2 := good_step (m := .weak) hw hgt1 r4 (fun h => by cases h)
      refine closed_run hgt2 r5 hi ?_
      simp only [step, Option.some.injEq] at r4
      have r7 := r4
      obtain ⟨_, _, f3, _⟩ := stop_facts r4
      rcases f3 with hf | f3
      · by_cases hn : t1.status = .none
        · rw [hf]; exact hgt1.born hn
        · intro r hr
          refine hgt2.halt r hr ?_
          unfold stop at r7
          rw [if_neg hn] at r7
          have hst : ∀ q : Reader, (stopped q).status = .stop := by
            intro q
            unfold stopped
            split
            · assumption
            · rfl
          cases hd : t1.dict with
          | none =>
            rw [hd] at r7
            cases r7
            obtain ⟨q, _, rfl⟩ := List.mem_map.1 hr
            exact hst q
          | some dd =>
            rw [hd] at r7
            cases r7
            obtain ⟨q, _, rfl⟩ := List.mem_map.1 hr
            exact hst q
      · intro r hr
        exact hgt2.halt r hr (f3 r hr)
  cases h3
  have hg2 := good_part hk hg1 hclosed d
  have hhead : ∀ r ∈ s1.readers, r.cid = cid → r.head = false := by
    intro r hr hc
    obtain ⟨z, hz, f1, _, f3, _⟩ := origin_run (fun z => .sub z ∈ e1) (good_init .weak today) h1 (fun r hr => by cases hr) (fun _ h => h) r hr
    rw [f3]
    exact hsub z (List.mem_append_left _ hz) (f1.symm.trans hc)
  have hd := day_run (m := .part) (by simp) (fun h => by cases h) hg2 hno (Or.inr fun z hz hc => hsub z (List.mem_append_right _ hz) hc) h4
    (day_start (cid := cid) (e := e) (s := s1) (d := d) (Or.inr hhead))
  have hout := stream_run (m := .part) (fun h => by cases h) hg2 hno h4
  have he : (start e s1 d).1.out = s1.out := by unfold start; simp [hk]
  rw [got_cons, got_answer, List.nil_append] at hp
  obtain ⟨u, d', k, t, n, a1, a2, a3, f, l, a4, a5⟩ := hd.fair x p y hp
  refine ⟨u, d', k, t, n, a1, a2, ?_, f, l, a4, (begins_iff f).1 a5⟩
  rw [hout] at a3
  simpa [he] using a3

example : ∃ s os0 a os x p y, run (w false) (init 1) ((day1 ++ [.start 1, .zpub [130], .read 5, .read 5, .stop []]) ++ .start 1 :: day3) = some (s, os0 ++ a :: os) ∧
    os0.length = 8 ∧ got 5 (a :: os) = x ++ .packet p :: y ∧ p = [3] ∧ packets x = [[129, 2]] ∧ stream day3 os = [[1], [129, 2], [3]] :=
  ⟨_, [_, _, _, _, _, _, _, _], _, _, [.start 1, .keys [107], .sdbs [116], .packet [129, 2]], [3], [], rfl, rfl, by decide +kernel, rfl, rfl, by decide +kernel⟩

/-- Nothing is left out.  A connection that subscribes to everything in the packed format, with `head` = `hd`, and is told during a day (by
event `v`) that it starts, gets, if its thread comes to the end of the list, all packets of the day from one that begins a block on: from the
first such one if it asked for the head, else from none before the last such one that was there when `v` came; if no packet of the day begins a block,
it gets none. -/
theorem C117_all_partial {e : Env} (hk : e.keep = true) {today d cid d' n : Nat} {hd : Bool} {e1 f1 f2 : List Ev} {v : Ev} {s : St}
    {os0 os1 os2 os3 : List (List Out)} {a o : List Out}
    (h : run e (init today) (e1 ++ .start d :: (f1 ++ v :: (f2 ++ List.replicate n (.read cid)))) = some (s, os0 ++ a :: (os1 ++ o :: (os2 ++ os3))))
    (hl0 : os0.length = e1.length) (hl1 : os1.length = f1.length) (hl2 : os2.length = f2.length)
    (hno : ∀ x ∈ f1 ++ v :: f2, isStart x = false) (hq : ∀ x ∈ f2, isStop x = false ∧ about cid x = false) (hm : .start d' ∈ got cid [o])
    (hsub : ∀ x, .sub x ∈ e1 ++ f1 → x.cid = cid → x.parts = star ∧ x.zip = true ∧ x.head = hd)
    (hn : (stream (f1 ++ v :: f2) (os1 ++ o :: os2)).length + 1 ≤ n) :
    ((∀ p ∈ stream (f1 ++ v :: f2) (os1 ++ o :: os2), ¬ Begins p) ∧ packets (got cid (os2 ++ os3)) = []) ∨
    ∃ i p, (stream (f1 ++ v :: f2) (os1 ++ o :: os2))[i]? = some p ∧ Begins p ∧
      packets (got cid (os2 ++ os3)) = (stream (f1 ++ v :: f2) (os1 ++ o :: os2)).drop i ∧
      (hd = true → ∀ j q, j < i → (stream (f1 ++ v :: f2) (os1 ++ o :: os2))[j]? = some q → ¬ Begins q) ∧
      (hd = false → ∀ j q, (stream f1 os1)[j]? = some q → Begins q → j ≤ i) := by
  obtain ⟨s1, h1, h2⟩ := run_split h hl0
  obtain ⟨s2, h3, h4⟩ := run_head h2
  obtain ⟨s3, h5, h6⟩ := run_split h4 hl1
  obtain ⟨s4, h7, h8⟩ := run_head h6
  obtain ⟨s5, h9, h10⟩ := run_split h8 hl2
  have hg1 := good_run (m := .all) (fun _ => hk) (good_init .all today) (fun h => by cases h) h1
  have hg2 := good_step (m := .all) (fun _ => hk) hg1 h3 (fun h => by cases h)
  have hg3 := good_run (m := .all) (fun _ => hk) hg2 (fun h => by cases h) h5
  have hg4 := good_step (m := .all) (fun _ => hk) hg3 h7 (fun h => by cases h)
  have hg5 := good_run (m := .all) (fun _ => hk) hg4 (fun h => by cases h) h9
  have hg6 := good_run (m := .all) (fun _ => hk) hg5 (fun h => by cases h) h10
  have hs2 : s2.out = [] := by cases h3; simp [hk]
  have hr5 : run e s2 (f1 ++ v :: f2) = some (s5, os1 ++ o :: os2) :=
    run_append.2 ⟨s3, os1, o :: os2, h5, run_cons.2 ⟨s4, o, os2, h7, h9, rfl⟩, rfl⟩
  have hA := stream_run (m := .all) (fun _ => hk) hg2 hno hr5
  have hA1 := stream_run (m := .all) (fun _ => hk) hg2 (fun x hx => hno x (List.mem_append_left _ hx)) h5
  rw [hs2, List.nil_append] at hA hA1
  rw [← hA, ← hA1]
  rw [← hA] at hn
  have hv := start_pub hg3 h7 hm
  have hnear3 := hg3.near (by simp)
  obtain ⟨_, c2, _⟩ := publish_conn (m := .all) (by simp) hv hg3 h7 cid (s3.near.getD 0) (fun j hj => by rw [hj]; exact Nat.le_refl _) (by
    cases hj : s3.near with
    | none => simp
    | some j => exact Nat.le_of_lt (near_lt hnear3 hj))
  obtain ⟨K, T, q, d2, k, t, _, _, hqm, hqc, hqi, _, _, _, _, hst, hsw, hsv⟩ := c2 (fun h0 => by rw [h0] at hm; cases hm)
  have hbl : s3.near.getD 0 ≤ s4.out.length := by
    have := stream_step hg3 h7 (hno v (by simp))
    rw [this, List.length_append]
    cases hj : s3.near with
    | none => simp
    | some j => have := near_lt hnear3 hj; simp; omega
  have hid : q.whole = true ∧ q.zip = true ∧ q.head = hd := by
    have hrun3 : run e (init today) (e1 ++ .start d :: f1) = some (s3, os0 ++ a :: os1) :=
      run_append.2 ⟨s1, os0, a :: os1, h1, run_cons.2 ⟨s2, a, os1, h3, h5, rfl⟩, rfl⟩
    obtain ⟨z, hz, f1', f2', f3', k', t', f4', _, _, f5'⟩ := origin_run (fun z => .sub z ∈ e1 ++ .start d :: f1) (good_init .weak today) hrun3
      (fun r hr => by cases hr) (fun _ h => h) q hqm
    have hz' : .sub z ∈ e1 ++ f1 := by
      rcases List.mem_append.1 hz with h | h
      · exact List.mem_append_left _ h
      · rcases List.mem_cons.1 h with h | h
        · cases h
        · exact List.mem_append_right _ h
    obtain ⟨g1, g2, g3⟩ := hsub z hz' (f1'.symm.trans hqc)
    rw [f4'] at g1
    cases g1
    exact ⟨f5', f2'.trans g2, f3'.trans g3⟩
  obtain ⟨y1, y2, y3, _, _⟩ := started_same q
  obtain ⟨r5, hr5m, hr5c, hr5w, x1, x2, x3, hs5⟩ := serve_run (m := .all) (by simp) (fun _ => hk) hg4 h9
    (fun x hx => ⟨hno x (by simp [hx]), (hq x hx).1, (hq x hx).2⟩) hst ((started_cid q).trans hqc) hsw hsv hbl
  have hb5 : s3.near.getD 0 ≤ s5.out.length := by
    have := stream_run (m := .all) (fun _ => hk) hg4 (fun x hx => hno x (by simp [hx])) h9
    rw [this, List.length_append]; omega
  obtain ⟨r6, hr6m, hr6c, hr6w, z1, z2, z3, hs6⟩ := serve_run (m := .all) (by simp) (fun _ => hk) hg5 h10
    (fun x hx => by rw [List.eq_of_mem_replicate hx]; exact ⟨rfl, rfl, rfl⟩) hr5m hr5c hr5w hs5 hb5
  have hdist : dist s5.out.length r5.cursor ≤ n := by
    cases hc : r5.cursor with
    | closed => simp [dist]
    | fresh => simp only [dist]; omega
    | pos k => simp only [dist]; omega
    | lost => simp only [dist]; omega
  obtain ⟨hout, r7, hr7m, hr7c, hr7p⟩ := drain hk hg5 h10 hr5m hr5c hs5.live hdist
  have hsame : r7 = r6 := mem_unique hg6.nodup hr7m hr6m (hr7c.trans hr6c.symm)
  rw [hsame] at hr7p
  rw [hout] at hs6
  have hgot : got cid (os2 ++ os3) = [] ++ got cid os2 ++ got cid os3 := by unfold got; simp
  rw [hgot]
  have hwz : r6.whole = true ∧ r6.zip = true := ⟨z1.trans (x1.trans (y1.trans hid.1)), z2.trans (x2.trans (y2.trans hid.2.1))⟩
  have hhd : r6.head = hd := z3.trans (x3.trans (y3.trans hid.2.2))
  have hnear6 := hg6.near (by simp)
  rw [hout] at hnear6
  cases hi : r6.isinit with
  | false =>
    left
    obtain ⟨w1, w2, w3⟩ := hs6.waiting hi
    refine ⟨fun p hp => ?_, w1⟩
    obtain ⟨i, hi⟩ := List.mem_iff_getElem?.1 hp
    have hlt := (List.getElem?_eq_some_iff.1 hi).1
    rw [← begins_false]
    cases hh : r6.head with
    | true => exact w3 rfl hh _ hr7p i p hlt hi
    | false =>
      cases hb : begins p with
      | false => rfl
      | true =>
        obtain ⟨j, hj, _⟩ := hnear6.2 i p (Nat.zero_le _) hi hb
        have := w2 rfl hh _ j hr7p hj
        have := near_lt hnear6 hj
        omega
  | true =>
    right
    obtain ⟨i, k', g1, g2, g3, g4, ⟨p, g5, g6⟩, g7, g8⟩ := hs6.going hi
    rw [hr7p] at g1
    cases g1
    refine ⟨i, p, g5, (begins_iff p).1 g6, ?_, ?_, ?_⟩
    · rw [g4 hwz, List.take_length]
    · intro hh j q' hj hq'
      rw [← begins_false]
      exact g7 rfl (hhd.trans hh) j q' hj hq'
    · intro hh j q' hq' hb
      obtain ⟨l, hl, hjl⟩ := hnear3.2 j q' (Nat.zero_le _) hq' ((begins_iff q').2 hb)
      have := g8 (hhd.trans hh)
      rw [hl] at this
      exact Nat.le_trans hjl this

private def f1x : List Ev := [.zpub [128], .zpub [1], .zpub [129], .sub (ask 6 false), .zpub [2], .sub (ask 7 true)]
example : ∃ s a os1 o os2 os3, run (w true) (init 1) (day1 ++ .start 1 :: (f1x ++ .zpub [3] :: ([.zpub [130], .zpub [4]] ++ List.replicate 9 (.read 7)))) =
      some (s, [[.answer true], [.answer true], [.answer true]] ++ a :: (os1 ++ o :: (os2 ++ os3))) ∧ os1.length = f1x.length ∧ os2.length = 2 ∧ .start 1 ∈ got 7 [o] ∧
    stream (f1x ++ .zpub [3] :: [.zpub [130], .zpub [4]]) (os1 ++ o :: os2) = [[128], [1], [129], [2], [3], [130], [4]] ∧
    packets (got 7 (os2 ++ os3)) = [[128], [1], [129], [2], [3], [130], [4]] :=
  ⟨_, _, [_, _, _, _, _, _], _, [_, _], _, rfl, rfl, rfl, by decide +kernel, by decide +kernel, by decide +kernel⟩

/-- Whoever subscribes during a day, to whatever part of the data, is told by the next record or packet that is taken that the day starts, if it was not told before. -/
theorem C117_started_partial {e : Env} {today d : Nat} {x : Ask} {e1 f1 f2 : List Ev} {v : Ev} {s : St} {os0 os : List (List Out)} {a o : List Out}
    (h : run e (init today) (e1 ++ .start d :: (f1 ++ .sub x :: (f2 ++ [v]))) = some (s, os0 ++ a :: (os ++ [o]))) (hl0 : os0.length = e1.length)
    (hno : ∀ y ∈ f1 ++ f2, isStart y = false ∧ isStop y = false) (hq : ∀ y ∈ f2, about x.cid y = false) (hparts : x.parts ≠ none) (hday : x.day = none)
    (hv : isPub v = true) (ho : .answer true ∈ o) : ∃ d', .start d' ∈ got x.cid (os ++ [o]) := by
  obtain ⟨s1, h1, h2⟩ := run_split h hl0
  obtain ⟨s2, h3, h4⟩ := run_head h2
  have hw : Mode.weak = .all → e.keep = true := fun h => by cases h
  have hg1 := good_run (m := .weak) hw (good_init .weak today) (fun h => by cases h) h1
  have hg2 := good_step (m := .weak) hw hg1 h3 (fun h => by cases h)
  have hj2 : Told x.cid s2 [] := by
    cases h3
    intro r hr _
    obtain ⟨q, hq, rfl⟩ := List.mem_map.1 hr
    exact ⟨by simp, fun h => by cases h⟩
  rw [show f1 ++ .sub x :: (f2 ++ [v]) = (f1 ++ .sub x :: f2) ++ [v] from by simp] at h4
  have hlen : os.length = (f1 ++ .sub x :: f2).length := by
    have := run_length h4
    simp at this ⊢
    omega
  obtain ⟨s5, h5, h6⟩ := run_split h4 hlen
  obtain ⟨s6, h7, h8⟩ := run_head h6
  obtain ⟨s3, o1, o2, h9, h10, rfl⟩ := run_append.1 h5
  obtain ⟨s4, o3, o4, h11, h12, rfl⟩ := run_cons.1 h10
  have hg3 := good_run (m := .weak) hw hg2 (fun h => by cases h) h9
  have hg4 := good_step (m := .weak) hw hg3 h11 (fun h => by cases h)
  have hg5 := good_run (m := .weak) hw hg4 (fun h => by cases h) h12
  have hj5 := told_run hg2 h5 (by
    intro y hy
    rcases List.mem_append.1 hy with hy | hy
    · exact hno y (List.mem_append_left _ hy)
    · rcases List.mem_cons.1 hy with rfl | hy
      · exact ⟨rfl, rfl⟩
      · exact hno y (List.mem_append_right _ hy)) hj2
  obtain ⟨q, hqm, hqc⟩ := here_run hg4 h12 (fun y hy => ⟨(hno y (List.mem_append_right _ hy)).1, (hno y (List.mem_append_right _ hy)).2, hq y hy⟩) (by
    obtain ⟨_, _, _, _, _, _, _, _, _, a10⟩ := sub_facts s3 x
    simp only [step, Option.some.injEq] at h11
    rw [show s4 = (sub s3 x).1 from by rw [h11]]
    exact a10 hparts hday)
  have hgot : got x.cid (o1 ++ o3 :: o4 ++ [o]) = got x.cid (o1 ++ o3 :: o4) ++ got x.cid [o] := by unfold got; simp
  rw [hgot]
  obtain ⟨g1, g2⟩ := hj5 q hqm hqc
  cases hs : q.status with
  | stop => exact absurd hs g1
  | work =>
    obtain ⟨d', hd'⟩ := g2 hs
    exact ⟨d', List.mem_append_left _ (by simpa using hd')⟩
  | init =>
    obtain ⟨d', hd'⟩ := told_init hg5 h7 (by cases v with
      | pub k t d => exact Or.inl ⟨k, t, d, rfl⟩
      | zpub p => exact Or.inr ⟨p, rfl⟩
      | _ => cases hv) ho hqm hs
    exact ⟨d', List.mem_append_right _ (by rw [← hqc]; exact hd')⟩

example : ∃ s a os o, run (w false) (init 1) (day1 ++ .start 1 :: ([.zpub [1]] ++ .sub (ask 6 true) :: ([.read 5] ++ [.pub 0 0 [7]]))) =
      some (s, [[.answer true], [.answer true], [.answer true]] ++ a :: (os ++ [o])) ∧ .answer true ∈ o ∧ got 6 (os ++ [o]) = [.start 1, .keys [107], .sdbs [116]] :=
  ⟨_, _, [_, _, _], _, rfl, by decide +kernel, by decide +kernel⟩

/-- With the message that a day starts come the keys and the tables that were set last, as far as the connection asked for them. -/
theorem C117_told_partial {e : Env} {today cid d : Nat} {e1 : List Ev} {v : Ev} {s : St} {os : List (List Out)} {o : List Out}
    (h : run e (init today) (e1 ++ [v]) = some (s, os ++ [o])) (hm : .start d ∈ got cid [o]) :
    ∃ K b T x k t, lastKeys e1 = some K ∧ lastSdbs e1 = some b ∧ e.conv b = some T ∧ .sub x ∈ e1 ∧ x.cid = cid ∧ x.parts = some (k, t) ∧
      got cid [o] = if some (k, t) = star then [.start d, .keys K, .sdbs T] else [.start d, .keys (e.pickKeys k K), .sdbs (e.pickSdbs t T)] := by
  have hlen : os.length = e1.length := by
    have := run_length h
    simpa using this
  obtain ⟨s1, h1, h2⟩ := run_split h hlen
  obtain ⟨s2, h3, h4⟩ := run_head h2
  have hg1 := good_run (m := .weak) (e := e) (fun h => by cases h) (good_init .weak today) (fun h => by cases h) h1
  obtain ⟨t1, t2⟩ := texts_run (pre := []) (good_init .weak today) h1 ⟨fun K hK => (by cases hK), fun T hT => (by cases hT)⟩
  obtain ⟨K, T, q, k, t, b1, b2, hqm, hqc, b3, b4, b5⟩ := told_what hg1 h3 (start_pub hg1 h3 hm) hm
  obtain ⟨b, b6, b7⟩ := t2 T b2
  obtain ⟨z, hz, c1, _, _, k', t', c2, c3, c4, c5⟩ := origin_run (fun z => .sub z ∈ e1) (good_init .weak today) h1 (fun r hr => by cases hr) (fun _ h => h) q hqm
  refine ⟨K, b, T, z, k', t', t1 K b1, b6, b7, hz, c1.symm.trans hqc, c2, ?_⟩
  rw [b3, b4, b5, c5, c3, c4]
  unfold star
  by_cases hs : k' = [42] ∧ t' = [42]
  · rw [hs.1, hs.2]; rfl
  · have : (decide (k' = [42]) && decide (t' = [42])) = false := by simpa using hs
    rw [this]
    have h2 : ¬ some (k', t') = some (([42] : Bytes), ([42] : Bytes)) := by simpa using hs
    rw [if_neg h2]
    rfl

example : ∃ s os o, run (w true) (init 1) ((day1 ++ [.start 1]) ++ [.zpub [1]]) = some (s, os ++ [o]) ∧ .start 1 ∈ got 5 [o] :=
  ⟨_, [_, _, _, _], _, rfl, by decide +kernel⟩

/-- If keys and tables are set before anything is published, and not again, then every packet of the compressor is made with the keys and
tables that were set last, the same that subscribers are told (`C117_told_partial`). -/
theorem C117_coded_partial {e : Env} {today : Nat} {e1 e2 : List Ev} {s : St} {outs : List (List Out)} (h : run e (init today) (e1 ++ e2) = some (s, outs))
    (h1 : ∀ v ∈ e1, isPub v = false) (h2 : ∀ v ∈ e2, (∀ b, v ≠ .keys b) ∧ ∀ b, v ≠ .sdbs b) {k t : Bytes} {ps : List Bytes} {o : List Out}
    (ho : o ∈ outs) (hc : .coded k t ps ∈ o) : lastKeys (e1 ++ e2) = some k ∧ ∃ b, lastSdbs (e1 ++ e2) = some b ∧ e.conv b = some t := by
  obtain ⟨s1, o1, o2, r1, r2, rfl⟩ := run_append.1 h
  have hg1 := good_run (m := .weak) (e := e) (fun h => by cases h) (good_init .weak today) (fun h => by cases h) r1
  obtain ⟨d1, d2⟩ := nodict_run (good_init .weak today) r1 h1 rfl
  rcases List.mem_append.1 ho with ho | ho
  · exact absurd hc (d2 o ho k t ps)
  · obtain ⟨g1, g2⟩ := dict_run hg1 r2 h2 (fun k t h => by rw [d1] at h; cases h) o ho k t ps hc
    obtain ⟨t1, t2⟩ := texts_run (pre := []) (good_init .weak today) r1 ⟨fun K hK => (by cases hK), fun T hT => (by cases hT)⟩
    rw [lastKeys_same e1 h2, lastSdbs_same e1 h2]
    exact ⟨t1 k g1, t2 t g2⟩

example : ∃ s os, run (w true) (init 1) (day1 ++ [.start 1, .pub 0 0 [1], .pack [[129], [3]]]) = some (s, os) ∧ ∃ o ∈ os, .coded [107] [116] [[129], [3]] ∈ o :=
  ⟨_, _, rfl, by decide +kernel⟩

/-! What the program does not keep -/

/-- The end of a day does not end it: what is published behind `stop` is taken, who subscribes behind it is told that the day starts, and gets
the packet. -/
theorem C117_violated_after_stop : ∃ s os, run (w true) (init 1) (day1 ++ [.start 1, .zpub [129], .stop [], .sub (ask 6 false), .zpub [130], .read 6, .read 6, .read 6]) = some (s, os) ∧
    os[7]? = some [.send 6 none (.start 1), .send 6 none (.keys [107]), .send 6 none (.sdbs [116]), .answer true] ∧
    packets (got 6 os) = [[130]] :=
  ⟨_, _, rfl, by decide +kernel, by decide +kernel⟩

/-- A subscriber that is not quick enough loses the rest of the day: the packets that its thread has not read when `stop` comes are
never sent, not even when the next day starts, though the source was told that they were taken; neither are those the compressor still held. -/
theorem C117_violated_slow : ∃ s os, run (w true) (init 1) (day1 ++ [.start 1, .zpub [129], .read 5, .read 5, .zpub [2], .pub 0 0 [1], .stop [[3]], .read 5, .start 2, .zpub [131],
      .read 5, .read 5]) = some (s, os) ∧
    packets (got 5 os) = [[129], [131]] ∧ stream (day1 ++ [.start 1, .zpub [129], .read 5, .read 5, .zpub [2], .pub 0 0 [1], .stop [[3]]]) (os.take 10) = [[129], [2], [3]] :=
  ⟨_, _, rfl, by decide +kernel, by decide +kernel⟩

/-- What was published and waits for the compressor when `stop` comes is dropped, though it was answered with success. -/
theorem C117_violated_waiting : ∃ s os, run (w true) (init 1) (day1 ++ [.start 1, .pub 0 0 [1], .pub 0 0 [2]]) = some (s, os) ∧
    os.getLast? = some [.answer true] ∧ s.inputs = [(0, 0, [1]), (0, 0, [2])] ∧ (stop s []).1.inputs = [] ∧ (stop s []).2 = [.coded [107] [116] [], .send 5 none (.stop 1), .answer true] :=
  ⟨_, _, rfl, by decide +kernel, by decide +kernel, by decide +kernel, by decide +kernel⟩

/-- A second subscription of a connection is answered with success and does nothing: here the first one asked for all data packed,
and the second one for a part. -/
theorem C117_violated_twice (s : St) (r : Reader) (hr : r ∈ s.readers) (x : Ask) (hc : x.cid = r.cid) (hd : x.day = none) :
    (sub s x).2 = [.answer true] ∧ (sub s x).1.readers = s.readers := by
  unfold sub
  dsimp only
  split
  · exact ⟨rfl, rfl⟩
  · rw [hd, Option.getD_none, if_neg (Nat.lt_irrefl _), if_pos (List.any_eq_true.2 ⟨r, hr, by simp [hc]⟩)]
    exact ⟨rfl, rfl⟩

example : ∃ s os, run (w true) (init 1) day1 = some (s, os) ∧ ∃ r ∈ s.readers, r.cid = 5 := ⟨_, _, rfl, by decide +kernel⟩

/-- A connection that reads another day and asks for a second one loses its subscription to the running day, without a word. -/
theorem C117_violated_history : ∃ s os, run (w true) (init 9) [.keys (some [107]), .sdbs (some [116]), .sub ⟨5, none, some ([42], [42]), true, false, none, 9, true⟩, .start 9, .zpub [129],
      .sub ⟨5, none, some ([42], [42]), true, false, some 7, 9, true⟩, .sub ⟨5, none, some ([42], [42]), true, false, some 8, 9, true⟩, .zpub [130], .read 5, .read 5, .read 5] = some (s, os) ∧
    packets (got 5 os) = [] ∧ s.readers = [] ∧ os[5]? = some [.answer true] ∧ os[6]? = some [.answer true] :=
  ⟨_, _, rfl, by decide +kernel, by decide +kernel, by decide +kernel, by decide +kernel⟩

/-- Over midnight the day is lost: a source runs day 1, someone asks on day 2 for anything, and from then on whoever asks for day 1 is sent to the disk, and
`stop` names another day than `start`. -/
theorem C117_violated_midnight : ∃ s os, run (w true) (init 1) (day1 ++ [.start 1, .zpub [129], .sub ⟨6, none, some ([42], [42]), true, false, none, 2, true⟩,
      .sub ⟨7, none, some ([42], [42]), true, false, some 1, 2, true⟩, .zpub [130], .stop []]) = some (s, os) ∧
    got 5 os = [.start 1, .keys [107], .sdbs [116], .stop 2] ∧ got 6 os = [.start 2, .keys [107], .sdbs [116], .stop 2] ∧ got 7 os = [] ∧ s.ago = [7] :=
  ⟨_, _, rfl, by decide +kernel, by decide +kernel, by decide +kernel, by decide +kernel⟩

/-- Who subscribes to all data in another format than the packed one never gets any data, whatever happens. -/
theorem C117_violated_format {e : Env} {today cid : Nat} {evs : List Ev} {s : St} {os : List (List Out)} (h : run e (init today) evs = some (s, os))
    (hsub : ∀ x, .sub x ∈ evs → x.cid = cid → x.parts = star ∧ x.zip = false) {n : Note} (hn : n ∈ got cid os) : (∀ p, n ≠ .packet p) ∧ ∀ p, n ≠ .part p :=
  nodata_run (P := fun x => x.cid = cid → x.parts = star ∧ x.zip = false) (fun _ h => h) (good_init .weak today) h (fun r hr => by cases hr) (fun x hx => hsub x hx) n hn

example : ∃ s os, run (w true) (init 1) [.keys (some [107]), .sdbs (some [116]), .sub ⟨5, none, star, false, true, none, 1, false⟩, .start 1, .zpub [129], .read 5, .read 5, .read 5] = some (s, os) ∧
    got 5 os = [.start 1, .keys [107], .sdbs [116], .wait 1] := ⟨_, _, rfl, by decide +kernel⟩

/-- Who subscribes to some keys and tables, not packed, gets no record: the name of the table is looked for among the keys. -/
theorem C117_violated_names {keys sdbs ks ts : List Bytes} (hd : ∀ t ∈ sdbs, t ∉ ks) {k t : Nat} {x : Option (Nat × Nat)} (h : decode false keys sdbs ks ts k t = some x) :
    x = none := by
  unfold decode at h
  split at h
  · cases h
  · cases h; rfl
  · rename_i kn tn h1 h2
    have hn : place ks tn = none := by
      unfold place
      rw [List.findIdx?_eq_none_iff]
      intro y hy
      have := hd tn (List.mem_of_getElem? h2)
      simp only [beq_eq_false_iff_ne]
      rintro rfl
      exact this hy
    simp only [Bool.false_eq_true, if_false, hn] at h
    split at h
    · rename_i hj; cases hj
    · cases h; rfl

example : decode false [[107]] [[116]] [[107]] [[116]] 0 0 = some none ∧ decode true [[107]] [[116]] [[107]] [[116]] 0 0 = some (some (0, 0)) := by decide

/-- Setting nothing, tables that cannot be read and then anything that needs them, and a day that starts while somebody is behind: the program reads memory
that is not its own. -/
theorem C117_violated_crash : run (w true) (init 1) [.keys none] = none ∧ run (w true) (init 1) [.sdbs none] = none ∧
    run (w true) (init 1) [.sdbs (some [0]), .sdbs (some [116])] = none ∧ run (w true) (init 1) [.keys (some [107]), .sdbs (some [0]), .start 1, .zpub [1]] = none ∧
    run (w true) (init 1) (day1 ++ [.start 1, .zpub [129], .read 5, .zpub [2], .start 1, .read 5]) = none := by decide +kernel

/-- As the program comes, who asks for the day from its head gets packets of the day before. -/
theorem C117_violated_yesterday : ∃ s os, run (w false) (init 1) ([.keys (some [107]), .sdbs (some [116]), .start 1, .zpub [129, 1], .zpub [1], .stop [], .start 2, .sub (ask 6 true), .zpub [129, 2],
      .read 6, .read 6, .read 6, .read 6]) = some (s, os) ∧
    got 6 os = [.start 2, .keys [107], .sdbs [116], .packet [129, 1], .packet [1], .packet [129, 2]] :=
  ⟨_, _, rfl, by decide +kernel⟩

/-- As the program comes, who asks for the day from its head loses its first block, although it was told of the start before: packets go while its thread has
not begun to read. -/
theorem C117_violated_shed : ∃ s os, run (w false) (init 1) ([.keys (some [107]), .sdbs (some [116]), .start 1, .sub (ask 6 true), .zpub [129, 1], .zpub [1], .zpub [2], .shed,
      .read 6, .read 6, .read 6]) = some (s, os) ∧
    got 6 os = [.start 1, .keys [107], .sdbs [116]] :=
  ⟨_, _, rfl, by decide +kernel⟩

/-- Keys that are set while the compressor works: the next subscriber is told the new ones, and the packets are made with the old ones. -/
theorem C117_violated_keys : ∃ s os, run (w true) (init 1) (day1 ++ [.start 1, .pub 0 0 [1], .keys (some [108]), .sub (ask 6 false), .pub 0 0 [2], .pack [[129]], .read 6, .read 6]) = some (s, os) ∧
    got 6 os = [.start 1, .keys [108], .sdbs [116], .packet [129]] ∧ os[8]? = some [.coded [107] [116] [[129]]] :=
  ⟨_, _, rfl, by decide +kernel, by decide +kernel⟩

/-- A record of a key or a table that is not known is answered with success and dropped. -/
theorem C117_violated_unknown {e : Env} {s s' : St} {o : List Out} {k t : Int} {x : Bytes} (hk : k < 0 ∨ t < 0) (h : step e s (.pub k t x) = some (s', o)) :
    s'.inputs = s.inputs ∧ s'.out = s.out := by
  dsimp only [step] at h
  unfold pub at h
  cases hw : writeInit e s with
  | none => rw [hw] at h; cases h
  | some y =>
    obtain ⟨s1, b, o1⟩ := y
    have hsame : s1.inputs = s.inputs ∧ s1.out = s.out := by
      unfold writeInit at hw
      split at hw
      · cases hw; exact ⟨rfl, rfl⟩
      · split at hw
        · cases hw; exact ⟨rfl, rfl⟩
        · split at hw
          · cases hw
          · dsimp only at hw
            split at hw
            · cases hw; exact ⟨rfl, rfl⟩
            · split at hw
              · split at hw
                · cases hw; exact ⟨rfl, rfl⟩
                · cases hw
              · cases hw; exact ⟨rfl, rfl⟩
    rw [hw] at h
    cases b with
    | false => cases h; exact hsame
    | true =>
      have : writeBytes s1 k t x = some s1 := by
        unfold writeBytes
        rw [if_pos (by rcases hk with h | h; exact Or.inl h; exact Or.inr (Or.inl h))]
      simp only [this, Option.map_some, Option.some.injEq, Prod.mk.injEq] at h
      rw [← h.1]
      exact hsame

example : ∃ s os, run (w true) (init 1) (day1 ++ [.start 1, .pub (-1) 0 [1]]) = some (s, os) ∧ ∃ o, os.getLast? = some o ∧ .answer true ∈ o :=
  ⟨_, _, rfl, _, rfl, by decide +kernel⟩

end Sis.Snodb
