import Verif.Merge.MergeTabs
/-
C122: the merge by time of the records of many keys.
-/
namespace Sis.Mrg
open Sis.Time (Style Env convert)

/-- **C122** (partial).  When a merge is started, it ends by itself; the client is told first of its start and last of its
end, and every key's records, those handed in before and those handed in while it goes on, are told once each and in the
order they were handed in.  What is missing: a client that hands in nothing when a key runs out is not asked again for
that key (`C122_violated_empty`). -/
theorem C122_all_partial {v : Env} {cs : List Call} {c : Cxt} {more : List ((Bytes × Bytes) × List Item)} (h : setup v cs = some c)
    (hmore : ∀ m ∈ more, m.2 ≠ [] ∧ given m.1.1 m.1.2 [] [] cs ≠ [])
    (hv : ∀ ta a tb b, .tab ta (some a) ∈ cs → .tab tb (some b) ∈ cs → ∀ m ∈ more, ∀ x ∈ m.2, (convert v a b x.time).isSome)
    (hn : count cs + countLater more < 2 ^ 32) :
    ∃ n s, start v n (begin_ c more) = some (s, true) ∧
      (∃ body, s.out = .started :: body ++ [.stopped] ∧ .started ∉ body ∧ .stopped ∉ body) ∧
      ∀ kn sn, of kn sn s.out = given kn sn [] [] cs ++ later kn sn more := by
  have hk : ∀ sn, Known ({} : Cxt) sn ↔ ∃ t ∈ ([] : List Bytes), alike t sn := by
    intro sn
    constructor
    · rintro ⟨t, h, -⟩; cases h
    · rintro ⟨t, h, -⟩; cases h
  have hz : total ({} : Cxt).units = 0 := rfl
  obtain ⟨g1, g2, g3, g4⟩ := calls_ok (v := v) [] ok_new hk (by rw [hz]; omega) h
  rw [hz] at g2
  have hgiven : ∀ kn sn, (pend c.units kn sn).map Prod.snd = given kn sn [] [] cs := fun kn sn => g4 kn sn
  have k : SOk v { begin_ c more with c := { c with status := .start }, out := [.started] } := by
    refine ⟨⟨g1.uniq, g1.tn, g1.tab, g1.sums⟩, ?_, ?_, ?_⟩
    · simp only [begin_]; omega
    · have sty := sty_calls cs {} c (fun d hd => hd) ⟨nofun, nofun, nofun⟩ h
      intro m hm x hx u hu
      obtain ⟨ta, hta⟩ := sty.unit u hu
      show (vtime v c.scale u.style x).isSome
      unfold vtime
      cases hst : u.style with
      | none => rfl
      | some a =>
        cases hsc : c.scale with
        | none => rfl
        | some b =>
          obtain ⟨tb, htb⟩ := sty.scale b hsc
          exact hv ta a tb b (hst ▸ hta) htb m hm x hx
    · intro m hm
      refine ⟨(hmore m hm).1, fun he => (hmore m hm).2 ?_⟩
      have he' : pend c.units m.1.1 m.1.2 = [] := he
      rw [← hgiven, he']; rfl
  obtain ⟨n, s', e, k', z, hs, -⟩ := rounds_end _ k (Nat.le_refl _)
  obtain ⟨os, ho, hg⟩ := names_rounds (P := fun _ => True) (Q := fun _ => True) ⟨fun _ _ => trivial, fun _ _ => ⟨trivial, trivial⟩⟩ e
  have hst : ¬ (c.status = .start ∨ c.status = .stop) := by
    rw [g3]; rintro (h | h) <;> cases h
  have htot : total s'.c.units = 0 := by rw [← k'.c.sums]; exact z
  have hpend : ∀ kn sn, pend s'.c.units kn sn = [] := by
    intro kn sn
    generalize s'.c.units = us at htot
    induction us with
    | nil => rfl
    | cons w us ih =>
      have hw := mem_total (List.mem_cons_self (a := w) (l := us)) htot
      have : total us = 0 := by rw [total_cons] at htot; omega
      simp only [pend]
      split
      · exact hw
      · exact ih this
  have hm0 : s'.more = [] := by
    cases hm : s'.more with
    | nil => rfl
    | cons m ms =>
      have := (k'.live m (by rw [hm]; exact List.mem_cons_self)).2
      exact absurd (hpend _ _) this
  refine ⟨n, { s' with c := { s'.c with status := .stoped }, out := s'.out ++ [.stopped] }, ?_, ⟨os, ?_, ?_, ?_⟩, ?_⟩
  · unfold start
    have : ¬ ((begin_ c more).c.status = .start ∨ (begin_ c more).c.status = .stop) := hst
    rw [if_neg this]
    have e' : rounds v n { begin_ c more with c := { (begin_ c more).c with status := .start }, out := (begin_ c more).out ++ [.started] } =
        some (s', true) := e
    rw [e']
    rfl
  · simp only [ho]; rfl
  · intro hx; exact hg _ hx
  · intro hx; exact hg _ hx
  · intro kn sn
    have := hs kn sn
    unfold strm at this
    rw [hpend, hm0] at this
    simp only [later, List.filter_nil, List.flatMap_nil, List.map_nil, List.append_nil] at this
    simp only [of_append]
    rw [this]
    show _ ++ _ ++ _ ++ of kn sn [.stopped] = _
    have e1 : of kn sn [Out.started] = [] := rfl
    have e2 : of kn sn [Out.stopped] = [] := rfl
    rw [e2, e1, List.append_nil, List.nil_append]
    have : (pend c.units kn sn).map Prod.snd = given kn sn [] [] cs := hgiven kn sn
    rw [← this]
    rfl

/-- **C122** (partial).  The client is told records, and that a key ran out, under a key that was handed in, spelt as it
was then, and a table that was made known, spelt as it was then. -/
theorem C122_names_partial {v : Env} {cs : List Call} {c : Cxt} {more : List ((Bytes × Bytes) × List Item)} {n : Nat} {s : St}
    {b : Bool} (h : setup v cs = some c) (hr : start v n (begin_ c more) = some (s, b)) :
    (∀ kn sn x, .record kn sn x ∈ s.out → (∃ s' xs, Call.push kn s' xs ∈ cs) ∧ ∃ st, Call.tab sn st ∈ cs) ∧
    ∀ kn sn, .keyStop kn sn ∈ s.out → (∃ s' xs, Call.push kn s' xs ∈ cs) ∧ ∃ st, Call.tab sn st ∈ cs := by
  have hset : ∀ (ds : List Call) (c0 c : Cxt), (∀ d ∈ ds, d ∈ cs) →
      Names (fun kn => ∃ s' xs, Call.push kn s' xs ∈ cs) (fun sn => ∃ st, Call.tab sn st ∈ cs) c0 → c0.status = .none →
      ds.foldlM (call v) c0 = some c →
      Names (fun kn => ∃ s' xs, Call.push kn s' xs ∈ cs) (fun sn => ∃ st, Call.tab sn st ∈ cs) c ∧ c.status = .none := by
    intro ds
    induction ds with
    | nil => intro c0 c _ k hs h; cases h; exact ⟨k, hs⟩
    | cons d ds ih =>
      intro c0 c hm k hs h
      rw [List.foldlM_cons] at h
      have hd := hm d List.mem_cons_self
      have hm' : ∀ d ∈ ds, d ∈ cs := fun d hx => hm d (List.mem_cons_of_mem _ hx)
      cases d with
      | clear =>
        refine ih (clear c0) c hm' ⟨k.tab, ?_⟩ hs h
        intro u hu
        simp only [clear, List.mem_map] at hu
        obtain ⟨w, hw, rfl⟩ := hu
        exact k.unit w hw
      | tab tn st =>
        refine ih (setTab c0 tn st) c hm' ?_ ?_ h
        · unfold setTab
          split
          · exact k
          · refine ⟨?_, k.unit⟩
            intro t ht
            rcases List.mem_append.1 ht with ht | ht
            · exact k.tab t ht
            · simp only [List.mem_singleton] at ht
              subst ht
              exact ⟨st, hd⟩
        · unfold setTab; split <;> exact hs
      | push kn sn xs =>
        simp only [call] at h
        cases hp : push v c0 kn sn xs with
        | none => rw [hp] at h; cases h
        | some c1 =>
          rw [hp] at h
          refine ih c1 c hm' (names_push k ⟨sn, xs, hd⟩ hp) ?_ h
          unfold push at hp
          split at hp
          · rw [Option.bind_eq_some_iff] at hp
            obtain ⟨u, -, hp⟩ := hp
            obtain ⟨-, -, -, -, -, -, -, h7, -⟩ := put_eq hp
            exact h7.trans hs
          · split at hp
            · cases hp
            · split at hp
              · cases hp; exact hs
              · obtain ⟨-, -, -, -, -, -, -, h7, -⟩ := put_eq hp
                exact h7.trans hs
  obtain ⟨k, hst⟩ := hset cs {} c (fun d hd => hd) ⟨nofun, nofun⟩ rfl h
  obtain ⟨s', h1, h2⟩ := start_out hst hr
  obtain ⟨os, ho, hg⟩ := names_rounds (P := fun kn => ∃ s' xs, Call.push kn s' xs ∈ cs) (Q := fun sn => ∃ st, Call.tab sn st ∈ cs)
    (s := { begin_ c more with c := { c with status := .start }, out := [.started] }) ⟨k.tab, k.unit⟩ h1
  have key : ∀ o ∈ s.out, o = .started ∨ o = .stopped ∨
      Good (fun kn => ∃ s' xs, Call.push kn s' xs ∈ cs) (fun sn => ∃ st, Call.tab sn st ∈ cs) o := by
    intro o hm
    rw [h2, ho] at hm
    have hcase : o ∈ [Out.started] ++ os ∨ o = .stopped := by
      split at hm
      · rcases List.mem_append.1 hm with hm | hm
        · exact Or.inl hm
        · exact Or.inr (List.mem_singleton.1 hm)
      · exact Or.inl hm
    rcases hcase with hm | rfl
    · rcases List.mem_append.1 hm with hm | hm
      · exact Or.inl (List.mem_singleton.1 hm)
      · exact Or.inr (Or.inr (hg o hm))
    · exact Or.inr (Or.inl rfl)
  constructor
  · intro kn sn x hm
    rcases key _ hm with h | h | h
    · cases h
    · cases h
    · exact h
  · intro kn sn hm
    rcases key _ hm with h | h | h
    · cases h
    · cases h
    · exact h

/-- **C122** (partial).  When the tables are made known before any record is handed in, their times are milliseconds,
seconds or minutes and some are milliseconds, every key's records are handed in by time, and all before the start, then
the records of all keys are told in the order they are due, a minute or a second at its last millisecond. -/
theorem C122_order_partial {v : Env} {ts ps : List Call} {c : Cxt} (hts : ∀ c ∈ ts, ∃ tn st, c = .tab tn st)
    (hps : ∀ tn st, Call.tab tn st ∉ ps) (h : setup v (ts ++ ps) = some c) (hn : count (ts ++ ps) < 2 ^ 32)
    (hst : ∀ tn a, Call.tab tn (some a) ∈ ts → a = .msec ∨ a = .tsec ∨ a = .minu) (hms : ∃ tn, styleOf ts tn = some .msec)
    (hb : ∀ kn sn xs, Call.push kn sn xs ∈ ps → ∀ x ∈ xs, dueOf (ts ++ ps) ((kn, sn), x) < 2 ^ 64)
    (hs : ∀ pre, pre <+: ps → ∀ kn sn, (given kn sn [] [] (ts ++ pre)).Pairwise fun a b => a.time ≤ b.time)
    {n : Nat} {s : St} {b : Bool} (hr : start v n (begin_ c []) = some (s, b)) :
    (records s.out).Pairwise fun a b => dueOf (ts ++ ps) a ≤ dueOf (ts ++ ps) b := by
  refine order_gen (fun tn x => dueOf (ts ++ ps) (([], tn), x)) hts hps h hn ?_ ?_ hs hr
  · intro c0 k t ht kn sn xs hp ha x hx
    have hbound := hb kn sn xs hp x hx
    have hsc : c0.scale = some .msec := by
      obtain ⟨tn, htn⟩ := hms
      have hf : found ts tn = some (some .msec) := by
        rw [styleOf_found] at htn
        cases hf : found ts tn with
        | none => rw [hf] at htn; cases htn
        | some st =>
          rw [hf] at htn
          simp only [Option.join_some] at htn
          rw [htn]
      obtain ⟨t', h1, h2⟩ := k.all _ _ hf
      obtain ⟨b', h3, h4⟩ := k.top t' h1 _ h2
      obtain ⟨t'', h5, h6⟩ := k.scale _ h3
      have := hst t''.1 b' (h6 ▸ (k.mem t'' h5).2)
      rw [h3]
      rcases this with rfl | rfl | rfl
      · rfl
      · simp [letter] at h4
      · simp [letter] at h4
    have hstyle : ∀ nm, alike t.1 nm → styleOf (ts ++ ps) nm = t.2 := by
      intro nm hnm
      have : found (ts ++ ps) nm = some t.2 := by rw [found_append, ← found_alike hnm, (k.mem t ht).1]; rfl
      rw [styleOf_found, this]; rfl
    unfold dueOf at hbound ⊢
    rw [hstyle sn ha] at hbound
    simp only [hstyle t.1 (alike_refl _), hsc]
    cases hs2 : t.2 with
    | none => rfl
    | some a =>
      rw [hs2] at hbound
      simp only at hbound
      have := hst t.1 a (hs2 ▸ (k.mem t ht).2)
      rcases this with rfl | rfl | rfl
      · rfl
      · simp only [vtime, convert, due, Option.some.injEq] at hbound ⊢
        omega
      · simp only [vtime, convert, due, Option.some.injEq] at hbound ⊢
        omega
  · intro tn x y hxy
    unfold dueOf
    simp only
    split
    · exact Nat.le_refl _
    · rename_i a _
      cases a <;> simp only [due] <;> omega

/-- **C122** (partial).  The same for tables whose times are all of one style, whichever it is. -/
theorem C122_same_partial {v : Env} {ts ps : List Call} {c : Cxt} {a : Style} (hts : ∀ c ∈ ts, ∃ tn, c = .tab tn (some a))
    (hps : ∀ tn st, Call.tab tn st ∉ ps) (h : setup v (ts ++ ps) = some c) (hn : count (ts ++ ps) < 2 ^ 32)
    (hs : ∀ pre, pre <+: ps → ∀ kn sn, (given kn sn [] [] (ts ++ pre)).Pairwise fun a b => a.time ≤ b.time)
    {n : Nat} {s : St} {b : Bool} (hr : start v n (begin_ c []) = some (s, b)) :
    (records s.out).Pairwise fun a b => a.2.time ≤ b.2.time := by
  refine order_gen (fun _ x => x.time) (fun c hc => ?_) hps h hn ?_ (fun _ _ _ h => h) hs hr
  · obtain ⟨tn, rfl⟩ := hts c hc
    exact ⟨tn, _, rfl⟩
  · intro c0 k t ht kn sn xs _ _ x _
    have hst : ∀ t ∈ c0.tabs, t.2 = some a := by
      intro t ht
      obtain ⟨tn, he⟩ := hts _ (k.mem t ht).2
      exact (Call.tab.inj he).2
    obtain ⟨b', h3, -⟩ := k.top t ht a (hst t ht)
    obtain ⟨t', h5, h6⟩ := k.scale _ h3
    rw [hst t' h5] at h6
    cases h6
    rw [hst t ht, h3]
    simp only [vtime]
    cases a <;> rfl

/-- A place for the examples: no offset from the time of Greenwich. -/
def here : Env := { tz := 0, now := 0 }

/-- Two tables, three keys, and a client with more of one of them. -/
def some_ : List Call :=
  [.tab [115] (some .tsec), .tab [109] (some .msec), .push [66] [109] [⟨500, [1]⟩, ⟨2500, [2]⟩], .push [65] [115] [⟨1, [3]⟩, ⟨2, [4]⟩],
    .push [98] [77] [⟨2600, [5]⟩], .push [67] [120] [⟨9, [9]⟩]]

/-- The conditions of `C122_all_partial` are met. -/
example : ∃ c, setup here some_ = some c ∧ count some_ + countLater [(([97], [115]), [⟨3, [6]⟩])] < 2 ^ 32 ∧
    given [97] [115] [] [] some_ = [⟨1, [3]⟩, ⟨2, [4]⟩] ∧ given [66] [109] [] [] some_ = [⟨500, [1]⟩, ⟨2500, [2]⟩, ⟨2600, [5]⟩] ∧
    given [67] [120] [] [] some_ = [] ∧
    (∀ ta a tb b, Call.tab ta (some a) ∈ some_ → Call.tab tb (some b) ∈ some_ → (convert here a b 3).isSome) ∧
    (start here 9 (begin_ c [(([97], [115]), [⟨3, [6]⟩])])).map (fun r => records r.1.out) =
      some [(([66], [109]), ⟨500, [1]⟩), (([65], [115]), ⟨1, [3]⟩), (([66], [109]), ⟨2500, [2]⟩), (([66], [109]), ⟨2600, [5]⟩),
        (([65], [115]), ⟨2, [4]⟩), (([65], [115]), ⟨3, [6]⟩)] :=
  ⟨_, rfl, by decide, by decide, by decide, by decide, by
      intro ta a tb b ha hb
      simp only [some_, List.mem_cons, List.not_mem_nil, or_false, Call.tab.injEq, Option.some.injEq, reduceCtorEq] at ha hb
      rcases ha with ⟨-, rfl⟩ | ⟨-, rfl⟩ <;> rcases hb with ⟨-, rfl⟩ | ⟨-, rfl⟩ <;> rfl, by decide +kernel⟩

/-- The conditions of `C122_order_partial` are met. -/
example : (∀ c ∈ some_.take 2, ∃ tn st, c = .tab tn st) ∧ (∀ tn st, Call.tab tn st ∉ some_.drop 2) ∧
    (∀ tn a, Call.tab tn (some a) ∈ some_.take 2 → a = .msec ∨ a = .tsec ∨ a = .minu) ∧ styleOf (some_.take 2) [109] = some .msec ∧
    (∀ kn sn xs, Call.push kn sn xs ∈ some_.drop 2 → ∀ x ∈ xs, dueOf some_ ((kn, sn), x) < 2 ^ 64) := by
  refine ⟨?_, ?_, ?_, by decide, ?_⟩
  · intro c hc
    simp only [some_, List.take, List.mem_cons, List.not_mem_nil, or_false] at hc
    rcases hc with rfl | rfl
    · exact ⟨_, _, rfl⟩
    · exact ⟨_, _, rfl⟩
  · intro tn st; simp [some_]
  · intro tn a ha
    simp only [some_, List.take, List.mem_cons, List.not_mem_nil, or_false, Call.tab.injEq, Option.some.injEq] at ha
    rcases ha with ⟨-, rfl⟩ | ⟨-, rfl⟩
    · exact Or.inr (Or.inl rfl)
    · exact Or.inl rfl
  · intro kn sn xs h
    simp only [some_, List.drop, List.mem_cons, List.not_mem_nil, or_false, Call.push.injEq] at h
    rcases h with ⟨rfl, rfl, rfl⟩ | ⟨rfl, rfl, rfl⟩ | ⟨rfl, rfl, rfl⟩ | ⟨rfl, rfl, rfl⟩ <;> decide

/-- **C122** is violated: records a client hands in when a key runs out, as the reader of files does, may be told behind
later ones of another key.  Here every key's records are in order, and 2 is told behind 5. -/
theorem C122_violated_order :
    (setup here [.tab [116] (some .msec), .push [66] [116] [⟨5, [1]⟩], .push [65] [116] [⟨1, [2]⟩]]).bind (fun c =>
      (start here 9 (begin_ c [(([65], [116]), [⟨2, [3]⟩])])).map fun r => (records r.1.out, r.2)) =
    some ([(([65], [116]), ⟨1, [2]⟩), (([66], [116]), ⟨5, [1]⟩), (([65], [116]), ⟨2, [3]⟩)], true) := by decide +kernel

/-- **C122** is violated: a client that has an empty piece for a key that runs out is not asked for the next. -/
theorem C122_violated_empty :
    (setup here [.tab [116] (some .msec), .push [65] [116] [⟨1, [2]⟩]]).bind (fun c =>
      (start here 9 (begin_ c [(([65], [116]), []), (([65], [116]), [⟨2, [3]⟩])])).map fun r => (records r.1.out, r.2)) =
    some ([(([65], [116]), ⟨1, [2]⟩)], true) := by decide +kernel

/-- **C122** is violated: a table of finer times that is made known when records were handed in.  Those keep the times they
were given: second 1 is told before millisecond 500. -/
theorem C122_violated_late :
    (setup here [.tab [115] (some .tsec), .push [65] [115] [⟨1, [1]⟩], .tab [109] (some .msec), .push [66] [109] [⟨500, [2]⟩]]).bind (fun c =>
      (start here 9 (begin_ c [])).map fun r => (records r.1.out, r.2)) =
    some ([(([65], [115]), ⟨1, [1]⟩), (([66], [109]), ⟨500, [2]⟩)], true) := by decide +kernel

/-- **C122** is violated: a table of years counts as the finest, and whatever falls in one year is told key by key. -/
theorem C122_violated_year :
    (setup here [.tab [121] (some .year), .tab [109] (some .msec), .push [66] [109] [⟨2000, [1]⟩], .push [65] [109] [⟨1000, [2]⟩]]).bind (fun c =>
      (start here 9 (begin_ c [])).map fun r => (records r.1.out, r.2)) =
    some ([(([66], [109]), ⟨2000, [1]⟩), (([65], [109]), ⟨1000, [2]⟩)], true) := by decide +kernel

/-- **C122** is violated: whether a minute is told before the seconds in it or behind them depends on another table, that
need not have a record. -/
theorem C122_violated_minute :
    (setup here [.tab [109] (some .minu), .tab [115] (some .tsec), .push [65] [109] [⟨1, [1]⟩], .push [66] [115] [⟨70, [2]⟩]]).bind (fun c =>
      (start here 9 (begin_ c [])).map fun r => records r.1.out) =
    some [(([65], [109]), ⟨1, [1]⟩), (([66], [115]), ⟨70, [2]⟩)] ∧
    (setup here [.tab [109] (some .minu), .tab [115] (some .tsec), .tab [116] (some .msec), .push [65] [109] [⟨1, [1]⟩],
        .push [66] [115] [⟨70, [2]⟩]]).bind (fun c =>
      (start here 9 (begin_ c [])).map fun r => records r.1.out) =
    some [(([66], [115]), ⟨70, [2]⟩), (([65], [109]), ⟨1, [1]⟩)] := by decide +kernel

/-- **C122** is violated: keys that differ in the case of their letters are one key, of the first spelling. -/
theorem C122_violated_case :
    (setup here [.tab [116] (some .msec), .push [65] [116] [⟨1, [1]⟩], .push [97] [116] [⟨2, [2]⟩]]).bind (fun c =>
      (start here 9 (begin_ c [])).map fun r => records r.1.out) =
    some [(([65], [116]), ⟨1, [1]⟩), (([65], [116]), ⟨2, [2]⟩)] := by decide +kernel

/-- **C122** is violated: a merge that is stopped before it was started can never be started, whatever is handed in
afterwards, and its destruction never returns. -/
theorem C122_violated_stop {v : Env} {cs cs' : List Call} {c c' : Cxt} (h : setup v cs = some c) (h' : cs'.foldlM (call v) (stop c) = some c') :
    (∀ n more, start v n (begin_ c' more) = some (begin_ c' more, true)) ∧ destroys c' = false := by
  have hkeep : ∀ (ds : List Call) (c c' : Cxt), ds.foldlM (call v) c = some c' → c'.status = c.status := by
    intro ds
    induction ds with
    | nil => intro c c' h; cases h; rfl
    | cons d ds ih =>
      intro c c' h
      rw [List.foldlM_cons] at h
      cases hd : call v c d with
      | none => rw [hd] at h; cases h
      | some c1 =>
        rw [hd] at h
        refine (ih c1 c' h).trans ?_
        cases d with
        | clear => cases hd; rfl
        | tab tn st => cases hd; unfold setTab; split <;> rfl
        | push kn sn xs =>
          simp only [call] at hd
          unfold push at hd
          split at hd
          · rw [Option.bind_eq_some_iff] at hd
            obtain ⟨u, -, hp⟩ := hd
            obtain ⟨-, -, -, -, -, -, -, h7, -⟩ := put_eq hp
            exact h7
          · split at hd
            · cases hd
            · split at hd
              · cases hd; rfl
              · obtain ⟨-, -, -, -, -, -, -, h7, -⟩ := put_eq hd
                exact h7
  have h0 : c.status = .none := hkeep cs {} c h
  have h1 : c'.status = .stop := by
    rw [hkeep cs' _ _ h']
    unfold stop
    rw [h0]
    rfl
  constructor
  · intro n more
    have : (begin_ c' more).c.status = .stop := h1
    unfold start
    rw [if_pos (Or.inr this)]
  · unfold destroys
    rw [if_pos (Or.inr h1)]
    unfold stop
    rw [if_pos (Or.inr h1), h1]
    rfl

/-- The conditions are met. -/
example : ∃ c c', setup here some_ = some c ∧ some_.foldlM (call here) (stop c) = some c' := ⟨_, _, rfl, rfl⟩

/-- **C122** is violated: a name of 128 bytes or more, of a table or of a key, overruns the array it is copied to. -/
theorem C122_violated_long {v : Env} {kn sn : Bytes} (xs : List Item) (h : 128 ≤ kn.length ∨ 128 ≤ sn.length) (ps : List Call) :
    setup v (.push kn sn xs :: ps) = none := by
  unfold setup
  rw [List.foldlM_cons]
  have : call v {} (.push kn sn xs) = none := by
    simp only [call, push]
    have : place ([] : List Chan) kn sn = none := rfl
    simp only [this]
    rw [if_pos h]
  rw [this]
  rfl

end Sis.Mrg
