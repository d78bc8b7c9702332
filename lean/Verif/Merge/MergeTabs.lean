import Verif.Merge.MergeOrder
/-
The tables that are made known before the records.
-/
namespace Sis.Mrg
open Sis.Time (Style Env convert)

/-- The names made known. -/
def names : List Call → List Bytes
  | [] => []
  | .tab tn _ :: cs => tn :: names cs
  | _ :: cs => names cs

theorem names_append (as bs : List Call) : names (as ++ bs) = names as ++ names bs := by
  induction as with
  | nil => rfl
  | cons a as ih => cases a <;> simp [names, ih]

/-- The first table of a name. -/
def found (cs : List Call) (sn : Bytes) : Option (Option Style) :=
  cs.findSome? fun c => match c with
    | .tab tn style => if alike tn sn then some style else none
    | _ => none

theorem styleOf_found (cs : List Call) (sn : Bytes) : styleOf cs sn = (found cs sn).join := by
  unfold styleOf found
  congr 2

theorem found_append (as bs : List Call) (sn : Bytes) : found (as ++ bs) sn = (found as sn).or (found bs sn) := by
  unfold found; rw [List.findSome?_append]

theorem found_none {cs : List Call} {sn : Bytes} (h : found cs sn = none) : ¬ ∃ t ∈ names cs, alike t sn := by
  induction cs with
  | nil => rintro ⟨t, h, -⟩; cases h
  | cons c cs ih =>
    unfold found at h
    rw [List.findSome?_cons] at h
    cases c with
    | tab tn st =>
      simp only at h
      by_cases ha : alike tn sn
      · rw [if_pos ha] at h; cases h
      · rw [if_neg ha] at h
        rintro ⟨t, ht, hx⟩
        rcases List.mem_cons.1 ht with rfl | ht
        · exact ha hx
        · exact ih h ⟨t, ht, hx⟩
    | push kn s xs => exact ih h
    | clear => exact ih h

theorem found_some {cs : List Call} {sn : Bytes} {st : Option Style} (h : found cs sn = some st) : ∃ t ∈ names cs, alike t sn := by
  induction cs with
  | nil => cases h
  | cons c cs ih =>
    unfold found at h
    rw [List.findSome?_cons] at h
    cases c with
    | tab tn st =>
      simp only at h
      by_cases ha : alike tn sn
      · exact ⟨tn, List.mem_cons_self, ha⟩
      · rw [if_neg ha] at h
        obtain ⟨t, h1, h2⟩ := ih h
        exact ⟨t, List.mem_cons_of_mem _ h1, h2⟩
    | push kn s xs => exact ih h
    | clear => exact ih h

theorem found_alike {cs : List Call} {a b : Bytes} (h : alike a b) : found cs a = found cs b := by
  unfold found
  congr 1
  funext c
  cases c with
  | tab tn st =>
    simp only
    by_cases ha : alike tn a
    · rw [if_pos ha, if_pos (alike_trans ha h)]
    · rw [if_neg ha, if_neg fun hb => ha (alike_trans hb (alike_symm h))]
  | push _ _ _ => rfl
  | clear => rfl

/-- What the tables are after they were made known. -/
structure Tabs (ts : List Call) (c : Cxt) : Prop where
  units : c.units = []
  sums : c.newSums = 0
  status : c.status = .none
  known : ∀ sn, Known c sn ↔ ∃ t ∈ names ts, alike t sn
  ok : COk c
  mem : ∀ t ∈ c.tabs, found ts t.1 = some t.2 ∧ Call.tab t.1 t.2 ∈ ts
  all : ∀ sn st, found ts sn = some st → ∃ t ∈ c.tabs, t.2 = st
  top : ∀ t ∈ c.tabs, ∀ a, t.2 = some a → ∃ b, c.scale = some b ∧ letter a ≤ letter b
  scale : ∀ b, c.scale = some b → ∃ t ∈ c.tabs, t.2 = some b

theorem tabs_ok (v : Env) (ts : List Call) (h : ∀ c ∈ ts, ∃ tn st, c = .tab tn st) : ∃ c0, setup v ts = some c0 ∧ Tabs ts c0 := by
  induction ts using List.reverseRecOn with
  | nil =>
    refine ⟨{}, rfl, rfl, rfl, rfl, ?_, ok_new, nofun, nofun, nofun, nofun⟩
    intro sn
    constructor
    · rintro ⟨t, h, -⟩; cases h
    · rintro ⟨t, h, -⟩; cases h
  | append_singleton ts x ih =>
    obtain ⟨c0, e0, k⟩ := ih fun c hc => h c (List.mem_append_left _ hc)
    obtain ⟨tn, st, rfl⟩ := h x (List.mem_append_right _ List.mem_cons_self)
    have e : setup v (ts ++ [.tab tn st]) = some (setTab c0 tn st) := by
      unfold setup at e0 ⊢
      rw [List.foldlM_append, e0]
      rfl
    refine ⟨_, e, ?_⟩
    have hkn : ∀ sn, Known (setTab c0 tn st) sn ↔ ∃ t ∈ names (ts ++ [.tab tn st]), alike t sn := by
      intro sn
      rw [setTab_tabs, k.known, names_append]
      simp only [names, List.mem_append, List.mem_singleton]
      constructor
      · rintro (⟨t, h1, h2⟩ | h2)
        · exact ⟨t, Or.inl h1, h2⟩
        · exact ⟨tn, Or.inr rfl, h2⟩
      · rintro ⟨t, h1 | rfl, h2⟩
        · exact Or.inl ⟨t, h1, h2⟩
        · exact Or.inr h2
    have hok := setTab_ok k.ok tn st
    by_cases hany : c0.tabs.any (fun t => same t.1 tn) = true
    · have es : setTab c0 tn st = c0 := by unfold setTab; rw [if_pos hany]
      rw [es] at hkn hok ⊢
      refine ⟨k.units, k.sums, k.status, hkn, hok, ?_, ?_, k.top, k.scale⟩
      · intro t ht
        obtain ⟨h1, h2⟩ := k.mem t ht
        exact ⟨by rw [found_append, h1]; rfl, List.mem_append_left _ h2⟩
      · intro sn s hf
        rw [found_append] at hf
        cases h1 : found ts sn with
        | some s' =>
          rw [h1] at hf
          cases hf
          exact k.all sn s h1
        | none =>
          rw [h1] at hf
          exfalso
          obtain ⟨t, ht, hs⟩ := List.any_eq_true.1 hany
          obtain ⟨t', ht', ha⟩ := (k.known tn).1 ⟨t, ht, same_iff.1 hs⟩
          have : alike tn sn := by
            obtain ⟨u, hu, hx⟩ := found_some (cs := [.tab tn st]) hf
            simp only [names, List.mem_singleton] at hu
            subst hu; exact hx
          exact found_none h1 ⟨t', ht', alike_trans ha this⟩
    · have es : setTab c0 tn st = { c0 with
          tabs := c0.tabs ++ [(tn, st)],
          scale := match st with
            | none => c0.scale
            | some a => finer a c0.scale } := by unfold setTab; rw [if_neg hany]; cases st <;> rfl
      have hnone : found ts tn = none := by
        cases hf : found ts tn with
        | none => rfl
        | some s =>
          exfalso
          obtain ⟨t, h1, h2⟩ := (k.known tn).2 (found_some hf)
          exact hany (List.any_eq_true.2 ⟨t, h1, same_iff.2 h2⟩)
      have hme : found (ts ++ [.tab tn st]) tn = some st := by
        rw [found_append, hnone]
        simp [found, List.findSome?, alike]
      rw [es] at hkn hok ⊢
      refine ⟨k.units, k.sums, k.status, hkn, hok, ?_, ?_, ?_, ?_⟩
      · intro t ht
        rcases List.mem_append.1 ht with ht | ht
        · obtain ⟨h1, h2⟩ := k.mem t ht
          exact ⟨by rw [found_append, h1]; rfl, List.mem_append_left _ h2⟩
        · simp only [List.mem_singleton] at ht
          subst ht
          exact ⟨hme, by simp⟩
      · intro sn s hf
        rw [found_append] at hf
        cases h1 : found ts sn with
        | some s' =>
          rw [h1] at hf
          cases hf
          obtain ⟨t, h2, h3⟩ := k.all sn s h1
          exact ⟨t, List.mem_append_left _ h2, h3⟩
        | none =>
          rw [h1] at hf
          simp only [Option.none_or, found, List.findSome?_cons, List.findSome?_nil] at hf
          split at hf
          · rename_i hs
            split at hs
            · cases hs; cases hf; exact ⟨(tn, st), by simp, rfl⟩
            · cases hs
          · cases hf
      · intro t ht a ha
        rcases List.mem_append.1 ht with ht | ht
        · obtain ⟨b, h1, h2⟩ := k.top t ht a ha
          cases st with
          | none => exact ⟨b, h1, h2⟩
          | some d =>
            simp only [h1, finer]
            split
            · exact ⟨d, rfl, by omega⟩
            · exact ⟨b, rfl, h2⟩
        · simp only [List.mem_singleton] at ht
          subst ht
          simp only at ha
          subst ha
          simp only
          cases c0.scale with
          | none => exact ⟨a, rfl, Nat.le_refl _⟩
          | some b =>
            simp only [finer]
            split
            · exact ⟨a, rfl, Nat.le_refl _⟩
            · exact ⟨b, rfl, by omega⟩
      · intro b hb
        cases st with
        | none =>
          obtain ⟨t, h1, h2⟩ := k.scale b hb
          exact ⟨t, List.mem_append_left _ h1, h2⟩
        | some a =>
          simp only at hb
          cases hs : c0.scale with
          | none => rw [hs] at hb; cases hb; exact ⟨(tn, some _), List.mem_append_right _ List.mem_cons_self, rfl⟩
          | some d =>
            rw [hs] at hb
            simp only [finer] at hb
            split at hb
            · cases hb; exact ⟨(tn, some _), List.mem_append_right _ List.mem_cons_self, rfl⟩
            · cases hb
              obtain ⟨t, h1, h2⟩ := k.scale _ hs
              exact ⟨t, List.mem_append_left _ h1, h2⟩

theorem given_tabs {kn sn : Bytes} : ∀ (ts : List Call) (known : List Bytes) (xs : List Item) (pre : List Call),
    (∀ c ∈ ts, ∃ tn st, c = .tab tn st) → given kn sn known xs (ts ++ pre) = given kn sn (known ++ names ts) xs pre
  | [], known, xs, pre, _ => by simp [names]
  | c :: ts, known, xs, pre, h => by
    obtain ⟨tn, st, rfl⟩ := h c List.mem_cons_self
    simp only [List.cons_append, given, names]
    rw [given_tabs ts _ xs pre fun c hc => h c (List.mem_cons_of_mem _ hc)]
    simp

theorem count_tabs : ∀ (ts ps : List Call), (∀ c ∈ ts, ∃ tn st, c = .tab tn st) → count (ts ++ ps) = count ps
  | [], ps, _ => rfl
  | c :: ts, ps, h => by
    obtain ⟨tn, st, rfl⟩ := h c List.mem_cons_self
    simp only [List.cons_append, count]
    exact count_tabs ts ps fun c hc => h c (List.mem_cons_of_mem _ hc)

/-- The start of a merge, for what is told. -/
theorem start_out {v : Env} {n : Nat} {c : Cxt} {more : List ((Bytes × Bytes) × List Item)} {s : St} {b : Bool} (hs : c.status = .none)
    (h : start v n (begin_ c more) = some (s, b)) :
    ∃ s', rounds v n { begin_ c more with c := { c with status := .start }, out := [.started] } = some (s', b) ∧
      s.out = if b then s'.out ++ [.stopped] else s'.out := by
  unfold start begin_ at h
  rw [if_neg (by rw [hs]; rintro (h | h) <;> cases h)] at h
  rw [Option.map_eq_some_iff] at h
  obtain ⟨r, h1, h2⟩ := h
  refine ⟨r.1, ?_, ?_⟩
  · have : r = (r.1, b) := by
      cases hb : r.2 with
      | true => rw [hb] at h2; cases h2; rw [← hb]
      | false => rw [hb] at h2; simp only [Bool.false_eq_true, if_false] at h2; rw [h2]
    rw [← this]
    exact h1
  · cases hb : r.2 with
    | true => rw [hb] at h2; cases h2; rfl
    | false =>
      rw [hb] at h2
      simp only [Bool.false_eq_true, if_false] at h2
      rw [h2] at hb ⊢
      simp only at hb
      rw [hb]; rfl

theorem order_gen {v : Env} {ts ps : List Call} {c : Cxt} (W : Bytes → Item → Nat) (hts : ∀ c ∈ ts, ∃ tn st, c = .tab tn st)
    (hps : ∀ tn st, Call.tab tn st ∉ ps) (h : setup v (ts ++ ps) = some c) (hn : count (ts ++ ps) < 2 ^ 32)
    (hW : ∀ c0, Tabs ts c0 → ∀ t ∈ c0.tabs, ∀ kn sn xs, Call.push kn sn xs ∈ ps → alike t.1 sn →
      ∀ x ∈ xs, vtime v c0.scale t.2 x = some (W t.1 x))
    (hmono : ∀ tn, ∀ x y : Item, x.time ≤ y.time → W tn x ≤ W tn y)
    (hs : ∀ pre, pre <+: ps → ∀ kn sn, (given kn sn [] [] (ts ++ pre)).Pairwise fun a b => a.time ≤ b.time)
    {n : Nat} {s : St} {b : Bool} (hr : start v n (begin_ c []) = some (s, b)) :
    (records s.out).Pairwise fun a b => W a.1.2 a.2 ≤ W b.1.2 b.2 := by
  obtain ⟨c0, e0, k⟩ := tabs_ok v ts hts
  unfold setup at h e0
  rw [List.foldlM_append, e0] at h
  rw [count_tabs ts ps hts] at hn
  have hb : total c0.units + count ps < 2 ^ 32 := by rw [k.units]; simpa [total] using hn
  have hc0 : CSrt W c0 := by
    refine ⟨?_, ?_, ?_, ?_⟩ <;> (intro u hu; rw [k.units] at hu; cases hu)
  have hcs := calls_srt (W := W) (names ts) k.ok hc0 k.known hb h hps (fun t h1 => hW c0 k t h1) (fun t _ => hmono t.1) (by
    intro pre hp kn sn
    have := hs pre hp kn sn
    rw [given_tabs ts [] [] pre hts] at this
    rw [k.units]
    exact this)
  obtain ⟨g1, g2, g3, -⟩ := calls_ok (names ts) k.ok k.known hb h
  obtain ⟨s', h1, h2⟩ := start_out (g3.trans k.status) hr
  have hout := rounds_srt (W := W) (s := { begin_ c [] with c := { c with status := .start }, out := [.started] })
    ⟨⟨g1.uniq, g1.tn, g1.tab, g1.sums⟩, by simp only [begin_, countLater, List.map_nil, List.sum_nil]; omega, nofun, nofun⟩ rfl ⟨hcs.st, hcs.tm, hcs.sq, hcs.low⟩
    List.Pairwise.nil nofun h1
  rw [h2]
  split
  · rw [records_append]
    simpa [records] using hout
  · exact hout

/-- The styles in use. -/
structure Sty (cs : List Call) (c : Cxt) : Prop where
  tab : ∀ t ∈ c.tabs, ∃ tn, Call.tab tn t.2 ∈ cs
  scale : ∀ b, c.scale = some b → ∃ tn, Call.tab tn (some b) ∈ cs
  unit : ∀ u ∈ c.units, ∃ tn, Call.tab tn u.style ∈ cs

theorem sty_put {v : Env} {cs : List Call} {c c' : Cxt} {i : Nat} {u : Chan} {xs : List Item} (k : Sty cs c)
    (hu : ∃ tn, Call.tab tn u.style ∈ cs) (h : put v c i u xs = some c') : Sty cs c' := by
  obtain ⟨ts, -, -, h3, -, h5, h6, -⟩ := put_eq h
  refine ⟨by rw [h5]; exact k.tab, by rw [h6]; exact k.scale, ?_⟩
  intro w hw
  rw [h3] at hw
  rcases List.mem_or_eq_of_mem_set hw with hw | rfl
  · exact k.unit w hw
  · exact hu

theorem sty_calls {v : Env} {cs : List Call} : ∀ (ds : List Call) (c0 c : Cxt), (∀ d ∈ ds, d ∈ cs) → Sty cs c0 →
    ds.foldlM (call v) c0 = some c → Sty cs c := by
  intro ds
  induction ds with
  | nil => intro c0 c _ k h; cases h; exact k
  | cons d ds ih =>
    intro c0 c hm k h
    rw [List.foldlM_cons] at h
    have hd := hm d List.mem_cons_self
    have hm' : ∀ d ∈ ds, d ∈ cs := fun d hx => hm d (List.mem_cons_of_mem _ hx)
    cases d with
    | clear =>
      refine ih (clear c0) c hm' ⟨k.tab, k.scale, ?_⟩ h
      intro u hu
      simp only [clear, List.mem_map] at hu
      obtain ⟨w, hw, rfl⟩ := hu
      exact k.unit w hw
    | tab tn st =>
      refine ih (setTab c0 tn st) c hm' ?_ h
      unfold setTab
      split
      · exact k
      · refine ⟨?_, ?_, k.unit⟩
        · intro t ht
          rcases List.mem_append.1 ht with ht | ht
          · exact k.tab t ht
          · simp only [List.mem_singleton] at ht
            subst ht
            exact ⟨tn, hd⟩
        · intro b hb
          cases st with
          | none => exact k.scale b hb
          | some a =>
            simp only at hb
            cases hs : c0.scale with
            | none => rw [hs] at hb; cases hb; exact ⟨tn, hd⟩
            | some e =>
              rw [hs] at hb
              simp only [finer] at hb
              split at hb
              · cases hb; exact ⟨tn, hd⟩
              · cases hb; exact k.scale _ hs
    | push kn sn xs =>
      simp only [call] at h
      cases hp : push v c0 kn sn xs with
      | none => rw [hp] at h; cases h
      | some c1 =>
        rw [hp] at h
        refine ih c1 c hm' ?_ h
        unfold push at hp
        split at hp
        · rw [Option.bind_eq_some_iff] at hp
          obtain ⟨u, hu, hp⟩ := hp
          exact sty_put k (k.unit u (List.mem_of_getElem? hu)) hp
        · split at hp
          · cases hp
          · split at hp
            · cases hp; exact k
            · rename_i t ht
              obtain ⟨t1, -⟩ := find_tab ht
              simp only at hp
              refine sty_put (c := { c0 with units := c0.units ++ [{ kn := kn, sn := sn, tn := t.1, style := t.2 }] })
                ⟨k.tab, k.scale, ?_⟩ ?_ hp
              · intro w hw
                rcases List.mem_append.1 hw with hw | hw
                · exact k.unit w hw
                · simp only [List.mem_singleton] at hw
                  subst hw
                  exact k.tab t t1
              · exact k.tab t t1

end Sis.Mrg
