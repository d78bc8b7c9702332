import Verif.Fmap.Load
import Verif.Fmap.QueryTheorems
/-
Property theorems on lazy loading (C58): a query on a series whose blocks are loaded on demand answers as if the whole
series were in memory.
-/
namespace Sis.Fmap

variable {α : Type}

/-- What is stored on disk for a series with these map entries: the records of all active periods, in order. -/
def storedRecords (disk : Int → Option (List α)) (fs : List Fidx) : List α :=
  fs.flatMap fun f => if f.moved then [] else (disk f.isign).getD []

/-- The calendar and the files are as they should be: entries in order of valid periods, the block of a period holds
sorted records of that period, later times are not in an earlier period, `lower` separates the records of periods, stepping
reaches every valid period. -/
structure DiskOk (T : Table α) (C : Calendar) (Valid : Int → Prop) (disk : Int → Option (List α)) (fs : List Fidx) : Prop where
  ordered : fs.Pairwise fun a b => a.isign < b.isign
  valid : ∀ f ∈ fs, Valid f.isign
  validTs : ∀ t, Valid (T.sign t)
  step : ∀ p, Valid p → Valid (C.next p)
  reach : ∀ p q, Valid p → Valid q → p < q → C.next p ≤ q
  mono : ∀ a b, a ≤ b → T.sign a ≤ T.sign b
  lower : ∀ f ∈ fs, ∀ b, disk f.isign = some b → ∀ r ∈ b, ∀ g ∈ fs, (T.ts r < C.lower g.isign ↔ f.isign < g.isign)
  period : ∀ f ∈ fs, ∀ b, disk f.isign = some b → ∀ r ∈ b, T.sign (T.ts r) = f.isign
  sorted : ∀ f ∈ fs, ∀ b, disk f.isign = some b → Sorted T.ts b

/-- What an entry contributes to the records in memory. -/
def content (disk : Int → Option (List α)) (f : Fidx) : List α :=
  if f.start = -1 ∨ f.moved then [] else (disk f.isign).getD []

/-- The records in memory are those of the loaded entries. -/
def Loaded (disk : Int → Option (List α)) (u : Unit α) : Prop := u.recs = u.fidxs.flatMap (content disk)

/-- Two entries are the same but for counts and positions. -/
def view (f : Fidx) : Int × Bool := (f.isign, f.moved)

/-- Entries only ever become loaded. -/
def Grow (fs fs' : List Fidx) : Prop :=
  fs'.map view = fs.map view ∧ ∀ i (h : i < fs.length) (h' : i < fs'.length), fs[i].start ≠ -1 → fs'[i].start ≠ -1

theorem Grow.refl (fs : List Fidx) : Grow fs fs := ⟨rfl, fun _ _ _ h => h⟩

theorem Grow.length {fs fs' : List Fidx} (h : Grow fs fs') : fs'.length = fs.length := by
  have := congrArg List.length h.1; simpa using this

theorem Grow.trans {a b c : List Fidx} (h1 : Grow a b) (h2 : Grow b c) : Grow a c := by
  refine ⟨h2.1.trans h1.1, fun i h h' hs => ?_⟩
  have hb : i < b.length := by rw [h1.length]; exact h
  exact h2.2 i hb h' (h1.2 i h hb hs)

theorem Grow.view_eq {fs fs' : List Fidx} (h : Grow fs fs') {i : Nat} (hi : i < fs.length) (hi' : i < fs'.length) :
    view fs'[i] = view fs[i] := by
  have h1 := congrArg (fun l => l[i]?) h.1
  simp only [List.getElem?_map, List.getElem?_eq_getElem hi, List.getElem?_eq_getElem hi', Option.map_some, Option.some.injEq] at h1
  exact h1

theorem stored_grow (disk : Int → Option (List α)) {fs fs' : List Fidx} (h : Grow fs fs') : storedRecords disk fs' = storedRecords disk fs := by
  have : ∀ l : List Fidx, storedRecords disk l = (l.map view).flatMap fun v => if v.2 then [] else (disk v.1).getD [] := by
    intro l; unfold storedRecords; rw [List.flatMap_map]; rfl
  rw [this, this, h.1]

theorem diskOk_grow {T : Table α} {C : Calendar} {V : Int → Prop} {disk : Int → Option (List α)} {fs fs' : List Fidx} (h : Grow fs fs')
    (hd : DiskOk T C V disk fs) : DiskOk T C V disk fs' := by
  have hmem : ∀ f ∈ fs', ∃ f0 ∈ fs, f0.isign = f.isign := by
    intro f hf
    have : view f ∈ fs.map view := by rw [← h.1]; exact List.mem_map.2 ⟨f, hf, rfl⟩
    rw [List.mem_map] at this
    obtain ⟨f0, hf0, he⟩ := this
    exact ⟨f0, hf0, congrArg Prod.fst he⟩
  exact {
    ordered := by
      have h1 : (fs.map view).Pairwise (fun a b => a.1 < b.1) := by rw [List.pairwise_map]; exact hd.ordered
      rw [← h.1, List.pairwise_map] at h1
      exact h1
    valid := fun f hf => by obtain ⟨f0, h0, he⟩ := hmem f hf; rw [← he]; exact hd.valid f0 h0
    validTs := hd.validTs
    step := hd.step
    reach := hd.reach
    mono := hd.mono
    lower := fun f hf b hb r hr g hg => by
      obtain ⟨f0, h0, he⟩ := hmem f hf
      obtain ⟨g0, h1, he1⟩ := hmem g hg
      rw [← he, ← he1]
      exact hd.lower f0 h0 b (by rw [he]; exact hb) r hr g0 h1
    period := fun f hf => by obtain ⟨f0, h0, he⟩ := hmem f hf; rw [← he]; exact hd.period f0 h0
    sorted := fun f hf => by obtain ⟨f0, h0, he⟩ := hmem f hf; rw [← he]; exact hd.sorted f0 h0 }

theorem content_period {T : Table α} {C : Calendar} {V : Int → Prop} {disk : Int → Option (List α)} {fs : List Fidx}
    (hd : DiskOk T C V disk fs) {f : Fidx} (hf : f ∈ fs) {r : α} (hr : r ∈ content disk f) : T.sign (T.ts r) = f.isign := by
  unfold content at hr
  split at hr
  · simp at hr
  · cases hb : disk f.isign with
    | none => rw [hb] at hr; simp at hr
    | some b => rw [hb] at hr; exact hd.period f hf b hb r hr

theorem content_lower {T : Table α} {C : Calendar} {V : Int → Prop} {disk : Int → Option (List α)} {fs : List Fidx}
    (hd : DiskOk T C V disk fs) {f g : Fidx} (hf : f ∈ fs) (hg : g ∈ fs) {r : α} (hr : r ∈ content disk f) :
    T.ts r < C.lower g.isign ↔ f.isign < g.isign := by
  unfold content at hr
  split at hr
  · simp at hr
  · cases hb : disk f.isign with
    | none => rw [hb] at hr; simp at hr
    | some b => rw [hb] at hr; exact hd.lower f hf b hb r hr g hg

theorem content_sorted {T : Table α} {C : Calendar} {V : Int → Prop} {disk : Int → Option (List α)} {fs : List Fidx}
    (hd : DiskOk T C V disk fs) {f : Fidx} (hf : f ∈ fs) : Sorted T.ts (content disk f) := by
  unfold content
  split
  · exact List.Pairwise.nil
  · cases hb : disk f.isign with
    | none => exact List.Pairwise.nil
    | some b => exact hd.sorted f hf b hb

theorem period_lt {T : Table α} {C : Calendar} {V : Int → Prop} {disk : Int → Option (List α)} {fs : List Fidx}
    (hd : DiskOk T C V disk fs) {a b : Nat} (h : T.sign a < T.sign b) : a < b := by
  rcases Nat.lt_or_ge a b with h1 | h1
  · exact h1
  · have := hd.mono b a h1
    omega

theorem flat_sorted {T : Table α} {C : Calendar} {V : Int → Prop} {disk : Int → Option (List α)} {fs : List Fidx}
    (hd : DiskOk T C V disk fs) : Sorted T.ts (fs.flatMap (content disk)) := by
  have hord := hd.ordered
  have : ∀ l : List Fidx, (∀ f ∈ l, f ∈ fs) → l.Pairwise (fun a b => a.isign < b.isign) → Sorted T.ts (l.flatMap (content disk)) := by
    intro l
    induction l with
    | nil => intro _ _; exact List.Pairwise.nil
    | cons f l ih =>
      intro hm ho
      rw [List.pairwise_cons] at ho
      rw [List.flatMap_cons]
      unfold Sorted
      rw [List.pairwise_append]
      refine ⟨content_sorted hd (hm f (by simp)), ih (fun g hg => hm g (by simp [hg])) ho.2, ?_⟩
      intro r hr s hs
      rw [List.mem_flatMap] at hs
      obtain ⟨g, hg, hs⟩ := hs
      have h1 := content_period hd (hm f (by simp)) hr
      have h2 := content_period hd (hm g (by simp [hg])) hs
      have h3 := ho.1 g hg
      have := period_lt hd (a := T.ts r) (b := T.ts s) (by omega)
      omega
  exact this fs (fun _ h => h) hord

/-- The block is put where it belongs. -/
theorem load_position (T : Table α) (g : Goto) (u : Unit α) (hs : Sorted T.ts u.recs) (x : Nat) (b : List α) :
    (if findHead (keyOf T.ts u.recs) u.recs.length (u.hint g x) x ≥ u.recs.length then u.recs ++ b
     else slInserts u.recs (if findHead (keyOf T.ts u.recs) u.recs.length (u.hint g x) x < 0 then 0
       else findHead (keyOf T.ts u.recs) u.recs.length (u.hint g x) x) b) =
    u.recs.take (lo T.ts u.recs x) ++ (b ++ u.recs.drop (lo T.ts u.recs x)) := by
  by_cases h : 0 < u.recs.length
  · have hin := hint_inside g u x h
    rw [findHead_spec (split_of_sorted hs x) _ hin.1 hin.2]
    have e1 := lo_le_hi T.ts u.recs (Nat.le_refl x)
    have e2 := hi_le T.ts u.recs x
    have hmid : lo T.ts u.recs x < u.recs.length → slInserts u.recs (lo T.ts u.recs x) b =
        u.recs.take (lo T.ts u.recs x) ++ (b ++ u.recs.drop (lo T.ts u.recs x)) := by
      intro hlt
      unfold slInserts
      rw [if_neg (by omega)]
      simp
    unfold headPos
    by_cases h1 : (lo T.ts u.recs x : Int) < hi T.ts u.recs x
    · simp only [if_pos h1]
      rw [if_neg (show ¬ ((lo T.ts u.recs x : Int) ≥ u.recs.length) by omega), if_neg (by omega)]
      exact hmid (by omega)
    · simp only [if_neg h1]
      by_cases h2 : (lo T.ts u.recs x : Int) = 0
      · simp only [if_pos h2]
        rw [if_neg (by omega), if_pos (by omega)]
        have := hmid (by omega)
        rw [h2] at this
        exact this
      · simp only [if_neg h2]
        by_cases h3 : (lo T.ts u.recs x : Int) = u.recs.length
        · simp only [if_pos h3]
          rw [if_pos (by omega), show lo T.ts u.recs x = u.recs.length by omega]
          simp
        · simp only [if_neg h3]
          rw [if_neg (show ¬ ((lo T.ts u.recs x : Int) ≥ u.recs.length) by omega), if_neg (by omega)]
          exact hmid (by omega)
  · have h0 : u.recs = [] := List.eq_nil_of_length_eq_zero (by omega)
    have e : u.hint g x = -1 := g.empty _ _ _ _ _ (by omega)
    rw [e]
    simp [findHead, h0]

theorem loadOne_spec (T : Table α) (g : Goto) (C : Calendar) (V : Int → Prop) (disk : Int → Option (List α)) (u : Unit α)
    {pre post : List Fidx} {f : Fidx} (hfs : u.fidxs = pre ++ f :: post) (hd : DiskOk T C V disk u.fidxs) (hl : Loaded disk u)
    (hf : f.start = -1) (hmv : f.moved = false) :
    Loaded disk (loadOne T g C disk u pre f post) ∧ Grow u.fidxs (loadOne T g C disk u pre f post).fidxs ∧
    ∃ f' post', (loadOne T g C disk u pre f post).fidxs = pre ++ f' :: post' ∧ f'.start ≠ -1 := by
  have hs : Sorted T.ts u.recs := by rw [hl]; exact flat_sorted hd
  have hc0 : content disk f = [] := by unfold content; rw [if_pos (.inl hf)]
  have hrecs : u.recs = pre.flatMap (content disk) ++ post.flatMap (content disk) := by
    rw [hl, hfs, List.flatMap_append, List.flatMap_cons, hc0]; rfl
  have hord := hd.ordered
  rw [hfs, List.pairwise_append, List.pairwise_cons] at hord
  have hlo : lo T.ts u.recs (C.lower f.isign) = (pre.flatMap (content disk)).length := by
    unfold lo
    rw [hrecs, List.countP_append]
    have h1 : (pre.flatMap (content disk)).countP (fun r => decide (T.ts r < C.lower f.isign)) = (pre.flatMap (content disk)).length := by
      rw [List.countP_eq_length]
      intro r hr
      rw [List.mem_flatMap] at hr
      obtain ⟨p, hp, hr⟩ := hr
      have h2 := content_period hd (show p ∈ u.fidxs by rw [hfs]; simp [hp]) hr
      have h3 := hord.2.2 p hp f (by simp)
      simp only [decide_eq_true_eq]
      exact (content_lower hd (show p ∈ u.fidxs by rw [hfs]; simp [hp]) (show f ∈ u.fidxs by rw [hfs]; simp) hr).2 (by omega)
    have h2 : (post.flatMap (content disk)).countP (fun r => decide (T.ts r < C.lower f.isign)) = 0 := by
      rw [List.countP_eq_zero]
      intro r hr
      rw [List.mem_flatMap] at hr
      obtain ⟨p, hp, hr⟩ := hr
      have h2 := content_period hd (show p ∈ u.fidxs by rw [hfs]; simp [hp]) hr
      have h3 := hord.2.1.1 p hp
      simp only [decide_eq_true_eq]
      intro h4
      have := (content_lower hd (show p ∈ u.fidxs by rw [hfs]; simp [hp]) (show f ∈ u.fidxs by rw [hfs]; simp) hr).1 h4
      omega
    omega
  have hgrow : ∀ (f' : Fidx) (m : Fidx → Fidx), view f' = view f → f'.start ≠ -1 → (∀ x, view (m x) = view x) →
      (∀ x : Fidx, x.start ≠ -1 → (m x).start ≠ -1) → Grow u.fidxs (pre ++ f' :: post.map m) := by
    intro f' m h1 h2 h3 h4
    rw [hfs]
    refine ⟨?_, ?_⟩
    · simp only [List.map_append, List.map_cons, h1, List.map_map]
      congr 2
      apply List.map_congr_left
      intro x _
      exact h3 x
    · intro i hi hi' hst
      by_cases ha : i < pre.length
      · rw [List.getElem_append_left ha] at hst ⊢; exact hst
      · rw [List.getElem_append_right (by omega)] at hst ⊢
        by_cases hi0 : i = pre.length
        · subst hi0; simpa using h2
        · obtain ⟨k, hk⟩ : ∃ k, i = pre.length + (k + 1) := ⟨i - pre.length - 1, by omega⟩
          subst hk
          simp only [Nat.add_sub_cancel_left, List.getElem_cons_succ, List.getElem_map] at hst ⊢
          exact h4 _ hst
  have hshift : ∀ (c : Nat) (x : Fidx), view (shiftLoaded c x) = view x := by
    intro c x; unfold shiftLoaded; split <;> rfl
  have hshift2 : ∀ (c : Nat) (x : Fidx), (shiftLoaded c x).start = -1 ↔ x.start = -1 := by
    intro c x; unfold shiftLoaded; split
    · simp only; omega
    · rfl
  have hcontent : ∀ (c : Nat) (l : List Fidx), (l.map (shiftLoaded c)).flatMap (content disk) = l.flatMap (content disk) := by
    intro c l
    rw [List.flatMap_map]
    congr 1
    funext x
    unfold content
    have := hshift c x
    unfold view at this
    injection this with a1 a2
    rw [a1, a2]
    simp only [hshift2]
  have hnone : Loaded disk { u with fidxs := pre ++ { f with count := 0, start := 0 } :: post } ↔ (disk f.isign).getD [] = [] := by
    unfold Loaded
    simp only
    rw [hrecs, List.flatMap_append, List.flatMap_cons]
    have : content disk { f with count := 0, start := 0 } = (disk f.isign).getD [] := by
      unfold content; simp [hmv]
    rw [this]
    constructor
    · intro h
      have := List.append_cancel_left h
      have := congrArg List.length this
      simp at this
      exact this
    · intro h; rw [h]; rfl
  unfold loadOne
  simp only
  cases hb : disk f.isign with
  | none =>
    simp only
    refine ⟨hnone.2 (by rw [hb]; rfl), ?_, _, _, rfl, by simp⟩
    have := hgrow { f with count := 0, start := 0 } id rfl (by simp) (fun _ => rfl) (fun _ h => h)
    simpa using this
  | some b =>
    simp only
    by_cases hlen : b.length > 0
    · rw [if_pos hlen]
      have hput := load_position T g u hs (C.lower f.isign) b
      rw [hlo, hrecs, List.take_left, List.drop_left, ← hrecs] at hput
      have hdone : ∀ (st : Int), 0 ≤ st → ∀ recs', recs' = pre.flatMap (content disk) ++ (b ++ post.flatMap (content disk)) →
          Loaded disk (Unit.reidx T { u with
            fidxs := pre ++ { f with count := (b.length : Int), start := st } :: post.map (shiftLoaded b.length)
            recs := recs' }) := by
        intro st hst recs' hr
        unfold Loaded
        simp only [Unit.reidx]
        rw [hr, List.flatMap_append, List.flatMap_cons, hcontent]
        congr 2
        unfold content
        simp only [hmv]
        rw [if_neg (by simp; omega), hb]
        rfl
      by_cases hge : findHead (keyOf T.ts u.recs) u.recs.length (u.hint g (C.lower f.isign)) (C.lower f.isign) ≥ u.recs.length
      · rw [if_pos hge] at hput ⊢
        refine ⟨hdone _ (by omega) _ hput, ?_, _, _, rfl, by simp⟩
        exact hgrow _ (shiftLoaded b.length) rfl (by simp) (hshift _) (fun x hx h => hx ((hshift2 _ x).1 h))
      · rw [if_neg hge] at hput ⊢
        have hst : 0 ≤ (if findHead (keyOf T.ts u.recs) u.recs.length (u.hint g (C.lower f.isign)) (C.lower f.isign) < 0 then 0
          else findHead (keyOf T.ts u.recs) u.recs.length (u.hint g (C.lower f.isign)) (C.lower f.isign)) := by split <;> omega
        refine ⟨hdone _ hst _ hput, ?_, _, _, rfl, ?_⟩
        · exact hgrow _ (shiftLoaded b.length) rfl (by simp only; omega) (hshift _) (fun x hx h => hx ((hshift2 _ x).1 h))
        · simp only; omega
    · rw [if_neg hlen]
      have hb0 : b = [] := List.eq_nil_of_length_eq_zero (by omega)
      refine ⟨?_, ?_, _, _, rfl, by simp⟩
      · exact hnone.2 (by rw [hb, hb0]; rfl)
      · have := hgrow { f with count := 0, start := 0 } id rfl (by simp) (fun _ => rfl) (fun _ h => h)
        simpa [Unit.reidx] using this

/-- The state of a series between queries. -/
structure LazyInv (T : Table α) (C : Calendar) (V : Int → Prop) (disk : Int → Option (List α)) (u : Unit α) : Prop where
  ok : DiskOk T C V disk u.fidxs
  loaded : Loaded disk u
  fresh : ∀ f ∈ u.fidxs, f.start = -1 → f.moved = false

theorem LazyInv.grow {T : Table α} {C : Calendar} {V : Int → Prop} {disk : Int → Option (List α)} {u u' : Unit α}
    (h : LazyInv T C V disk u) (hg : Grow u.fidxs u'.fidxs) (hl : Loaded disk u') : LazyInv T C V disk u' := by
  refine ⟨diskOk_grow hg h.ok, hl, fun f hf hs => ?_⟩
  obtain ⟨i, hi, he⟩ := List.getElem_of_mem hf
  have hi0 : i < u.fidxs.length := by rw [← hg.length]; exact hi
  have h1 : u.fidxs[i].start = -1 := Decidable.byContradiction fun hn => hg.2 i hi0 hi hn (by rw [he]; exact hs)
  have h2 := h.fresh _ (List.getElem_mem hi0) h1
  have h3 := hg.view_eq hi0 hi
  rw [he] at h3
  exact (congrArg Prod.snd h3).trans h2

theorem getData_spec (T : Table α) (g : Goto) (C : Calendar) (V : Int → Prop) (disk : Int → Option (List α)) (op stop : Int) (u : Unit α)
    (index n : Nat) : LazyInv T C V disk u → V op → n = u.fidxs.length →
    LazyInv T C V disk (getData T g C disk op stop u index n) ∧
    Grow u.fidxs (getData T g C disk op stop u index n).fidxs ∧
    ∀ j (h : j < (getData T g C disk op stop u index n).fidxs.length), index ≤ j →
      op ≤ (getData T g C disk op stop u index n).fidxs[j].isign →
      (getData T g C disk op stop u index n).fidxs[j].isign ≤ stop →
      (getData T g C disk op stop u index n).fidxs[j].start ≠ -1 := by
  fun_induction getData T g C disk op stop u index n with
  | case1 op u index hc hnone =>
    intro hinv _ hn
    subst hn
    rw [List.getElem?_eq_none_iff] at hnone
    omega
  | case2 u index f hget u2 hc ih =>
    intro hinv hv hn
    have hi : index < u.fidxs.length := by omega
    have hfe : u.fidxs[index] = f := by
      have := List.getElem?_eq_getElem hi
      rw [hget] at this
      injection this with h; exact h.symm
    have hfm : f ∈ u.fidxs := by rw [← hfe]; exact List.getElem_mem hi
    have hfs : u.fidxs = u.fidxs.take index ++ f :: u.fidxs.drop (index + 1) := by
      rw [← hfe, ← List.drop_eq_getElem_cons hi, List.take_append_drop]
    have key : LazyInv T C V disk u2 ∧ Grow u.fidxs u2.fidxs ∧ ∃ h : index < u2.fidxs.length, u2.fidxs[index].start ≠ -1 := by
      by_cases hst : f.start = -1
      · have hu2 : u2 = loadOne T g C disk u (u.fidxs.take index) f (u.fidxs.drop (index + 1)) := by
          simp only [u2]; rw [dif_pos hst]
        have hl := loadOne_spec T g C V disk u hfs hinv.ok hinv.loaded hst (hinv.fresh f hfm hst)
        rw [← hu2] at hl
        refine ⟨hinv.grow hl.2.1 hl.1, hl.2.1, ?_⟩
        have hlen := hl.2.1.length
        obtain ⟨f', post', he, hf'⟩ := hl.2.2
        refine ⟨by omega, ?_⟩
        have hk : (u.fidxs.take index).length = index := by simp; omega
        have : u2.fidxs[index]? = some f' := by
          rw [he, List.getElem?_append_right (by omega), hk, Nat.sub_self]; rfl
        rw [List.getElem?_eq_getElem (by omega)] at this
        injection this with h
        rw [h]; exact hf'
      · have hu2 : u2 = u := by simp only [u2]; rw [dif_neg hst]
        rw [hu2]
        exact ⟨hinv, Grow.refl _, hi, by rw [hfe]; exact hst⟩
    obtain ⟨k1, k2, hi2, k3⟩ := key
    have hih := ih k1 (hinv.ok.step _ hv) (by rw [k2.length]; exact hn)
    refine ⟨hih.1, k2.trans hih.2.1, ?_⟩
    intro j hj hij h1 h2
    by_cases hji : j = index
    · subst hji
      exact hih.2.1.2 j hi2 hj k3
    · refine hih.2.2 j hj (by omega) ?_ h2
      have hord := hih.1.ok.ordered
      have hi' : index < (getData T g C disk (C.next f.isign) stop u2 (index + 1) n).fidxs.length := by omega
      have h3 := List.pairwise_iff_getElem.1 hord index j hi' hj (by omega)
      have h4 := congrArg Prod.fst ((k2.trans hih.2.1).view_eq hi hi')
      simp only [view] at h4
      rw [hfe] at h4
      exact hinv.ok.reach _ _ hv (hih.1.ok.valid _ (List.getElem_mem hj)) (by omega)
  | case3 op u index hc f hget hne hlt ih =>
    intro hinv hv hn
    have hi : index < u.fidxs.length := by omega
    have hfe : u.fidxs[index] = f := by
      have := List.getElem?_eq_getElem hi
      rw [hget] at this
      injection this with h; exact h.symm
    have hih := ih hinv (hinv.ok.step _ hv) hn
    refine ⟨hih.1, hih.2.1, ?_⟩
    intro j hj hij h1 h2
    refine hih.2.2 j hj hij ?_ h2
    have hi' : index < (getData T g C disk (C.next op) stop u index n).fidxs.length := by omega
    have h4 := congrArg Prod.fst (hih.2.1.view_eq hi hi')
    simp only [view] at h4
    rw [hfe] at h4
    have h5 : op < (getData T g C disk (C.next op) stop u index n).fidxs[j].isign := by
      by_cases hji : j = index
      · subst hji; omega
      · have h3 := List.pairwise_iff_getElem.1 hih.1.ok.ordered index j hi' hj (by omega)
        omega
    exact hinv.ok.reach _ _ hv (hih.1.ok.valid _ (List.getElem_mem hj)) h5
  | case4 op u index hc f hget hne hlt ih =>
    intro hinv hv hn
    have hi : index < u.fidxs.length := by omega
    have hfe : u.fidxs[index] = f := by
      have := List.getElem?_eq_getElem hi
      rw [hget] at this
      injection this with h; exact h.symm
    have hih := ih hinv hv hn
    refine ⟨hih.1, hih.2.1, ?_⟩
    intro j hj hij h1 h2
    by_cases hji : j = index
    · subst hji
      have h4 := congrArg Prod.fst (hih.2.1.view_eq hi hj)
      simp only [view] at h4
      rw [hfe] at h4
      omega
    · exact hih.2.2 j hj (by omega) h1 h2
  | case5 op u index hc =>
    intro hinv _ hn
    refine ⟨hinv, Grow.refl _, ?_⟩
    intro j hj hij h1 h2
    omega

/-- When everything in `[a, b]` is loaded, the records in memory and those stored agree on `[a, b]`. -/
theorem recordsIn_loaded {T : Table α} {C : Calendar} {V : Int → Prop} {disk : Int → Option (List α)} {u : Unit α}
    (hinv : LazyInv T C V disk u) (a b : Nat)
    (hall : ∀ f ∈ u.fidxs, T.sign a ≤ f.isign → f.isign ≤ T.sign b → f.start ≠ -1) :
    recordsIn T.ts u.recs a b = recordsIn T.ts (storedRecords disk u.fidxs) a b := by
  unfold recordsIn storedRecords
  rw [hinv.loaded, List.filter_flatMap, List.filter_flatMap]
  have : ∀ l : List Fidx, (∀ f ∈ l, f ∈ u.fidxs) →
      l.flatMap (fun x => (content disk x).filter fun r => decide (a ≤ T.ts r) && decide (T.ts r ≤ b)) =
      l.flatMap (fun x => (if x.moved then [] else (disk x.isign).getD []).filter fun r => decide (a ≤ T.ts r) && decide (T.ts r ≤ b)) := by
    intro l
    induction l with
    | nil => intro _; rfl
    | cons f l ih =>
      intro hm
      rw [List.flatMap_cons, List.flatMap_cons, ih fun x hx => hm x (by simp [hx])]
      congr 1
      unfold content
      by_cases hst : f.start = -1
      · rw [if_pos (.inl hst), hinv.fresh f (hm f (by simp)) hst]
        simp only [Bool.false_eq_true, if_false, List.filter_nil]
        symm
        rw [List.filter_eq_nil_iff]
        intro r hr
        cases hb : disk f.isign with
        | none => rw [hb] at hr; simp at hr
        | some blk =>
          rw [hb] at hr
          have hp := hinv.ok.period f (hm f (by simp)) blk hb r hr
          have hno := hall f (hm f (by simp))
          simp only [Bool.and_eq_true, decide_eq_true_eq, not_and]
          intro h1 h2
          by_cases h3 : T.sign a ≤ f.isign
          · by_cases h4 : f.isign ≤ T.sign b
            · exact hno h3 h4 hst
            · have := period_lt hinv.ok (a := b) (b := T.ts r) (by omega)
              omega
          · have := period_lt hinv.ok (a := T.ts r) (b := a) (by omega)
            omega
      · simp [hst]
  exact this u.fidxs fun _ h => h

theorem readData_range {T : Table α} (g : Goto) {C : Calendar} {V : Int → Prop} {disk : Int → Option (List α)} {u : Unit α}
    (hinv : LazyInv T C V disk u) (a b : Nat) (ha : 0 < a) (hb : 0 < b) :
    LazyInv T C V disk (readData T g C disk u a b) ∧ storedRecords disk (readData T g C disk u a b).fidxs = storedRecords disk u.fidxs ∧
    recordsIn T.ts (readData T g C disk u a b).recs a b = recordsIn T.ts (storedRecords disk u.fidxs) a b := by
  have e : readData T g C disk u a b = getData T g C disk (T.sign a) (T.sign b) u 0 u.fidxs.length := by
    unfold readData loadBounds
    rw [if_neg (by omega)]
    simp
  have h := getData_spec T g C V disk (T.sign a) (T.sign b) u 0 u.fidxs.length hinv (hinv.ok.validTs a) rfl
  rw [e]
  have h2 := stored_grow disk h.2.1
  refine ⟨h.1, h2, ?_⟩
  rw [← h2]
  apply recordsIn_loaded h.1
  intro f hf h3 h4
  obtain ⟨i, hi, he⟩ := List.getElem_of_mem hf
  have := h.2.2 i hi (Nat.zero_le _) (by rw [he]; exact h3) (by rw [he]; exact h4)
  rw [he] at this
  exact this

/-- The answers to a sequence of range queries. -/
def lazyAnswers (T : Table α) (g : Goto) (C : Calendar) (disk : Int → Option (List α)) : Unit α → List (Nat × Nat) → List (List α)
  | _, [] => []
  | u, (a, b) :: qs =>
    let r := lazyRead T g C disk u (.range a b false)
    r.1.2 :: lazyAnswers T g C disk r.2 qs

theorem lazyAnswers_spec {T : Table α} (g : Goto) {C : Calendar} {V : Int → Prop} {disk : Int → Option (List α)} (qs : List (Nat × Nat))
    (hq : ∀ q ∈ qs, 0 < q.1 ∧ 0 < q.2) : ∀ (u : Unit α), LazyInv T C V disk u →
    lazyAnswers T g C disk u qs = qs.map fun q => recordsIn T.ts (storedRecords disk u.fidxs) q.1 q.2 := by
  induction qs with
  | nil => intro _ _; rfl
  | cons q qs ih =>
    intro u hinv
    obtain ⟨a, b⟩ := q
    have hab := hq (a, b) (by simp)
    have h := readData_range g hinv a b hab.1 hab.2
    have hs : Sorted T.ts (readData T g C disk u a b).recs := by rw [h.1.loaded]; exact flat_sorted h.1.ok
    simp only [lazyAnswers, lazyRead, Query.bounds, List.map_cons]
    rw [C12_range_of_timestamps T g _ hs a b hab.2, ih (fun q hm => hq q (by simp [hm])) _ h.1, h.2.1]
    congr 1
    exact h.2.2

/-- C58 (partial). A series found on disk is loaded block by block as queries need it. Every sequence of range queries
between positive timestamps gives the answers it would give on the whole series. Missing: queries with an exact match,
with a position from the end, or with `stop` zero (violated below), and updates between the queries. -/
theorem C58_lazy_range_partial (T : Table α) (g : Goto) (C : Calendar) (Valid : Int → Prop) (disk : Int → Option (List α))
    (entries : List (Int × Bool)) (hd : DiskOk T C Valid disk (Unit.ofMap (α := α) entries).fidxs)
    (qs : List (Nat × Nat)) (hq : ∀ q ∈ qs, 0 < q.1 ∧ 0 < q.2) :
    lazyAnswers T g C disk (Unit.ofMap entries) qs =
    qs.map fun q => recordsIn T.ts (entries.flatMap fun e => if e.2 then (disk e.1).getD [] else []) q.1 q.2 := by
  have hinv : LazyInv T C Valid disk (Unit.ofMap (α := α) entries) := by
    refine ⟨hd, ?_, ?_⟩
    · unfold Loaded
      simp only [Unit.ofMap]
      symm
      rw [List.flatMap_map]
      apply List.flatMap_eq_nil_iff.2
      intro e _
      unfold content
      cases e.2 <;> simp
    · intro f hf hst
      simp only [Unit.ofMap, List.mem_map] at hf
      obtain ⟨e, _, rfl⟩ := hf
      cases h : e.2
      · simp [h] at hst
      · simp
  rw [lazyAnswers_spec g qs hq _ hinv]
  have : storedRecords disk (Unit.ofMap (α := α) entries).fidxs = entries.flatMap fun e => if e.2 then (disk e.1).getD [] else [] := by
    unfold storedRecords
    simp only [Unit.ofMap]
    rw [List.flatMap_map]
    congr 1
    funext e
    cases e.2 <;> simp
  rw [this]

/-- A calendar with periods of 100 time units. -/
def exCal : Calendar := ⟨(· + 1), fun p => 100 * p.toNat, by intro p; omega, false, 9⟩

def exDisk : Int → Option (List (Nat × Nat)) := fun p =>
  if p = 1 then some [(100, 1), (150, 2)] else if p = 2 then some [(205, 3)] else if p = 4 then some [(400, 4), (400, 5)] else none

def exEntries : List (Int × Bool) := [(1, true), (2, true), (3, false), (4, true)]

theorem exDiskOk : DiskOk exTable exCal (fun p => 0 ≤ p) exDisk (Unit.ofMap (α := Nat × Nat) exEntries).fidxs where
  ordered := by decide
  valid := by decide
  validTs := by intro t; simp [exTable]; omega
  step := by intro p h; simp [exCal]; omega
  reach := by intro p q _ _ h; simp [exCal]; omega
  mono := by intro a b h; simp only [exTable]; omega
  lower := by
    intro f hf b hb
    simp only [Unit.ofMap, exEntries, List.map_cons, List.map_nil, List.mem_cons, List.not_mem_nil, or_false] at hf
    rcases hf with rfl | rfl | rfl | rfl <;> simp [exDisk] at hb <;> subst hb <;> decide
  period := by
    intro f hf b hb
    simp only [Unit.ofMap, exEntries, List.map_cons, List.map_nil, List.mem_cons, List.not_mem_nil, or_false] at hf
    rcases hf with rfl | rfl | rfl | rfl <;> simp [exDisk] at hb <;> subst hb <;> decide
  sorted := by
    intro f hf b hb
    simp only [Unit.ofMap, exEntries, List.map_cons, List.map_nil, List.mem_cons, List.not_mem_nil, or_false] at hf
    rcases hf with rfl | rfl | rfl | rfl <;> simp [exDisk] at hb <;> subst hb <;> simp [Sorted, exTable]

example : lazyAnswers exTable .interp exCal exDisk (Unit.ofMap exEntries) [(390, 500), (120, 250), (1, 400)] =
    [[(400, 4), (400, 5)], [(150, 2), (205, 3)], [(100, 1), (150, 2), (205, 3), (400, 4), (400, 5)]] := by decide +kernel

/-- C58 (violated). An exact-match query on a series that is on disk finds nothing although the record is stored: its
timestamp is taken for a period, no block is loaded. The same record is found once a range query has loaded the block. -/
theorem C58_violated_where :
    (lazyRead exTable .interp exCal exDisk (Unit.ofMap exEntries) (.whereTs 205 0)).1.2 = [] ∧
    (tsdbRead exTable .interp ⟨(exEntries.flatMap fun e => if e.2 then (exDisk e.1).getD [] else []), [], 100, 400, 60⟩ (.whereTs 205 0)).2 =
      [(205, 3)] ∧
    (lazyRead exTable .interp exCal exDisk (readData exTable .interp exCal exDisk (Unit.ofMap exEntries) 200 300) (.whereTs 205 0)).1.2 =
      [(205, 3)] := by
  decide +kernel

/-- C58 (violated). With blocks per day the default query "the last record" answers with the last record of the first
day. -/
theorem C58_violated_last :
    (lazyRead exTable .interp exCal exDisk (Unit.ofMap exEntries) (.range (-1) 0 false)).1.2 = [(150, 2)] ∧
    (tsdbRead exTable .interp ⟨(exEntries.flatMap fun e => if e.2 then (exDisk e.1).getD [] else []), [], 100, 400, 60⟩ (.range (-1) 0 false)).2 =
      [(400, 4), (400, 5)] := by
  decide +kernel

end Sis.Fmap
