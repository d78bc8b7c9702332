import Verif.Merge.MergeSpec
/-
Lemmas for the merge of the records of many keys by time.
-/
namespace Sis.Mrg
open Sis.Time (Style Env convert)

theorem same_iff {a b : Bytes} : same a b = true ↔ alike a b := by simp [same, alike]

theorem alike_symm {a b : Bytes} (h : alike a b) : alike b a := Eq.symm h
theorem alike_trans {a b c : Bytes} (h : alike a b) (g : alike b c) : alike a c := Eq.trans h g
theorem alike_refl (a : Bytes) : alike a a := rfl

/-- The key of a queue. -/
def Fits (kn sn : Bytes) (u : Chan) : Prop := alike u.kn kn ∧ alike u.sn sn

instance (kn sn : Bytes) (u : Chan) : Decidable (Fits kn sn u) := inferInstanceAs (Decidable (_ ∧ _))

theorem fits_iff {kn sn : Bytes} {u : Chan} : (same u.kn kn && same u.sn sn) = true ↔ Fits kn sn u := by
  simp [Fits, same_iff]

/-- What waits for a key. -/
def pend : List Chan → Bytes → Bytes → List (Nat × Item)
  | [], _, _ => []
  | u :: us, kn, sn => if Fits kn sn u then u.q else pend us kn sn

/-- No two queues of one key. -/
def Uniq (us : List Chan) : Prop := us.Pairwise fun a b => ¬ Fits b.kn b.sn a

/-- All that waits. -/
def total (us : List Chan) : Nat := (us.map fun u => u.q.length).sum

theorem total_nil : total [] = 0 := rfl
theorem total_cons (u : Chan) (us : List Chan) : total (u :: us) = u.q.length + total us := by simp [total]
theorem total_append (a b : List Chan) : total (a ++ b) = total a + total b := by simp [total]

theorem total_set : ∀ {us : List Chan} {i : Nat} {u : Chan} (q : List (Nat × Item)), us[i]? = some u →
    total (us.set i { u with q := q }) + u.q.length = total us + q.length
  | w :: us, 0, u, q, h => by
    simp only [List.getElem?_cons_zero, Option.some.injEq] at h
    subst h
    simp only [List.set_cons_zero, total_cons]
    omega
  | w :: us, i + 1, u, q, h => by
    simp only [List.getElem?_cons_succ] at h
    have := total_set q h
    simp only [List.set_cons_succ, total_cons]
    omega

theorem pend_set {kn sn : Bytes} : ∀ {us : List Chan} {i : Nat} {u : Chan} (q : List (Nat × Item)), Uniq us → us[i]? = some u →
    pend (us.set i { u with q := q }) kn sn = if Fits kn sn u then q else pend us kn sn
  | w :: us, 0, u, q, _, h => by
    simp only [List.getElem?_cons_zero, Option.some.injEq] at h
    subst h
    simp only [List.set_cons_zero, pend]
    by_cases hf : Fits kn sn w
    · have : Fits kn sn { w with q := q } := hf
      rw [if_pos this, if_pos hf]
    · have : ¬ Fits kn sn { w with q := q } := hf
      rw [if_neg this, if_neg hf, if_neg hf]
  | w :: us, i + 1, u, q, hu, h => by
    simp only [List.getElem?_cons_succ] at h
    obtain ⟨h1, h2⟩ := List.pairwise_cons.1 hu
    simp only [List.set_cons_succ, pend, pend_set q h2 h]
    by_cases hw : Fits kn sn w
    · have : ¬ Fits kn sn u := fun hc =>
        h1 u (List.mem_of_getElem? h) ⟨alike_trans hw.1 (alike_symm hc.1), alike_trans hw.2 (alike_symm hc.2)⟩
      simp [hw, this]
    · simp [hw]

theorem pend_of {kn sn : Bytes} : ∀ {us : List Chan} {i : Nat} {u : Chan}, Uniq us → us[i]? = some u → Fits kn sn u →
    pend us kn sn = u.q
  | w :: us, 0, u, _, h, hf => by
    simp only [List.getElem?_cons_zero, Option.some.injEq] at h
    subst h
    simp [pend, hf]
  | w :: us, i + 1, u, hu, h, hf => by
    simp only [List.getElem?_cons_succ] at h
    obtain ⟨h1, h2⟩ := List.pairwise_cons.1 hu
    have : ¬ Fits kn sn w := fun hc =>
      h1 u (List.mem_of_getElem? h) ⟨alike_trans hc.1 (alike_symm hf.1), alike_trans hc.2 (alike_symm hf.2)⟩
    simp [pend, this, pend_of h2 h hf]

theorem uniq_set : ∀ {us : List Chan} {i : Nat} {u : Chan} (q : List (Nat × Item)), Uniq us → us[i]? = some u →
    Uniq (us.set i { u with q := q })
  | w :: us, 0, u, q, hu, h => by
    simp only [List.getElem?_cons_zero, Option.some.injEq] at h
    subst h
    obtain ⟨h1, h2⟩ := List.pairwise_cons.1 hu
    exact List.pairwise_cons.2 ⟨h1, h2⟩
  | w :: us, i + 1, u, q, hu, h => by
    simp only [List.getElem?_cons_succ] at h
    obtain ⟨h1, h2⟩ := List.pairwise_cons.1 hu
    refine List.pairwise_cons.2 ⟨fun x hx => ?_, uniq_set q h2 h⟩
    rcases List.mem_or_eq_of_mem_set hx with hx | rfl
    · exact h1 x hx
    · exact h1 u (List.mem_of_getElem? h)

theorem pend_append_none {kn sn : Bytes} : ∀ {us : List Chan} {w : Chan}, (∀ u ∈ us, ¬ Fits kn sn u) →
    pend (us ++ [w]) kn sn = if Fits kn sn w then w.q else []
  | [], w, _ => rfl
  | u :: us, w, h => by
    simp only [List.cons_append, pend, if_neg (h u List.mem_cons_self)]
    exact pend_append_none fun x hx => h x (List.mem_cons_of_mem _ hx)

theorem pend_append_q {kn sn : Bytes} : ∀ {us : List Chan} {w : Chan}, w.q = [] → pend (us ++ [w]) kn sn = pend us kn sn
  | [], w, h => by
    simp only [List.nil_append, pend, h]
    split <;> rfl
  | u :: us, w, h => by simp only [List.cons_append, pend, pend_append_q h]

theorem pend_total {us : List Chan} (h : total us = 0) (kn sn : Bytes) : pend us kn sn = [] := by
  induction us with
  | nil => rfl
  | cons u us ih =>
    rw [total_cons] at h
    simp only [pend]
    split
    · exact List.length_eq_zero_iff.1 (by omega)
    · exact ih (by omega)

theorem place_some {us : List Chan} {kn sn : Bytes} {i : Nat} (h : place us kn sn = some i) :
    ∃ u, us[i]? = some u ∧ Fits kn sn u := by
  obtain ⟨hi, h1, -⟩ := List.findIdx?_eq_some_iff_getElem.1 h
  exact ⟨us[i], List.getElem?_eq_getElem hi, fits_iff.1 h1⟩

theorem place_none {us : List Chan} {kn sn : Bytes} (h : place us kn sn = none) : ∀ u ∈ us, ¬ Fits kn sn u := by
  intro u hu hf
  have := List.findIdx?_eq_none_iff.1 h u hu
  rw [fits_iff.2 hf] at this
  cases this

theorem place_of {us : List Chan} {kn sn : Bytes} {u : Chan} (hu : u ∈ us) (hf : Fits kn sn u) :
    ∃ i, place us kn sn = some i := by
  cases h : place us kn sn with
  | none => exact absurd hf (place_none h u hu)
  | some i => exact ⟨i, rfl⟩

theorem wrap_of {n : Nat} (h : n < 2 ^ 32) : wrap (n : Int) = n := by
  unfold wrap
  omega

/-- What always holds of a merge. -/
structure COk (c : Cxt) : Prop where
  uniq : Uniq c.units
  tn : ∀ u ∈ c.units, alike u.tn u.sn
  tab : ∀ u ∈ c.units, ∃ t ∈ c.tabs, alike t.1 u.sn
  sums : c.newSums = total c.units

/-- A table is known. -/
def Known (c : Cxt) (sn : Bytes) : Prop := ∃ t ∈ c.tabs, alike t.1 sn

instance (c : Cxt) (sn : Bytes) : Decidable (Known c sn) := inferInstanceAs (Decidable (∃ t ∈ c.tabs, alike t.1 sn))

theorem mapM_map {α β : Type} {f : α → Option β} {g : β → α} (hg : ∀ a b, f a = some b → g b = a) :
    ∀ {xs : List α} {ys : List β}, xs.mapM f = some ys → ys.map g = xs
  | [], ys, h => by
    simp only [List.mapM_nil] at h
    cases h; rfl
  | x :: xs, ys, h => by
    rw [List.mapM_cons] at h
    cases hf : f x with
    | none => rw [hf] at h; cases h
    | some b =>
      cases hm : xs.mapM f with
      | none => rw [hf, hm] at h; cases h
      | some bs =>
        rw [hf, hm] at h
        cases h
        simp [hg _ _ hf, mapM_map hg hm]

theorem mapM_all {α β : Type} {f : α → Option β} : ∀ {xs : List α}, (∀ x ∈ xs, (f x).isSome) → (xs.mapM f).isSome
  | [], _ => rfl
  | x :: xs, h => by
    rw [List.mapM_cons]
    obtain ⟨b, hb⟩ := Option.isSome_iff_exists.1 (h x List.mem_cons_self)
    obtain ⟨bs, hbs⟩ := Option.isSome_iff_exists.1 (mapM_all fun y hy => h y (List.mem_cons_of_mem _ hy))
    rw [hb, hbs]; rfl

theorem mapM_mem {α β : Type} {f : α → Option β} : ∀ {xs : List α} {ys : List β}, xs.mapM f = some ys → ∀ y ∈ ys, ∃ x ∈ xs, f x = some y
  | [], ys, h => by
    simp only [List.mapM_nil] at h
    cases h; exact nofun
  | x :: xs, ys, h => by
    rw [List.mapM_cons] at h
    cases hf : f x with
    | none => rw [hf] at h; cases h
    | some b =>
      cases hm : xs.mapM f with
      | none => rw [hf, hm] at h; cases h
      | some bs =>
        rw [hf, hm] at h
        cases h
        intro y hy
        rcases List.mem_cons.1 hy with rfl | hy
        · exact ⟨x, List.mem_cons_self, hf⟩
        · obtain ⟨z, h1, h2⟩ := mapM_mem hm y hy
          exact ⟨z, List.mem_cons_of_mem _ h1, h2⟩

theorem setMsec_fields (c : Cxt) (t : Nat) : (setMsec c t).units = c.units ∧ (setMsec c t).newSums = c.newSums ∧
    (setMsec c t).tabs = c.tabs ∧ (setMsec c t).scale = c.scale ∧ (setMsec c t).status = c.status := by
  unfold setMsec
  split <;> exact ⟨rfl, rfl, rfl, rfl, rfl⟩

/-- What `put` makes. -/
theorem put_eq {v : Env} {c c' : Cxt} {i : Nat} {u : Chan} {xs : List Item} (h : put v c i u xs = some c') :
    ∃ ts, xs.mapM (fun x => (vtime v c.scale u.style x).map fun t => (t, x)) = some ts ∧ ts.map Prod.snd = xs ∧
      c'.units = c.units.set i { u with q := u.q ++ ts } ∧ c'.newSums = wrap (c.newSums + ts.length) ∧
      c'.tabs = c.tabs ∧ c'.scale = c.scale ∧ c'.status = c.status ∧
      (c'.newMsec = match u.q, ts with
        | [], t :: _ => if t.1 < c.newMsec ∨ c.newSums = 0 then t.1 else c.newMsec
        | _, _ => c.newMsec) := by
  unfold put at h
  rw [Option.map_eq_some_iff] at h
  obtain ⟨ts, hts, rfl⟩ := h
  refine ⟨ts, hts, mapM_map (g := Prod.snd) ?_ hts, ?_⟩
  · intro a b hab
    obtain ⟨t, -, rfl⟩ := Option.map_eq_some_iff.1 hab
    rfl
  · cases hq : u.q with
    | cons a l => exact ⟨rfl, rfl, rfl, rfl, rfl, rfl⟩
    | nil =>
      cases ts with
      | nil => exact ⟨rfl, rfl, rfl, rfl, rfl, rfl⟩
      | cons t ts =>
        obtain ⟨f1, f2, f3, f4, f5⟩ := setMsec_fields c t.1
        refine ⟨by simp only [f1], by simp only [f2], f3, f4, f5, ?_⟩
        simp only [setMsec]
        split <;> rfl

theorem put_ok {v : Env} {c c' : Cxt} {i : Nat} {u : Chan} {xs : List Item} (k : COk c) (hi : c.units[i]? = some u)
    (hb : total c.units + xs.length < 2 ^ 32) (h : put v c i u xs = some c') :
    COk c' ∧ total c'.units = total c.units + xs.length ∧ c'.units.length = c.units.length ∧
    ∀ kn sn, (pend c'.units kn sn).map Prod.snd = (pend c.units kn sn).map Prod.snd ++ (if Fits kn sn u then xs else []) := by
  obtain ⟨ts, -, h2, h3, h4, h5, h6, -⟩ := put_eq h
  have hl : ts.length = xs.length := by rw [← h2, List.length_map]
  have ht := total_set (u.q ++ ts) hi
  rw [← h3, List.length_append] at ht
  have hmem : ∀ w ∈ c'.units, ∃ w' ∈ c.units, w.kn = w'.kn ∧ w.sn = w'.sn ∧ w.tn = w'.tn := by
    intro w hw
    rw [h3] at hw
    rcases List.mem_or_eq_of_mem_set hw with hw | rfl
    · exact ⟨w, hw, rfl, rfl, rfl⟩
    · exact ⟨u, List.mem_of_getElem? hi, rfl, rfl, rfl⟩
  refine ⟨⟨by rw [h3]; exact uniq_set _ k.uniq hi, ?_, ?_, ?_⟩, by omega, by rw [h3, List.length_set], ?_⟩
  · intro w hw
    obtain ⟨w', g1, -, g2, g3⟩ := hmem w hw
    rw [g2, g3]; exact k.tn w' g1
  · intro w hw
    obtain ⟨w', g1, -, g2, -⟩ := hmem w hw
    rw [g2, h5]; exact k.tab w' g1
  · rw [h4, k.sums]
    have : ((total c.units : Int) + (ts.length : Int)) = ((total c.units + ts.length : Nat) : Int) := by omega
    rw [this, wrap_of (by omega)]
    omega
  · intro kn sn
    rw [h3, pend_set _ k.uniq hi]
    by_cases hf : Fits kn sn u
    · rw [if_pos hf, if_pos hf, pend_of k.uniq hi hf, List.map_append, h2]
    · rw [if_neg hf, if_neg hf, List.append_nil]

theorem find_tab {c : Cxt} {sn : Bytes} {t : Bytes × Option Style} (h : c.tabs.find? (fun t => same t.1 sn) = some t) :
    t ∈ c.tabs ∧ alike t.1 sn := ⟨List.mem_of_find?_eq_some h, by
    have := List.find?_some (p := fun t : Bytes × Option Style => same t.1 sn) h
    exact same_iff.1 this⟩

/-- The new queue of a key. -/
def fresh (kn sn : Bytes) (t : Bytes × Option Style) : Chan := { kn := kn, sn := sn, tn := t.1, style := t.2 }

theorem fresh_ok {c : Cxt} {kn sn : Bytes} {t : Bytes × Option Style} (k : COk c) (hp : place c.units kn sn = none)
    (ht : t ∈ c.tabs) (ha : alike t.1 sn) : COk { c with units := c.units ++ [fresh kn sn t] } := by
  have hn := place_none hp
  refine ⟨?_, ?_, ?_, ?_⟩
  · refine List.pairwise_append.2 ⟨k.uniq, List.pairwise_singleton _ _, ?_⟩
    intro a ha b hb
    simp only [List.mem_singleton] at hb
    subst hb
    exact hn a ha
  · intro u hu
    rcases List.mem_append.1 hu with hu | hu
    · exact k.tn u hu
    · simp only [List.mem_singleton] at hu; subst hu; exact ha
  · intro u hu
    rcases List.mem_append.1 hu with hu | hu
    · exact k.tab u hu
    · simp only [List.mem_singleton] at hu; subst hu; exact ⟨t, ht, ha⟩
  · simp only [total_append, total_cons, total_nil, k.sums]
    simp [fresh]

theorem push_ok {v : Env} {c c' : Cxt} {kn sn : Bytes} {xs : List Item} (k : COk c) (hb : total c.units + xs.length < 2 ^ 32)
    (h : push v c kn sn xs = some c') : COk c' ∧ c'.tabs = c.tabs ∧ c'.scale = c.scale ∧ c'.status = c.status ∧
    (total c'.units = total c.units + xs.length ∨ total c'.units = total c.units) ∧
    ∀ kn' sn', (pend c'.units kn' sn').map Prod.snd =
      (pend c.units kn' sn').map Prod.snd ++ (if alike kn kn' ∧ alike sn sn' ∧ Known c sn then xs else []) := by
  unfold push at h
  cases hp : place c.units kn sn with
  | some i =>
    rw [hp] at h
    obtain ⟨u, hu, hf⟩ := place_some hp
    simp only [hu, Option.bind_some] at h
    obtain ⟨g1, g2, g3, g4⟩ := put_ok k hu hb h
    obtain ⟨ts, -, -, -, -, e1, e2, e3, -⟩ := put_eq h
    refine ⟨g1, e1, e2, e3, Or.inl g2, ?_⟩
    intro kn' sn'
    rw [g4]
    have hk : Known c sn := by
      obtain ⟨t, ht, ha⟩ := k.tab u (List.mem_of_getElem? hu)
      exact ⟨t, ht, alike_trans ha hf.2⟩
    have : Fits kn' sn' u ↔ alike kn kn' ∧ alike sn sn' ∧ Known c sn := by
      constructor
      · intro hg
        exact ⟨alike_trans (alike_symm hf.1) hg.1, alike_trans (alike_symm hf.2) hg.2, hk⟩
      · rintro ⟨g1, g2, -⟩
        exact ⟨alike_trans hf.1 g1, alike_trans hf.2 g2⟩
    by_cases hg : Fits kn' sn' u
    · rw [if_pos hg, if_pos (this.1 hg)]
    · rw [if_neg hg, if_neg fun hc => hg (this.2 hc)]
  | none =>
    rw [hp] at h
    simp only at h
    split at h
    · cases h
    · cases ht : c.tabs.find? (fun t => same t.1 sn) with
      | none =>
        rw [ht] at h
        cases h
        refine ⟨k, rfl, rfl, rfl, Or.inr rfl, ?_⟩
        intro kn' sn'
        have : ¬ Known c sn := by
          rintro ⟨t, h1, h2⟩
          have := List.find?_eq_none.1 ht t h1
          exact this (same_iff.2 h2)
        rw [if_neg fun hc => this hc.2.2, List.append_nil]
      | some t =>
        rw [ht] at h
        obtain ⟨t1, t2⟩ := find_tab ht
        have hk' := fresh_ok k hp t1 t2
        have hi : (c.units ++ [fresh kn sn t])[c.units.length]? = some (fresh kn sn t) := by simp
        have htot : total (c.units ++ [fresh kn sn t]) = total c.units := by
          rw [total_append, total_cons, total_nil]; rfl
        obtain ⟨g1, g2, g3, g4⟩ := put_ok hk' hi (by rw [htot]; exact hb) h
        obtain ⟨ts, -, -, -, -, e1, e2, e3, -⟩ := put_eq h
        refine ⟨g1, e1, e2, e3, Or.inl (by rw [g2, htot]), ?_⟩
        intro kn' sn'
        rw [g4, pend_append_q rfl]
        have : Fits kn' sn' (fresh kn sn t) ↔ alike kn kn' ∧ alike sn sn' ∧ Known c sn :=
          ⟨fun hg => ⟨hg.1, hg.2, t, t1, t2⟩, fun hg => ⟨hg.1, hg.2.1⟩⟩
        by_cases hg : Fits kn' sn' (fresh kn sn t)
        · rw [if_pos hg, if_pos (this.1 hg)]
        · rw [if_neg hg, if_neg fun hc => hg (this.2 hc)]

theorem setTab_ok {c : Cxt} (k : COk c) (tn : Bytes) (st : Option Style) : COk (setTab c tn st) := by
  unfold setTab
  split
  · exact k
  · refine ⟨k.uniq, k.tn, ?_, k.sums⟩
    intro u hu
    obtain ⟨t, h1, h2⟩ := k.tab u hu
    exact ⟨t, List.mem_append_left _ h1, h2⟩

theorem total_map_nil (us : List Chan) : total (us.map fun u => { u with q := [] }) = 0 := by
  induction us with
  | nil => rfl
  | cons u us ih => simp only [List.map_cons, total_cons, ih]; rfl

theorem clear_ok {c : Cxt} (k : COk c) : COk (clear c) := by
  refine ⟨?_, ?_, ?_, ?_⟩
  · simp only [clear, Uniq]
    exact List.pairwise_map.2 k.uniq
  · intro u hu
    simp only [clear, List.mem_map] at hu
    obtain ⟨w, hw, rfl⟩ := hu
    exact k.tn w hw
  · intro u hu
    simp only [clear, List.mem_map] at hu
    obtain ⟨w, hw, rfl⟩ := hu
    exact k.tab w hw
  · simp only [clear, total_map_nil]

theorem ok_new : COk {} := ⟨List.Pairwise.nil, nofun, nofun, rfl⟩

/-! ### The rounds -/

theorem drain_append (curr : Nat) : ∀ q, (drain curr q).1 ++ (drain curr q).2 = q
  | [] => rfl
  | t :: ts => by
    unfold drain
    split
    · simp [drain_append curr ts]
    · rfl

theorem nextOf_some {kn sn : Bytes} : ∀ {ms r}, nextOf kn sn ms = some r →
    countLater ms = r.1.length + countLater r.2 ∧ (∃ m ∈ ms, m.2 = r.1 ∧ alike m.1.1 kn ∧ alike m.1.2 sn) ∧ (∀ m ∈ r.2, m ∈ ms) ∧
    ∀ kn' sn', later kn' sn' ms = (if alike kn kn' ∧ alike sn sn' then r.1 else []) ++ later kn' sn' r.2
  | [], r, h => by cases h
  | m :: ms, r, h => by
    unfold nextOf at h
    split at h
    · rename_i hm
      cases h
      have hm := Bool.and_eq_true_iff.1 hm
      have h1 := same_iff.1 hm.1
      have h2 := same_iff.1 hm.2
      refine ⟨by simp [countLater], ⟨m, List.mem_cons_self, rfl, h1, h2⟩, fun x hx => List.mem_cons_of_mem _ hx, ?_⟩
      intro kn' sn'
      by_cases hc : alike kn kn' ∧ alike sn sn'
      · have : alike m.1.1 kn' ∧ alike m.1.2 sn' := ⟨alike_trans h1 hc.1, alike_trans h2 hc.2⟩
        simp [later, this, hc]
      · have : ¬ (alike m.1.1 kn' ∧ alike m.1.2 sn') := fun hg =>
          hc ⟨alike_trans (alike_symm h1) hg.1, alike_trans (alike_symm h2) hg.2⟩
        rw [if_neg hc]
        simp [later, this]
    · rename_i hm
      cases hr : nextOf kn sn ms with
      | none => rw [hr] at h; cases h
      | some r0 =>
        rw [hr] at h
        cases h
        obtain ⟨g1, ⟨m0, g2, g2', g2''⟩, g3, g4⟩ := nextOf_some hr
        have hne : ¬ (alike m.1.1 kn ∧ alike m.1.2 sn) := by
          rintro ⟨a, b⟩
          exact hm (by simp [same_iff.2 a, same_iff.2 b])
        refine ⟨?_, ⟨m0, List.mem_cons_of_mem _ g2, g2', g2''⟩, ?_, ?_⟩
        · simp only [countLater, List.map_cons, List.sum_cons] at g1 ⊢
          omega
        · intro x hx
          rcases List.mem_cons.1 hx with rfl | hx
          · exact List.mem_cons_self
          · exact List.mem_cons_of_mem _ (g3 x hx)
        · intro kn' sn'
          have e := g4 kn' sn'
          by_cases hc : alike m.1.1 kn' ∧ alike m.1.2 sn'
          · have hz : ¬ (alike kn kn' ∧ alike sn sn') := fun hg =>
              hne ⟨alike_trans hc.1 (alike_symm hg.1), alike_trans hc.2 (alike_symm hg.2)⟩
            rw [if_neg hz] at e ⊢
            simp only [later, List.nil_append] at e
            have hd : decide (alike m.1.1 kn' ∧ alike m.1.2 sn') = true := decide_eq_true hc
            simp only [later, List.filter_cons, hd, if_true, List.flatMap_cons, List.nil_append, e]
          · have l1 : later kn' sn' (m :: ms) = later kn' sn' ms := by simp [later, hc]
            have l2 : later kn' sn' (m :: r0.2) = later kn' sn' r0.2 := by simp [later, hc]
            rw [l1, l2, e]

theorem nextOf_none {kn sn : Bytes} : ∀ {ms}, nextOf kn sn ms = none → ∀ m ∈ ms, ¬ (alike m.1.1 kn ∧ alike m.1.2 sn)
  | [], _ => nofun
  | m :: ms, h => by
    unfold nextOf at h
    split at h
    · cases h
    · rename_i hm
      rw [Option.map_eq_none_iff] at h
      intro x hx
      rcases List.mem_cons.1 hx with rfl | hx
      · rintro ⟨a, b⟩
        exact hm (by simp [same_iff.2 a, same_iff.2 b])
      · exact nextOf_none h x hx

theorem records_append (a b : List Out) : records (a ++ b) = records a ++ records b := by
  induction a with
  | nil => rfl
  | cons o a ih => cases o <;> simp [records, ih]

theorem records_map (kn sn : Bytes) (ts : List (Nat × Item)) :
    records (ts.map fun t => .record kn sn t.2) = ts.map fun t => ((kn, sn), t.2) := by
  induction ts with
  | nil => rfl
  | cons t ts ih => simp [records, ih]

theorem of_append (kn sn : Bytes) (a b : List Out) : of kn sn (a ++ b) = of kn sn a ++ of kn sn b := by
  simp [of, records_append]

theorem of_map (kn sn kn' sn' : Bytes) (ts : List (Nat × Item)) :
    of kn sn (ts.map fun t => .record kn' sn' t.2) = if alike kn' kn ∧ alike sn' sn then ts.map Prod.snd else [] := by
  unfold of
  rw [records_map]
  by_cases h : alike kn' kn ∧ alike sn' sn
  · rw [if_pos h, List.filter_eq_self.2]
    · simp
    · intro a ha
      simp only [List.mem_map] at ha
      obtain ⟨t, -, rfl⟩ := ha
      simp [h]
  · rw [if_neg h, List.filter_eq_nil_iff.2]
    · rfl
    · intro a ha
      simp only [List.mem_map] at ha
      obtain ⟨t, -, rfl⟩ := ha
      simp [h]

/-- What holds while the merge is at work. -/
structure SOk (v : Env) (s : St) : Prop where
  c : COk s.c
  bound : total s.c.units + countLater s.more < 2 ^ 32
  conv : ∀ m ∈ s.more, ∀ x ∈ m.2, ∀ u ∈ s.c.units, (vtime v s.c.scale u.style x).isSome
  live : ∀ m ∈ s.more, m.2 ≠ [] ∧ pend s.c.units m.1.1 m.1.2 ≠ []

/-- The records of a key: told, waiting, and to come. -/
def strm (s : St) (kn sn : Bytes) : List Item :=
  of kn sn s.out ++ (pend s.c.units kn sn).map Prod.snd ++ later kn sn s.more

/-- How much is left. -/
def lft (s : St) : Nat := total s.c.units + countLater s.more

/-- The state after a round for one key, before the client is told of its end. -/
def after (s : St) (i : Nat) (u : Chan) (r : List (Nat × Item) × List (Nat × Item)) : St :=
  { s with
    c := { s.c with units := s.c.units.set i { u with q := r.2 }, newSums := wrap ((s.c.newSums : Int) - r.1.length) }
    out := s.out ++ r.1.map fun t => .record u.kn u.tn t.2 }

theorem turn_eq (v : Env) (curr : Nat) (s : St) (next : Option Nat) (i : Nat) {u : Chan} (h : s.c.units[i]? = some u) :
    turn v curr (s, next) i = if u.q ≠ [] ∧ (drain curr u.q).2 = [] then
      (react v { after s i u (drain curr u.q) with out := (after s i u (drain curr u.q)).out ++ [.keyStop u.kn u.tn] } u.kn u.tn).map
        fun s => (s, least next (drain curr u.q).2)
    else some (after s i u (drain curr u.q), least next (drain curr u.q).2) := by
  unfold turn
  simp only [h, Option.bind_some]
  rfl

theorem after_ok {s : St} {i : Nat} {u : Chan} {r : List (Nat × Item) × List (Nat × Item)} (k : COk s.c)
    (hb : total s.c.units < 2 ^ 32) (h : s.c.units[i]? = some u) (hr : r.1 ++ r.2 = u.q) :
    COk (after s i u r).c ∧ total (after s i u r).c.units + r.1.length = total s.c.units ∧
    ∀ kn sn, of kn sn (after s i u r).out ++ (pend (after s i u r).c.units kn sn).map Prod.snd =
      of kn sn s.out ++ (pend s.c.units kn sn).map Prod.snd := by
  have ht := total_set r.2 h
  have hl : r.1.length + r.2.length = u.q.length := by rw [← hr, List.length_append]
  have hmem : ∀ w ∈ (s.c.units.set i { u with q := r.2 }), ∃ w' ∈ s.c.units, w.kn = w'.kn ∧ w.sn = w'.sn ∧ w.tn = w'.tn := by
    intro w hw
    rcases List.mem_or_eq_of_mem_set hw with hw | rfl
    · exact ⟨w, hw, rfl, rfl, rfl⟩
    · exact ⟨u, List.mem_of_getElem? h, rfl, rfl, rfl⟩
  refine ⟨⟨uniq_set _ k.uniq h, ?_, ?_, ?_⟩, ?_, ?_⟩
  · intro w hw
    obtain ⟨w', g1, -, g2, g3⟩ := hmem w hw
    rw [g2, g3]; exact k.tn w' g1
  · intro w hw
    obtain ⟨w', g1, -, g2, -⟩ := hmem w hw
    rw [g2]; exact k.tab w' g1
  · simp only [after, k.sums]
    have : ((total s.c.units : Int) - (r.1.length : Int)) = ((total s.c.units - r.1.length : Nat) : Int) := by omega
    rw [this, wrap_of (by omega)]
    omega
  · simp only [after]
    omega
  · intro kn sn
    simp only [after, of_append, of_map]
    rw [pend_set _ k.uniq h]
    have hf : Fits kn sn u ↔ alike u.kn kn ∧ alike u.tn sn := by
      have := k.tn u (List.mem_of_getElem? h)
      exact ⟨fun g => ⟨g.1, alike_trans this g.2⟩, fun g => ⟨g.1, alike_trans (alike_symm this) g.2⟩⟩
    by_cases hg : Fits kn sn u
    · rw [if_pos hg, if_pos (hf.1 hg), pend_of k.uniq h hg, ← hr]
      simp
    · rw [if_neg hg, if_neg fun hc => hg (hf.2 hc)]
      simp

theorem turn_ok {v : Env} {s : St} (k : SOk v s) (curr : Nat) (next : Option Nat) {i : Nat} {u : Chan} (h : s.c.units[i]? = some u) :
    ∃ s', turn v curr (s, next) i = some (s', least next (drain curr u.q).2) ∧ SOk v s' ∧
      s'.c.units.length = s.c.units.length ∧ lft s' + (drain curr u.q).1.length = lft s ∧
      (∀ kn sn, strm s' kn sn = strm s kn sn) ∧ s'.c.status = s.c.status := by
  have hr := drain_append curr u.q
  obtain ⟨a1, a2, a3⟩ := after_ok k.c (by have := k.bound; omega) h hr
  rw [turn_eq v curr s next i h]
  by_cases hc : u.q ≠ [] ∧ (drain curr u.q).2 = []
  · rw [if_pos hc]
    generalize hsa : after s i u (drain curr u.q) = sa at a1 a2 a3 ⊢
    have hmore : sa.more = s.more := by rw [← hsa]; rfl
    have hlen : sa.c.units.length = s.c.units.length := by rw [← hsa]; simp [after]
    have hst : sa.c.status = s.c.status := by rw [← hsa]; rfl
    have hsty : sa.c.scale = s.c.scale ∧ ∀ w ∈ sa.c.units, ∃ w' ∈ s.c.units, w.style = w'.style := by
      rw [← hsa]
      refine ⟨rfl, fun w hw => ?_⟩
      simp only [after] at hw
      rcases List.mem_or_eq_of_mem_set hw with hw | rfl
      · exact ⟨w, hw, rfl⟩
      · exact ⟨u, List.mem_of_getElem? h, rfl⟩
    have hcv : ∀ m ∈ s.more, ∀ x ∈ m.2, ∀ w ∈ sa.c.units, (vtime v sa.c.scale w.style x).isSome := by
      intro m hm x hx w hw
      obtain ⟨w', h1, h2⟩ := hsty.2 w hw
      rw [hsty.1, h2]
      exact k.conv m hm x hx w' h1
    have hpend : ∀ kn sn, pend sa.c.units kn sn = if Fits kn sn u then [] else pend s.c.units kn sn := by
      intro kn sn
      rw [← hsa]
      simp only [after]
      rw [pend_set _ k.c.uniq h, hc.2]
    have hko : ∀ kn sn, of kn sn (sa.out ++ [.keyStop u.kn u.tn]) = of kn sn sa.out := by
      intro kn sn
      rw [of_append]
      simp [of, records]
    have hfit : Fits u.kn u.tn u := ⟨rfl, alike_symm (k.c.tn u (List.mem_of_getElem? h))⟩
    unfold react
    cases hn : nextOf u.kn u.tn sa.more with
    | none =>
      simp only [hn, Option.map_some]
      refine ⟨_, rfl, ⟨a1, ?_, ?_, ?_⟩, hlen, ?_, ?_, hst⟩
      · simp only [hmore]; have := k.bound; omega
      · simp only [hmore]; exact hcv
      · simp only
        intro m hm
        have hm' := hm
        rw [hmore] at hm'
        refine ⟨(k.live m hm').1, ?_⟩
        rw [hpend, if_neg]
        · exact (k.live m hm').2
        · intro hf
          exact nextOf_none hn m hm ⟨alike_symm hf.1, alike_trans (alike_symm hf.2) hfit.2⟩
      · simp only [lft, hmore]; omega
      · intro kn sn
        simp only [strm, hko, hmore]
        rw [a3]
    | some r =>
      simp only [hn]
      obtain ⟨n1, ⟨m0, n2, n3, n4, n5⟩, n6, n7⟩ := nextOf_some hn
      rw [hmore] at n1 n2 n6 n7
      have hu' : ∃ w ∈ sa.c.units, Fits u.kn u.tn w := by
        refine ⟨{ u with q := (drain curr u.q).2 }, ?_, hfit⟩
        rw [← hsa]
        simp only [after]
        exact List.mem_of_getElem? (i := i) (by simp [(List.getElem?_eq_some_iff.1 h).1])
      obtain ⟨w, hw, hwf⟩ := hu'
      obtain ⟨j, hj⟩ := place_of hw hwf
      obtain ⟨w', hw', hwf'⟩ := place_some hj
      have hconv : ∀ x ∈ r.1, ((vtime v sa.c.scale w'.style x).map fun t => (t, x)).isSome := by
        intro x hx
        rw [Option.isSome_map]
        exact hcv m0 n2 x (n3 ▸ hx) w' (List.mem_of_getElem? hw')
      have hput : (push v sa.c u.kn u.tn r.1).isSome := by
        unfold push
        rw [hj]
        simp only [hw', Option.bind_some]
        unfold put
        rw [Option.isSome_map]
        exact mapM_all hconv
      obtain ⟨c', hc'⟩ := Option.isSome_iff_exists.1 hput
      simp only [hc', Option.map_some]
      have hbd := k.bound
      obtain ⟨p1, p2, p3, p4, p5, p6⟩ := push_ok a1 (by omega) hc'
      have hkn : Known sa.c u.tn := by
        obtain ⟨t, t1, t2⟩ := a1.tab w hw
        exact ⟨t, t1, alike_trans t2 hwf.2⟩
      have hplen : total c'.units = total sa.c.units + r.1.length ∧ c'.units.length = sa.c.units.length := by
        have hc2 := hc'
        unfold push at hc2
        rw [hj] at hc2
        simp only [hw', Option.bind_some] at hc2
        obtain ⟨-, g2, g3, -⟩ := put_ok a1 hw' (by omega) hc2
        exact ⟨g2, g3⟩
      refine ⟨_, rfl, ⟨p1, ?_, ?_, ?_⟩, ?_, ?_, ?_, ?_⟩
      · simp only; omega
      · simp only
        intro m hm x hx w2 hw2
        rw [p3]
        have hc2 := hc'
        unfold push at hc2
        rw [hj] at hc2
        simp only [hw', Option.bind_some] at hc2
        obtain ⟨ts, -, -, g3, -⟩ := put_eq hc2
        rw [g3] at hw2
        rcases List.mem_or_eq_of_mem_set hw2 with hw2 | rfl
        · exact hcv m (n6 m hm) x hx w2 hw2
        · exact hcv m (n6 m hm) x hx w' (List.mem_of_getElem? hw')
      · simp only
        intro m hm
        have hm' := n6 m hm
        refine ⟨(k.live m hm').1, ?_⟩
        intro hnil
        have := p6 m.1.1 m.1.2
        rw [hnil] at this
        have := (List.append_eq_nil_iff.1 this.symm)
        by_cases hf : Fits m.1.1 m.1.2 u
        · have hcond : alike u.kn m.1.1 ∧ alike u.tn m.1.2 ∧ Known sa.c u.tn :=
            ⟨hf.1, alike_trans (k.c.tn u (List.mem_of_getElem? h)) hf.2, hkn⟩
          rw [if_pos hcond] at this
          exact (k.live m0 n2).1 (n3.trans this.2)
        · have := this.1
          rw [hpend, if_neg hf] at this
          exact (k.live m hm').2 (List.map_eq_nil_iff.1 this)
      · simp only; omega
      · simp only [lft]; omega
      · intro kn sn
        simp only [strm, hko, p6, n7]
        rw [← List.append_assoc, a3]
        by_cases hz : alike u.kn kn ∧ alike u.tn sn
        · rw [if_pos ⟨hz.1, hz.2, hkn⟩, if_pos hz]
          simp
        · rw [if_neg fun hc => hz ⟨hc.1, hc.2.1⟩, if_neg hz]
          simp
      · simp only [p4]; exact hst
  · rw [if_neg hc]
    generalize hsa : after s i u (drain curr u.q) = sa at a1 a2 a3 ⊢
    have hmore : sa.more = s.more := by rw [← hsa]; rfl
    have hlen : sa.c.units.length = s.c.units.length := by rw [← hsa]; simp [after]
    have hst : sa.c.status = s.c.status := by rw [← hsa]; rfl
    have hsty : sa.c.scale = s.c.scale ∧ ∀ w ∈ sa.c.units, ∃ w' ∈ s.c.units, w.style = w'.style := by
      rw [← hsa]
      refine ⟨rfl, fun w hw => ?_⟩
      simp only [after] at hw
      rcases List.mem_or_eq_of_mem_set hw with hw | rfl
      · exact ⟨w, hw, rfl⟩
      · exact ⟨u, List.mem_of_getElem? h, rfl⟩
    have hcv : ∀ m ∈ s.more, ∀ x ∈ m.2, ∀ w ∈ sa.c.units, (vtime v sa.c.scale w.style x).isSome := by
      intro m hm x hx w hw
      obtain ⟨w', h1, h2⟩ := hsty.2 w hw
      rw [hsty.1, h2]
      exact k.conv m hm x hx w' h1
    refine ⟨_, rfl, ⟨a1, ?_, ?_, ?_⟩, hlen, ?_, ?_, hst⟩
    · rw [hmore]; have := k.bound; omega
    · rw [hmore]; exact hcv
    · intro m hm
      rw [hmore] at hm
      refine ⟨(k.live m hm).1, ?_⟩
      rw [← hsa]
      simp only [after]
      rw [pend_set _ k.c.uniq h]
      split
      · rename_i hf
        have h2 := (k.live m hm).2
        rw [pend_of k.c.uniq h hf] at h2
        exact fun hz => hc ⟨h2, hz⟩
      · exact (k.live m hm).2
    · simp only [lft, hmore]; omega
    · intro kn sn
      simp only [strm, hmore]
      rw [a3]

theorem turns_ok {v : Env} (curr : Nat) : ∀ (is : List Nat) {s : St} (next : Option Nat), SOk v s → (∀ i ∈ is, i < s.c.units.length) →
    ∃ s' n', is.foldlM (turn v curr) (s, next) = some (s', n') ∧ SOk v s' ∧ lft s' ≤ lft s ∧
      (∀ kn sn, strm s' kn sn = strm s kn sn) ∧ s'.c.status = s.c.status ∧
      ((∃ i ∈ is, ∃ u, s.c.units[i]? = some u ∧ (drain curr u.q).1 ≠ []) → lft s' < lft s)
  | [], s, next, k, _ => ⟨s, next, rfl, k, Nat.le_refl _, fun _ _ => rfl, rfl, nofun⟩
  | i :: is, s, next, k, h => by
    have hi := List.getElem?_eq_getElem (h i List.mem_cons_self)
    generalize s.c.units[i]'(h i List.mem_cons_self) = u at hi
    obtain ⟨s1, e1, k1, l1, f1, st1, x1⟩ := turn_ok k curr next hi
    obtain ⟨s2, n2, e2, k2, f2, st2, x2, pr2⟩ := turns_ok curr is (least next (drain curr u.q).2) k1 (fun j hj => by
      rw [l1]; exact h j (List.mem_cons_of_mem _ hj))
    refine ⟨s2, n2, ?_, k2, by omega, fun kn sn => (st2 kn sn).trans (st1 kn sn), x2.trans x1, ?_⟩
    · rw [List.foldlM_cons, e1]; exact e2
    · rintro ⟨j, hj, w, hw, hd⟩
      by_cases hu : (drain curr u.q).1 = []
      · rcases List.mem_cons.1 hj with rfl | hj
        · rw [hi] at hw
          cases hw
          exact absurd hu hd
        · -- nothing was published: the other queues are as before
          have heq : s1.c.units = s.c.units := by
            rw [turn_eq v curr s next i hi] at e1
            have hq : (drain curr u.q).2 = u.q := by
              have := drain_append curr u.q
              rw [hu, List.nil_append] at this
              exact this
            rw [hq, if_neg (fun hc => hc.1 hc.2)] at e1
            cases e1
            simp only [after, hq]
            obtain ⟨hlt, rfl⟩ := List.getElem?_eq_some_iff.1 hi
            exact List.set_getElem_self hlt
          have := pr2 ⟨j, hj, w, by rw [heq]; exact hw, hd⟩
          omega
      · have : 0 < (drain curr u.q).1.length := List.length_pos_iff.2 hu
        omega

end Sis.Mrg
