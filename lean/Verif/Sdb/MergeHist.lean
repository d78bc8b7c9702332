import Verif.Sdb.MergeLemmas
/- The files of a database whose years are merged hold the content they should have. -/
namespace Sis.Sdb
open Sis Sis.Disk
open Sis.Dyn (sameN getN setN Db sameN_iff sameN_refl getN_none getN_some setN_spec getN_congr)

theorem openUnit_body {lib : Lib} {k : Kind} {f : Bytes × Bytes} {c : Ctl} (h : openUnit lib k f = some c) : c.body = f.1 := by
  obtain ⟨r, _, rfl⟩ := Option.map_eq_some_iff.1 h
  rfl

/-- No key has an empty list of blocks. -/
def Filled (a : Abs) : Prop := ∀ k s u l, a.rows k s u = some l → l ≠ []

theorem filled_act {v : Time.Env} {a : Abs} (h : Filled a) (x : Act) : Filled (a.act v x) := by
  cases x with
  | keys ks => exact h
  | tabs ts => exact h
  | one k d => exact h
  | mul k l => exact h
  | rows k s d =>
    intro k' s' u l hl
    simp only [Abs.act] at hl
    split at hl
    · exact h k' s' u l hl
    · simp only at hl
      split at hl
      · split at hl
        · split at hl
          · cases hl; simp
          · exact h k' s' u l hl
        · unfold addRecords at hl
          simp only at hl
          split at hl
          · cases hl; simp [addBlock]
          · exact h k' s' u l hl
      · exact h k' s' u l hl

theorem filled_acts {v : Time.Env} (as : List Act) : ∀ {a : Abs}, Filled a → Filled (a.acts v as) := by
  induction as with
  | nil => intro a h; exact h
  | cons x as ih => intro a h; exact ih (filled_act h x)

theorem filled_merge {a : Abs} (h : Filled a) (y : Nat) : Filled (a.merge y) := by
  intro k s u l hl
  simp only [Abs.merge] at hl
  split at hl
  · obtain ⟨l', h1, rfl⟩ := Option.map_eq_some_iff.1 hl
    have := h k s u l' h1
    unfold asOne
    cases hg : l'.getLast? with
    | none => rw [List.getLast?_eq_none_iff] at hg; exact absurd hg this
    | some z => simp
  · exact h k s u l hl

theorem blocksOf_eq (idx : Idx) (n : Bytes) : blocksOf idx n = dictUnits idx n := by
  unfold blocksOf dictUnits getN
  rw [Option.map_map]
  rfl

/-- The merge of a year on a disk with some content. -/
theorem merge_run {lib : Lib} {P : Db → Prop} (L : ZipOk lib) {d : Disk} {m : Ctl} {S : Store} {a : Abs} (h : DiskOk lib P d m S) (r : Rel P a S m) (hs : DiskSmall d) (hf : Filled a)
    {y : Nat} (one : OneDict lib d y) {f : Bytes × Bytes} (hu : d.unit (.year y) = some f) :
    ∃ c t, openUnit lib .year f = some c ∧ (∀ n, IsData n → view lib c n = S (.year y) n) ∧ c.idx.foldlM (mergeNode lib c) { kind := .year } = some t ∧
      (data c.idx ≠ [] → lib.trace = false → ∃ g, closeUnit lib t = some g) ∧ (t.body.length < 2 ^ 32 → UOk lib P (.year y) { t with kd := c.kd, sd := c.sd } ∧
        ∀ n, IsData n → view lib { t with kd := c.kd, sd := c.sd } n = (S (.year y) n).map oneV) := by
  obtain ⟨hsane, c, h1, h2, h3⟩ := h.files.disk _ f hu
  have h3 := h3 (by simp)
  obtain ⟨o1, o2⟩ := one f c hu h1
  rw [blocksOf_eq, show "_keys_".toUTF8.toList = signKeys by decide +kernel] at o1
  rw [blocksOf_eq, show "_sdbs_".toUTF8.toList = signTabs by decide +kernel] at o2
  have hdat : ∀ e ∈ data c.idx, ∃ l, l ≠ [] ∧ ReadsAs lib c.body e.2.units l := by
    intro e he
    obtain ⟨k, s, hn⟩ := h2.inv.nodes e he
    have hsn := h2.inv.tabbed (by rw [h2.kind]; exact kind_nots (by simp)) e he
    rw [hn.sname] at hsn
    cases s with
    | none => exact absurd rfl hsn
    | some s =>
      have hv := h3 e.1 (by rw [hn.name]; exact isData_node k s)
      unfold view at hv
      rw [getN_mem h2.inv.diff (List.mem_filter.1 he).1 (sameN_refl _), hn.name, r.rows k s _ (h2.inv.knames k hn.key).dot] at hv
      cases ha : a.rows (fold k) (fold s) (.year y) with
      | none => rw [ha] at hv; cases hv
      | some l =>
        rw [ha] at hv
        exact ⟨l, hf _ _ _ _ ha, Option.some.inj hv⟩
  obtain ⟨t, t1, t2, t3⟩ := merged L h2 (by simp) (by rw [openUnit_body h1]; exact (hs.units _ f hu).1) hdat o1 o2
  refine ⟨c, t, h1, h3, t1, t2, fun hz => ?_⟩
  obtain ⟨z1, z2⟩ := t3 hz
  exact ⟨z1, fun n hn => by rw [z2 n hn, h3 n hn]⟩

def mergeS (S : Store) (y : Nat) : Store := fun u n => if u = .year y then (S u n).map oneV else S u n

theorem merge_unit {lib : Lib} {d d' : Disk} {y : Nat} (h : mergeYear lib d y = some d') :
    ∃ f g, d.unit (.year y) = some f ∧ mergeFile lib f = some g ∧ d'.main = d.main ∧ ∀ u, d'.unit u = if u = .year y then some g else d.unit u := by
  unfold mergeYear at h
  obtain ⟨f, h1, h⟩ := Option.bind_eq_some_iff.1 h
  obtain ⟨g, h2, rfl⟩ := Option.map_eq_some_iff.1 h
  refine ⟨f, g, h1, h2, rfl, fun u => ?_⟩
  rw [disk_unit_find, find_filter]
  split
  · rfl
  · rfl

theorem merge_ok {lib : Lib} {P : Db → Prop} (ht : lib.trace = false) (L : ZipOk lib) {d d' : Disk} {m : Ctl} {S : Store} {a : Abs} (h : DiskOk lib P d m S) (r : Rel P a S m) (hs : DiskSmall d) (hf : Filled a)
    {y : Nat} (one : OneDict lib d y) (hr : mergeYear lib d y = some d') (hs' : DiskSmall d') : DiskOk lib P d' m (mergeS S y) ∧ Rel P (a.merge y) (mergeS S y) m := by
  obtain ⟨f, g, u1, u2, u3, u4⟩ := merge_unit hr
  obtain ⟨c, t, c1, _, c2, _, c3⟩ := merge_run L h r hs hf one u1
  unfold mergeFile at u2
  rw [c1, Option.bind_some, c2, Option.bind_some] at u2
  have hg := hs'.units (.year y) g (by rw [u4, if_pos rfl])
  rw [close_body u2] at hg
  obtain ⟨z1, z2⟩ := c3 hg.1
  have u2' : closeUnit lib { t with kd := c.kd, sd := c.sd } = some g := u2
  obtain ⟨c', b1, b2, b3, b4, b5, b6, b7, b8, b9, b10⟩ := unit_back ht z1.inv z1.newk z1.news u2' hg.2
  have hk : t.kind = .year := z1.kind
  refine ⟨⟨h.main, by rw [u3]; exact h.body, ⟨by simp, by simp, ?_, ?_⟩⟩, ?_⟩
  · intro u x hx
    rw [u4] at hx
    by_cases hy : u = .year y
    · subst hy
      rw [if_pos rfl] at hx
      cases hx
      refine ⟨(h.files.disk _ f u1).1, c', ?_, ⟨⟨b2, ?_, ?_, ?_, ?_, ?_⟩, b3, b4⟩, fun _ n hn => ?_⟩
      · show openUnit lib .year g = some c'
        rw [← hk]; exact b1
      · exact b5.kind.trans z1.kind
      · rw [b7]; exact z1.pdbs
      · intro hn; cases hn
      · rw [b6, b8, b3]
        have := z1.kc
        rw [z1.newk] at this
        exact this
      · rw [b7, b8, b4]
        have := z1.sc
        rw [z1.news] at this
        exact this
      · unfold mergeS
        rw [if_pos rfl, ← z2 n hn]
        exact b5.view n hn
    · rw [if_neg hy] at hx
      obtain ⟨g1, c', g2, g3, g4⟩ := h.files.disk u x hx
      refine ⟨g1, c', g2, g3, fun _ n hn => ?_⟩
      unfold mergeS
      rw [if_neg hy]
      exact g4 (by simp) n hn
  · intro u hu _ n hn
    rw [u4] at hu
    by_cases hy : u = .year y
    · rw [if_pos hy] at hu; cases hu
    · rw [if_neg hy] at hu
      unfold mergeS
      rw [if_neg hy]
      exact h.files.none u hu (by simp) n hn
  · refine ⟨r.keys, ?_, ?_, ?_, r.undef, r.defs, r.ones, r.marks, r.was, r.known, r.dated, r.apart⟩
    · intro k hk
      unfold mergeS
      rw [if_neg (by simp)]
      exact r.vals k hk
    · intro k s u hk
      unfold mergeS
      by_cases hy : u = .year y
      · subst hy
        simp only [Abs.merge, if_true]
        rw [r.rows k s _ hk, Option.map_map, Option.map_map]
        congr 1
        funext l
        exact oneV_rows y l
      · simp only [Abs.merge, if_neg hy]
        exact r.rows k s u hk
    · intro k s u l hu hl
      simp only [Abs.merge] at hl
      split at hl
      · obtain ⟨l', h1, rfl⟩ := Option.map_eq_some_iff.1 hl
        intro b hb
        unfold asOne at hb
        cases hg : l'.getLast? with
        | none => rw [hg] at hb; cases hb
        | some z =>
          rw [hg, List.mem_singleton] at hb
          subst hb
          exact r.times k s u l' hu h1 z (List.mem_of_getLast? hg)
      · exact r.times k s u l hu hl

theorem mhist_rel {lib : Lib} {P : Db → Prop} {v : Time.Env} (ht : lib.trace = false) (L : Restores lib) (T : Readable lib P) (K : Tables P) {d : Disk} {a : Abs}
    (h : MHist lib v P d a) : (∃ m S, DiskOk lib P d m S ∧ Rel P a S m) ∧ DiskSmall d ∧ Filled a := by
  induction h with
  | new => exact ⟨⟨_, _, disk_new lib P, rel_new P⟩, ⟨by simp, by intro u f h; cases h⟩, by intro k s u l h; cases h⟩
  | session h s ih =>
    rename_i as _
    obtain ⟨hok, hr, hd⟩ := s
    obtain ⟨⟨m, S, h1, h2⟩, _, h4⟩ := ih
    obtain ⟨o1, o2, o3⟩ := open_good h1
    unfold session at hr
    rw [o1, Option.bind_some] at hr
    obtain ⟨w', c1, c2⟩ := Option.bind_eq_some_iff.1 hr
    obtain ⟨k1, _⟩ := cmds_grow _ o3 c1
    have hds : DiskSmall _ := ⟨hd.main, hd.units⟩
    obtain ⟨S', s1, s2⟩ := acts_rel L T K as o2 o3 h2 hok c1 (close_small k1 c2 hds)
    exact ⟨⟨_, S', close_good ht s1 c2 hds, s2⟩, hds, filled_acts as h4⟩
  | merge h one run size ih =>
    obtain ⟨⟨m, S, h1, h2⟩, h3, h4⟩ := ih
    have hds : DiskSmall _ := ⟨size.main, size.units⟩
    obtain ⟨g1, g2⟩ := merge_ok ht (zipOk L) h1 h2 h3 h4 one run hds
    exact ⟨⟨_, _, g1, g2⟩, hds, filled_merge h4 _⟩

theorem hist_mhist {lib : Lib} {P : Db → Prop} {v : Time.Env} {d : Disk} {a : Abs} (h : Hist lib v P d a) : MHist lib v P d a := by
  induction h with
  | new => exact .new
  | session _ s ih => exact .session ih s

theorem asOne_bytes (l : List (Nat × Nat × Bytes)) : allBytes (asOne l) = allBytes l := by
  unfold asOne
  cases hg : l.getLast? with
  | none => rw [List.getLast?_eq_none_iff] at hg; subst hg; rfl
  | some z => simp [allBytes]

/-- The merge of a year with records is defined. -/
theorem merge_some {lib : Lib} {P : Db → Prop} (ht : lib.trace = false) (L : ZipOk lib) {d : Disk} {m : Ctl} {S : Store} {a : Abs} (h : DiskOk lib P d m S) (r : Rel P a S m) (hs : DiskSmall d) (hf : Filled a)
    {y : Nat} (one : OneDict lib d y) {k s : Bytes} (hk : (46 : UInt8) ∉ k) {l : List (Nat × Nat × Bytes)} (hl : a.rows (fold k) (fold s) (.year y) = some l) : ∃ d', mergeYear lib d y = some d' := by
  have hS := r.rows k s (.year y) hk
  rw [hl] at hS
  cases hu : d.unit (.year y) with
  | none =>
    rw [h.files.none _ hu (by simp) _ (isData_node k s)] at hS
    cases hS
  | some f =>
    obtain ⟨c, t, c1, c0, c2, c3, _⟩ := merge_run L h r hs hf one hu
    have hd : data c.idx ≠ [] := by
      have hv := c0 _ (isData_node k s)
      rw [hS] at hv
      unfold view at hv
      cases hg : getN c.idx (nodeName k (some s)) with
      | none => rw [hg] at hv; cases hv
      | some nd =>
        obtain ⟨i, e, k1, k2, k3⟩ := getN_some hg
        have : e ∈ data c.idx := List.mem_filter.2 ⟨List.mem_of_getElem? k1, by
          have hn := isData_node k s
          simp only [IsData] at hn
          rw [sameN_trans_r k3, sameN_trans_r (c := signTabs) k3] at hn
          simp [hn.1, hn.2]⟩
        intro hx; rw [hx] at this; cases this
    obtain ⟨g, hg⟩ := c3 hd ht
    have hm : mergeFile lib f = some g := by
      unfold mergeFile
      rw [c1, Option.bind_some, c2, Option.bind_some, hg]
    unfold mergeYear
    rw [hu, Option.bind_some, hm]
    exact ⟨_, rfl⟩

end Sis.Sdb
