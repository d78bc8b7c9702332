import Verif.Sdb.RowLemmas
import Verif.Sdb.SampleHist
/- C24 and C27: records of tables in a database on disk. -/
namespace Sis.Sdb
open Sis
open Sis.Dyn (Db)

/-! ### Lemmas -/

private theorem kept {v : Time.Env} {db : Db} {f : Dyn.Field} {u : Uid} (keep : Nat × Nat × Bytes → Bool) (g : Bytes → Bool) (l : List (Nat × Nat × Bytes))
    (h : ∀ o ∈ l, ∃ rs, Made v db f u o rs ∧ ∀ r ∈ rs, keep o = false → g r = false) :
    ∃ R R' : List Bytes, (∀ r ∈ R, r.length = db.size) ∧ (∀ r ∈ R', r.length = db.size) ∧ allBytes l = R.flatten ∧ allBytes (l.filter keep) = R'.flatten ∧
      (∀ r ∈ R, g r = true → r ∈ R') ∧ ((∀ o ∈ l, ∀ rs, Made v db f u o rs → ∀ r ∈ rs, g r = keep o) → R' = R.filter g) := by
  induction l with
  | nil => exact ⟨[], [], by simp, by simp, rfl, rfl, by simp, fun _ => rfl⟩
  | cons o l ih =>
    obtain ⟨R, R', h1, h2, h3, h4, h5, h6⟩ := ih fun o ho => h o (by simp [ho])
    obtain ⟨rs, m1, m2⟩ := h o (by simp)
    have hR : ∀ r ∈ rs ++ R, r.length = db.size := by
      intro r hr
      rcases List.mem_append.1 hr with hr | hr
      · exact m1.len r hr
      · exact h1 r hr
    have e1 : allBytes (o :: l) = (rs ++ R).flatten := by
      simp only [allBytes] at h3
      simp only [allBytes, List.flatMap_cons, List.flatten_append, m1.bytes, h3]
    cases hk : keep o with
    | false =>
      refine ⟨rs ++ R, R', hR, h2, e1, by rw [List.filter_cons_of_neg (by simp [hk])]; exact h4, ?_, ?_⟩
      · intro r hr hg
        rcases List.mem_append.1 hr with hr | hr
        · rw [m2 r hr hk] at hg; cases hg
        · exact h5 r hr hg
      · intro hx
        rw [h6 fun o ho => hx o (by simp [ho]), List.filter_append, List.filter_eq_nil_iff.2 (fun r (hr : r ∈ rs) => by rw [m2 r hr hk]; simp), List.nil_append]
    | true =>
      refine ⟨rs ++ R, rs ++ R', hR, ?_, e1, ?_, ?_, ?_⟩
      · intro r hr
        rcases List.mem_append.1 hr with hr | hr
        · exact m1.len r hr
        · exact h2 r hr
      · rw [List.filter_cons_of_pos hk]
        simp only [allBytes] at h4
        simp only [allBytes, List.flatMap_cons, List.flatten_append, m1.bytes, h4]
      · intro r hr hg
        rcases List.mem_append.1 hr with hr | hr
        · exact List.mem_append.2 (.inl hr)
        · exact List.mem_append.2 (.inr (h5 r hr hg))
      · intro hx
        rw [h6 fun o ho => hx o (by simp [ho]), List.filter_append]
        congr 1
        refine (List.filter_eq_self.2 fun r hr => ?_).symm
        rw [hx o (by simp) rs m1 r hr, hk]

private theorem made_range {v : Time.Env} {db : Db} {f : Dyn.Field} {u : Uid} {o : Nat × Nat × Bytes} {rs : List Bytes} (h : Made v db f u o rs) {r : Bytes} (hr : r ∈ rs) :
    o.1 ≤ timeOf f r ∧ timeOf f r ≤ o.2.1 := by
  obtain ⟨x, hx, hx1⟩ := h.first
  obtain ⟨y, hy, hy1⟩ := h.last
  have ho := h.order
  rw [← hx1, ← hy1]
  constructor
  · cases rs with
    | nil => cases hr
    | cons z rs =>
      cases hx
      rcases List.mem_cons.1 hr with rfl | hr
      · exact Nat.le_refl _
      · exact (List.pairwise_cons.1 ho).1 r hr
  · have hne : rs ≠ [] := by intro he; rw [he] at hr; cases hr
    have : rs = rs.dropLast ++ [y] := by
      rw [List.getLast?_eq_some_getLast hne] at hy
      cases hy
      exact (List.dropLast_concat_getLast hne).symm
    rw [this] at hr ho
    rcases List.mem_append.1 hr with hr | hr
    · exact (List.pairwise_append.1 ho).2.2 r hr y (by simp)
    · rw [List.mem_singleton.1 hr]; exact Nat.le_refl _

private theorem replaces_inside {a b c d : Nat} (_h1 : a ≤ b) (h2 : c ≤ d) (h : a ≤ c ∧ d ≤ b ∧ (c < d ∨ c = a ∨ d = b)) : replaces a b c d = true := by
  unfold replaces
  simp only [Bool.or_eq_true, beq_iff_eq, decide_eq_true_eq]
  omega

private theorem replaces_apart {a b c d : Nat} (h1 : a ≤ b) (h2 : c ≤ d) (h : d < a ∨ b < c) : replaces a b c d = false := by
  unfold replaces
  simp only [Bool.or_eq_false_iff, beq_eq_false_iff_ne, decide_eq_false_iff_not]
  omega

private theorem one_act {v : Time.Env} {a : Abs} {k t b : Bytes} {db : Db} {f : Dyn.Field} (hd : a.defs (fold t) = some db) (hf : timeField db = some f) (u : Uid) :
    (a.acts v [.rows k t b]).rows (fold k) (fold t) u = addRecords v f (recordsOf db b) u (a.rows (fold k) (fold t) u) := by
  show (a.act v (.rows k t b)).rows _ _ _ = _
  simp only [Abs.act, hd, hf, and_self, if_true]

/-! ### C24 -/

/-- C24: after any sessions, the reader finds in the file of a year or a day, for a key and a table, the bytes of its blocks:
of the blocks that were written there each one replaced those before it that it has more than an instant, or an opposite end, in
common with.  Missing: the limits on names, sizes and times of `Allowed` and `Moderate`. -/
theorem C24_rows_partial {lib : Lib} {v : Time.Env} {P : Db → Prop} (ht : lib.trace = false) (L : Restores lib) (T : Readable lib P) (K : Tables P) {d : Disk} {a : Abs}
    (h : Hist lib v P d a) {k t : Bytes} (hk : KeyName k) (hn : TabName t) (u : Uid) :
    rowsIn lib d k t u = some ((a.rows (fold k) (fold t) u).map allBytes) := by
  obtain ⟨m, S, h1, h2⟩ := hist_rel ht L T K h
  exact rowsIn_eq h1 h2 hk hn u

/-- C24: when every older block is apart from the new one, or lies in it and is not an instant strictly inside, then the file has
after the write the older records that are not in the time of the new block, as they were, and the new ones.  `x` and `y` are
the times of the first and the last new record for this file. -/
theorem C24_replace_partial {lib : Lib} {v : Time.Env} {P : Db → Prop} (ht : lib.trace = false) (L : Restores lib) (T : Readable lib P) (K : Tables P) {d d' : Disk} {a : Abs}
    (h : Hist lib v P d a) {k t b : Bytes} (s : Session lib v P d a [.rows k t b] d') {db : Db} (hd : a.defs (fold t) = some db)
    (hone : ∀ o, a.was (fold t) o → o = db) {f : Dyn.Field} (hf : timeField db = some f) {u : Uid} {old : Bytes} (hold : rowsIn lib d k t u = some (some old)) {x y : Nat}
    (hx : (((recordsOf db b).filter fun r => placeOf v f r == some u).head?).map (timeOf f) = some x)
    (hy : (((recordsOf db b).filter fun r => placeOf v f r == some u).getLast?).map (timeOf f) = some y)
    (hc : ∀ o ∈ (a.rows (fold k) (fold t) u).getD [], o.2.1 < x ∨ y < o.1 ∨ (x ≤ o.1 ∧ o.2.1 ≤ y ∧ (o.1 < o.2.1 ∨ o.1 = x ∨ o.2.1 = y))) :
    ∃ new, rowsIn lib d' k t u = some (some new) ∧
      recordsOf db new = (recordsOf db old).filter (fun r => decide (timeOf f r < x ∨ y < timeOf f r)) ++ (recordsOf db b).filter fun r => placeOf v f r == some u := by
  have hok := s.ok [] _ [] rfl
  have hk : KeyName k := hok.1
  have hn : TabName t := hok.2.2.1
  have hblk := hok.2.2.2 db hd
  have hC := hist_content K h
  have hp := hC.was _ _ (hC.defs _ _ hd)
  have hg := records_good K hp hblk.whole
  rw [C24_rows_partial ht L T K h hk hn] at hold
  rw [C24_rows_partial ht L T K (h.session s) hk hn, one_act hd hf]
  generalize hm : ((recordsOf db b).filter fun r => placeOf v f r == some u) = mine at hx hy ⊢
  obtain ⟨rx, hx1, hx2⟩ := Option.map_eq_some_iff.1 hx
  obtain ⟨ry, hy1, hy2⟩ := Option.map_eq_some_iff.1 hy
  have hu : u ≠ .nots := by
    rintro rfl
    have : rx ∈ mine := List.mem_of_head? hx1
    rw [← hm] at this
    have := (List.mem_filter.1 this).2
    exact placeOf_ne (by simpa using this)
  cases hl : a.rows (fold k) (fold t) u with
  | none => rw [hl] at hold; cases hold
  | some l =>
    rw [hl] at hold hc
    have he : allBytes l = old := by simpa using hold
    simp only [Option.getD_some] at hc
    unfold addRecords
    simp only [hm, hx1, hy1, Option.getD_some, Option.map_some]
    refine ⟨_, rfl, ?_⟩
    have hxy : timeOf f rx ≤ timeOf f ry := by
      have hsub : mine.Pairwise fun x y => timeOf f x ≤ timeOf f y := by
        rw [← hm]
        exact ((hblk.order f hf).imp fun hx => hx.1).filter _
      exact head_last (t := timeOf f) hsub hx1 hy1
    rw [hx2, hy2] at hxy
    have hmade : ∀ o ∈ l, ∃ rs, Made v db f u o rs := by
      intro o ho
      obtain ⟨db', f', rs, h1, h2, h3⟩ := (hC.rows _ _ u l hu hl).2 o ho
      have := hone db' h1
      subst this
      rw [hf] at h2; cases h2
      exact ⟨rs, h3⟩
    have hin : ∀ o ∈ l, ∀ rs, Made v db f u o rs → ∀ r ∈ rs, decide (timeOf f r < x ∨ y < timeOf f r) = !replaces x y o.1 o.2.1 := by
      intro o ho rs hrs r hr
      obtain ⟨r1, r2⟩ := made_range hrs hr
      rcases hc o ho with hh | hh | hh
      · rw [replaces_apart hxy (by omega) (.inl hh)]; simp; omega
      · rw [replaces_apart hxy (by omega) (.inr hh)]; simp; omega
      · rw [replaces_inside hxy (by omega) hh]; simp; omega
    obtain ⟨R, R', k1, k2, k3, k4, _, k6⟩ := kept (fun o => !replaces x y o.1 o.2.1) (fun r => decide (timeOf f r < x ∨ y < timeOf f r)) l
      (fun o ho => by
        obtain ⟨rs, hrs⟩ := hmade o ho
        exact ⟨rs, hrs, fun r hr hk => by rw [hin o ho rs hrs r hr]; exact hk⟩)
    have e1 : allBytes (addBlock l x y mine.flatten) = (R' ++ mine).flatten := by
      have : allBytes (addBlock l x y mine.flatten) = allBytes (l.filter fun o => !replaces x y o.1 o.2.1) ++ mine.flatten := by simp [addBlock, allBytes]
      rw [this, k4, List.flatten_append]
    have hz := (K.size db hp).1
    rw [hx2, hy2, e1, recordsOf_flatten hz, k6 hin, ← he, k3, recordsOf_flatten hz k1]
    intro r hr
    rcases List.mem_append.1 hr with hr | hr
    · exact k2 r hr
    · rw [← hm] at hr
      exact hg.2 r (List.mem_filter.1 hr).1

/-- C24: when every older block is apart from the new one or lies in it, no record outside the time of the new block is lost.
Missing: an older block that is only partly in the time of the new one; see `C24_violated_overlap`. -/
theorem C24_outside_partial {lib : Lib} {v : Time.Env} {P : Db → Prop} (ht : lib.trace = false) (L : Restores lib) (T : Readable lib P) (K : Tables P) {d d' : Disk} {a : Abs}
    (h : Hist lib v P d a) {k t b : Bytes} (s : Session lib v P d a [.rows k t b] d') {db : Db} (hd : a.defs (fold t) = some db)
    (hone : ∀ o, a.was (fold t) o → o = db) {f : Dyn.Field} (hf : timeField db = some f) {u : Uid} {old : Bytes} (hold : rowsIn lib d k t u = some (some old)) {x y : Nat}
    (hx : (((recordsOf db b).filter fun r => placeOf v f r == some u).head?).map (timeOf f) = some x)
    (hy : (((recordsOf db b).filter fun r => placeOf v f r == some u).getLast?).map (timeOf f) = some y)
    (hc : ∀ o ∈ (a.rows (fold k) (fold t) u).getD [], o.2.1 < x ∨ y < o.1 ∨ (x ≤ o.1 ∧ o.2.1 ≤ y)) :
    ∃ new, rowsIn lib d' k t u = some (some new) ∧ (∀ r ∈ recordsOf db b, placeOf v f r = some u → r ∈ recordsOf db new) ∧
      ∀ r ∈ recordsOf db old, timeOf f r < x ∨ y < timeOf f r → r ∈ recordsOf db new := by
  have hok := s.ok [] _ [] rfl
  have hk : KeyName k := hok.1
  have hn : TabName t := hok.2.2.1
  have hblk := hok.2.2.2 db hd
  have hC := hist_content K h
  have hp := hC.was _ _ (hC.defs _ _ hd)
  have hg := records_good K hp hblk.whole
  rw [C24_rows_partial ht L T K h hk hn] at hold
  rw [C24_rows_partial ht L T K (h.session s) hk hn, one_act hd hf]
  have hmem : ∀ r ∈ recordsOf db b, placeOf v f r = some u → r ∈ (recordsOf db b).filter fun r => placeOf v f r == some u :=
    fun r hr he => List.mem_filter.2 ⟨hr, by simp [he]⟩
  generalize hm : ((recordsOf db b).filter fun r => placeOf v f r == some u) = mine at hx hy hmem ⊢
  obtain ⟨rx, hx1, hx2⟩ := Option.map_eq_some_iff.1 hx
  obtain ⟨ry, hy1, hy2⟩ := Option.map_eq_some_iff.1 hy
  have hu : u ≠ .nots := by
    rintro rfl
    have : rx ∈ mine := List.mem_of_head? hx1
    rw [← hm] at this
    have := (List.mem_filter.1 this).2
    exact placeOf_ne (by simpa using this)
  cases hl : a.rows (fold k) (fold t) u with
  | none => rw [hl] at hold; cases hold
  | some l =>
    rw [hl] at hold hc
    have he : allBytes l = old := by simpa using hold
    simp only [Option.getD_some] at hc
    unfold addRecords
    simp only [hm, hx1, hy1, Option.getD_some, Option.map_some]
    refine ⟨_, rfl, ?_⟩
    have hxy : timeOf f rx ≤ timeOf f ry := by
      have hsub : mine.Pairwise fun x y => timeOf f x ≤ timeOf f y := by
        rw [← hm]
        exact ((hblk.order f hf).imp fun hx => hx.1).filter _
      exact head_last (t := timeOf f) hsub hx1 hy1
    rw [hx2, hy2] at hxy
    obtain ⟨R, R', k1, k2, k3, k4, k5, _⟩ := kept (v := v) (db := db) (f := f) (u := u) (fun o => !replaces x y o.1 o.2.1) (fun r => decide (timeOf f r < x ∨ y < timeOf f r)) l
      (fun o ho => by
        obtain ⟨db', f', rs, h1, h2, h3⟩ := (hC.rows _ _ u l hu hl).2 o ho
        have := hone db' h1
        subst this
        rw [hf] at h2; cases h2
        refine ⟨rs, h3, fun r hr hk => ?_⟩
        obtain ⟨r1, r2⟩ := made_range h3 hr
        rcases hc o ho with hh | hh | hh
        · simp only [replaces_apart hxy (show o.1 ≤ o.2.1 by omega) (.inl hh)] at hk; cases hk
        · simp only [replaces_apart hxy (show o.1 ≤ o.2.1 by omega) (.inr hh)] at hk; cases hk
        · simp; omega)
    have e1 : allBytes (addBlock l x y mine.flatten) = (R' ++ mine).flatten := by
      have : allBytes (addBlock l x y mine.flatten) = allBytes (l.filter fun o => !replaces x y o.1 o.2.1) ++ mine.flatten := by simp [addBlock, allBytes]
      rw [this, k4, List.flatten_append]
    have hz := (K.size db hp).1
    have e2 : recordsOf db (R' ++ mine).flatten = R' ++ mine := by
      refine recordsOf_flatten hz fun r hr => ?_
      rcases List.mem_append.1 hr with hr | hr
      · exact k2 r hr
      · rw [← hm] at hr
        exact hg.2 r (List.mem_filter.1 hr).1
    rw [hx2, hy2, e1, e2]
    refine ⟨fun r hr he => List.mem_append.2 (.inr (hmem r hr he)), fun r hr ho => List.mem_append.2 (.inl (k5 r ?_ (by simpa using ho)))⟩
    rw [← he, k3, recordsOf_flatten hz k1] at hr
    exact hr

private theorem rows_kept {v : Time.Env} {k t : Bytes} (u : Uid) (as : List Act) : ∀ {a : Abs}, (∀ y ∈ as, ¬ y.adds k t) →
    (a.acts v as).rows (fold k) (fold t) u = a.rows (fold k) (fold t) u := by
  induction as with
  | nil => intro a _; rfl
  | cons x as ih =>
    intro a h
    refine (ih (a := a.act v x) fun y hy => h y (by simp [hy])).trans ?_
    have hx := h x (by simp)
    cases x with
    | keys ks => rfl
    | tabs ts => rfl
    | one n b => rfl
    | mul n l => rfl
    | rows n s b =>
      simp only [Abs.act]
      split
      · rfl
      · exact if_neg fun he => hx ⟨he.1.symm, he.2.symm⟩

/-- C24: a session that writes no records for a key and a table changes nothing in them, whatever else is written. -/
theorem C24_others_partial {lib : Lib} {v : Time.Env} {P : Db → Prop} (ht : lib.trace = false) (L : Restores lib) (T : Readable lib P) (K : Tables P) {d d' : Disk} {a : Abs}
    (h : Hist lib v P d a) {k t : Bytes} {as : List Act} (s : Session lib v P d a as d') (hk : KeyName k) (hn : TabName t) (has : ∀ y ∈ as, ¬ y.adds k t) (u : Uid) :
    rowsIn lib d' k t u = rowsIn lib d k t u := by
  rw [C24_rows_partial ht L T K (h.session s) hk hn, C24_rows_partial ht L T K h hk hn, rows_kept u as has]

section
open Sample

/-- A third session: two days, the second of them already there. -/
private def acts3 : List Act := [.rows (b "k1") (b "day") (dayRow 20210105 4 ++ dayRow 20210106 5)]
private def disk3 : Disk := (session (lib false) env disk2 (acts3.map Act.cmd)).getD {}

private theorem has2 : abs2.keys (fold (b "k1")) := keeps_all acts2 has1.1

private theorem session3 : Session (lib false) env (· ∈ dbs) disk2 abs2 acts3 disk3 :=
  ⟨ok_cons (rows_ok key1 has2 tabDay (by decide +kernel) (block_of dayField_eq (by decide +kernel))) ok_nil, run_of (by decide +kernel), moderate_of (by decide +kernel)⟩

private theorem only_day : ∀ o, abs2.was (fold (b "day")) o → o = dayDb := by
  intro o ho
  have : abs2.was (fold (b "day")) = fun x => False ∨ ∃ t ∈ [(⟨b "day", dayDb⟩ : Tab), ⟨b "sec", secDb⟩, ⟨b "info", infoDb⟩], fold t.name = fold (b "day") ∧ t.db = x := by
    have e : ∀ (a : Abs) (x : Act), (∀ ts, x ≠ .tabs ts) → (a.act env x).was = a.was := by
      intro a x hx
      cases x with
      | tabs ts => exact absurd rfl (hx ts)
      | rows k s d => simp only [Abs.act]; split <;> rfl
      | _ => rfl
    simp only [abs2, abs1, acts1, acts2, Abs.acts, List.foldl_cons, List.foldl_nil]
    rw [e _ (.rows ..) nofun, e _ (.rows ..) nofun, e _ (.one ..) nofun, e _ (.rows ..) nofun, e _ (.rows ..) nofun, e _ (.mul ..) nofun, e _ (.one ..) nofun]
    rfl
  rw [this] at ho
  rcases ho with ho | ⟨t, ht, hn, rfl⟩
  · exact ho.elim
  · simp only [List.mem_cons, List.not_mem_nil, or_false] at ht
    rcases ht with rfl | rfl | rfl
    · rfl
    · exact absurd hn (by decide +kernel)
    · exact absurd hn (by decide +kernel)

/-- The file of 2021 has two blocks of one day each; the second is replaced, the first stays. -/
example : Hist (lib false) env (· ∈ dbs) disk2 abs2 ∧ Session (lib false) env (· ∈ dbs) disk2 abs2 [.rows (b "k1") (b "day") (dayRow 20210105 4 ++ dayRow 20210106 5)] disk3 ∧
    abs2.defs (fold (b "day")) = some dayDb ∧ (∀ o, abs2.was (fold (b "day")) o → o = dayDb) ∧ timeField dayDb = some dayField ∧
    rowsIn (lib false) disk2 (b "k1") (b "day") (.year 2021) = some (some (dayRow 20210104 2 ++ dayRow 20210105 3)) ∧
    (∀ o ∈ (abs2.rows (fold (b "k1")) (fold (b "day")) (.year 2021)).getD [], o.2.1 < 20210105 ∨ 20210106 < o.1 ∨
      (20210105 ≤ o.1 ∧ o.2.1 ≤ 20210106 ∧ (o.1 < o.2.1 ∨ o.1 = 20210105 ∨ o.2.1 = 20210106))) ∧
    rowsIn (lib false) disk3 (b "k1") (b "day") (.year 2021) = some (some (dayRow 20210104 2 ++ dayRow 20210105 4 ++ dayRow 20210106 5)) ∧
    (∀ y ∈ acts3, ¬ y.adds (b "k1") (b "info")) := by
  refine ⟨hist2, session3, by decide +kernel, only_day, dayField_eq, by decide +kernel, by decide +kernel, by decide +kernel, ?_⟩
  intro y hy
  rw [List.mem_singleton.1 hy]
  show ¬ (fold _ = fold _ ∧ fold _ = fold _)
  decide +kernel

/-- C24 fails when an older block is only partly in the time of the new one: 2021-06-01 is lost when 02 to 04 are written. -/
theorem C24_violated_overlap : ∃ d d', session (lib false) env {} [.keys (b "a"), .tabs [⟨b "day", dayDb⟩], .rows (b "a") (b "day") (dayRow 20210601 1 ++ dayRow 20210602 2 ++ dayRow 20210603 3)] = some d ∧
    rowsIn (lib false) d (b "a") (b "day") (.year 2021) = some (some (dayRow 20210601 1 ++ dayRow 20210602 2 ++ dayRow 20210603 3)) ∧
    session (lib false) env d [.rows (b "a") (b "day") (dayRow 20210602 5 ++ dayRow 20210603 6 ++ dayRow 20210604 7)] = some d' ∧
    rowsIn (lib false) d' (b "a") (b "day") (.year 2021) = some (some (dayRow 20210602 5 ++ dayRow 20210603 6 ++ dayRow 20210604 7)) :=
  ⟨_, _, run_of (by decide +kernel), by decide +kernel, run_of (by decide +kernel), by decide +kernel⟩

/-- C24: a day written again that is strictly inside an older block is in the file twice, with the old and the new record. -/
theorem C24_violated_twice : ∃ d, session (lib false) env {} [.keys (b "a"), .tabs [⟨b "day", dayDb⟩], .rows (b "a") (b "day") (dayRow 20210601 1 ++ dayRow 20210602 2 ++ dayRow 20210603 3),
      .rows (b "a") (b "day") (dayRow 20210602 9)] = some d ∧
    rowsIn (lib false) d (b "a") (b "day") (.year 2021) = some (some (dayRow 20210601 1 ++ dayRow 20210602 2 ++ dayRow 20210603 3 ++ dayRow 20210602 9)) :=
  ⟨_, run_of (by decide +kernel), by decide +kernel⟩

/-- C24 fails at the ends of blocks: a block that begins with the last time of an older one replaces all of it. -/
theorem C24_violated_touch : ∃ d, session (lib false) env {} [.keys (b "a"), .tabs [⟨b "day", dayDb⟩], .rows (b "a") (b "day") (dayRow 20210601 1 ++ dayRow 20210602 2 ++ dayRow 20210603 3),
      .rows (b "a") (b "day") (dayRow 20210603 9)] = some d ∧
    rowsIn (lib false) d (b "a") (b "day") (.year 2021) = some (some (dayRow 20210603 9)) :=
  ⟨_, run_of (by decide +kernel), by decide +kernel⟩

end

/-! ### C27 -/

/-- C27: a block written for a key and a table that has nothing yet in a file makes this file have its records that belong
there, in their order, and nothing when there are none.  Missing: times of more than 31 bits in blocks of several periods
(see `C27_violated_msec`), and the limits of `Allowed` and `Moderate`. -/
theorem C27_split_partial {lib : Lib} {v : Time.Env} {P : Db → Prop} (ht : lib.trace = false) (L : Restores lib) (T : Readable lib P) (K : Tables P) {d d' : Disk} {a : Abs}
    (h : Hist lib v P d a) {k t b : Bytes} (s : Session lib v P d a [.rows k t b] d') {db : Db} (hd : a.defs (fold t) = some db)
    {f : Dyn.Field} (hf : timeField db = some f) {u : Uid} (hnew : rowsIn lib d k t u = some none) :
    rowsIn lib d' k t u = some (if (recordsOf db b).any (fun r => placeOf v f r == some u) then some ((recordsOf db b).filter fun r => placeOf v f r == some u).flatten else none) := by
  have hok := s.ok [] _ [] rfl
  have hk : KeyName k := hok.1
  have hn : TabName t := hok.2.2.1
  rw [C24_rows_partial ht L T K h hk hn] at hnew
  have hnew : a.rows (fold k) (fold t) u = none := by simpa using hnew
  rw [C24_rows_partial ht L T K (h.session s) hk hn, one_act hd hf, hnew]
  have hany : (recordsOf db b).any (fun r => placeOf v f r == some u) = !((recordsOf db b).filter fun r => placeOf v f r == some u).isEmpty := by
    induction recordsOf db b with
    | nil => rfl
    | cons r rs ih =>
      rw [List.any_cons, List.filter_cons, ih]
      cases placeOf v f r == some u <;> simp
  rw [hany]
  unfold addRecords
  generalize ((recordsOf db b).filter fun r => placeOf v f r == some u) = mine
  cases mine with
  | nil => rfl
  | cons r rs =>
    simp only [List.head?_cons, List.getLast?_cons]
    simp [addBlock, allBytes]

/-- C27: a file for which a written block has no records stays as it is. -/
theorem C27_elsewhere_partial {lib : Lib} {v : Time.Env} {P : Db → Prop} (ht : lib.trace = false) (L : Restores lib) (T : Readable lib P) (K : Tables P) {d d' : Disk} {a : Abs}
    (h : Hist lib v P d a) {k t b : Bytes} (s : Session lib v P d a [.rows k t b] d') {db : Db} (hd : a.defs (fold t) = some db)
    {f : Dyn.Field} (hf : timeField db = some f) {u : Uid} (hnot : ∀ r ∈ recordsOf db b, placeOf v f r ≠ some u) :
    rowsIn lib d' k t u = rowsIn lib d k t u := by
  have hok := s.ok [] _ [] rfl
  have hk : KeyName k := hok.1
  have hn : TabName t := hok.2.2.1
  rw [C24_rows_partial ht L T K h hk hn, C24_rows_partial ht L T K (h.session s) hk hn, one_act hd hf]
  have : ((recordsOf db b).filter fun r => placeOf v f r == some u) = [] := List.filter_eq_nil_iff.2 fun r hr => by simpa using hnot r hr
  unfold addRecords
  simp only [this, List.head?_nil, List.getLast?_nil]

/-- C27: every record of a written block has its file, and after the write it is there.  The table must not have had another
definition before. -/
theorem C27_written_partial {lib : Lib} {v : Time.Env} {P : Db → Prop} (ht : lib.trace = false) (L : Restores lib) (T : Readable lib P) (K : Tables P) {d d' : Disk} {a : Abs}
    (h : Hist lib v P d a) {k t b : Bytes} (s : Session lib v P d a [.rows k t b] d') {db : Db} (hd : a.defs (fold t) = some db)
    (hone : ∀ o, a.was (fold t) o → o = db) {f : Dyn.Field} (hf : timeField db = some f) :
    (recordsOf db b).flatten = b ∧ ∀ r ∈ recordsOf db b, ∃ u new, placeOf v f r = some u ∧ rowsIn lib d' k t u = some (some new) ∧ r ∈ recordsOf db new := by
  have hok := s.ok [] _ [] rfl
  have hk : KeyName k := hok.1
  have hn : TabName t := hok.2.2.1
  have hblk := hok.2.2.2 db hd
  have hC := hist_content K h
  have hp := hC.was _ _ (hC.defs _ _ hd)
  have hg := records_good K hp hblk.whole
  refine ⟨hg.1, fun r hr => ?_⟩
  obtain ⟨_, _, day, hday, _⟩ := hblk.time f hf r hr
  obtain ⟨u, hu⟩ : ∃ u, placeOf v f r = some u := by unfold placeOf; rw [hday]; exact ⟨_, rfl⟩
  have hmem : r ∈ (recordsOf db b).filter fun r => placeOf v f r == some u := List.mem_filter.2 ⟨hr, by simp [hu]⟩
  have hsub : ∀ r ∈ (recordsOf db b).filter (fun r => placeOf v f r == some u), r.length = db.size := fun r hr => hg.2 r (List.mem_filter.1 hr).1
  have hun : u ≠ .nots := by rintro rfl; exact placeOf_ne hu
  have hread := C24_rows_partial ht L T K (h.session s) hk hn u
  rw [one_act hd hf] at hread
  unfold addRecords at hread
  generalize hm : ((recordsOf db b).filter fun r => placeOf v f r == some u) = mine at hmem hsub
  have hne : mine ≠ [] := List.ne_nil_of_mem hmem
  obtain ⟨x, hx⟩ : ∃ x, mine.head? = some x := ⟨_, List.head?_eq_some_head hne⟩
  obtain ⟨y, hy⟩ : ∃ y, mine.getLast? = some y := ⟨_, List.getLast?_eq_some_getLast hne⟩
  simp only [hm, hx, hy, Option.map_some] at hread
  refine ⟨u, _, hu, hread, ?_⟩
  obtain ⟨R, R', k1, k2, k3, k4, _, _⟩ := kept (v := v) (db := db) (f := f) (u := u) (fun o => !replaces (timeOf f x) (timeOf f y) o.1 o.2.1) (fun _ => false)
    ((a.rows (fold k) (fold t) u).getD [])
    (fun o ho => by
      cases hl : a.rows (fold k) (fold t) u with
      | none => rw [hl] at ho; cases ho
      | some l =>
        rw [hl] at ho
        obtain ⟨db', f', rs, h1, h2, h3⟩ := (hC.rows _ _ u l hun hl).2 o ho
        have := hone db' h1
        subst this
        rw [hf] at h2; cases h2
        exact ⟨rs, h3, fun _ _ _ => rfl⟩)
  have e1 : allBytes (addBlock ((a.rows (fold k) (fold t) u).getD []) (timeOf f x) (timeOf f y) mine.flatten) = (R' ++ mine).flatten := by
    have : allBytes (addBlock ((a.rows (fold k) (fold t) u).getD []) (timeOf f x) (timeOf f y) mine.flatten) =
        allBytes (((a.rows (fold k) (fold t) u).getD []).filter fun o => !replaces (timeOf f x) (timeOf f y) o.1 o.2.1) ++ mine.flatten := by simp [addBlock, allBytes]
    rw [this, k4, List.flatten_append]
  rw [e1, recordsOf_flatten (K.size db hp).1]
  · exact List.mem_append.2 (.inr hmem)
  · intro r hr
    rcases List.mem_append.1 hr with hr | hr
    · exact k2 r hr
    · exact hsub r hr

/-- C27: whatever was done, every file has for every key and table whole records that belong to it, hence none is in two files. -/
theorem C27_place_partial {lib : Lib} {v : Time.Env} {P : Db → Prop} (ht : lib.trace = false) (L : Restores lib) (T : Readable lib P) (K : Tables P) {d : Disk} {a : Abs}
    (h : Hist lib v P d a) {k t : Bytes} (hk : KeyName k) (hn : TabName t) {db : Db} (hone : ∀ o, a.was (fold t) o → o = db)
    {f : Dyn.Field} (hf : timeField db = some f) {u : Uid} {m : Bytes} (hm : rowsIn lib d k t u = some (some m)) :
    (recordsOf db m).flatten = m ∧ ∀ r ∈ recordsOf db m, r.length = db.size ∧ placeOf v f r = some u := by
  have hC := hist_content K h
  rw [C24_rows_partial ht L T K h hk hn] at hm
  cases hl : a.rows (fold k) (fold t) u with
  | none => rw [hl] at hm; cases hm
  | some l =>
    rw [hl] at hm
    have he : allBytes l = m := by simpa using hm
    have hun : u ≠ .nots := by
      rintro rfl
      obtain ⟨db', h1, h2⟩ := hC.nots _ _ _ hl
      rw [hone db' h1, hf] at h2
      cases h2
    obtain ⟨hne, hall⟩ := hC.rows _ _ u l hun hl
    have hmade : ∀ o ∈ l, ∃ rs, Made v db f u o rs := by
      intro o ho
      obtain ⟨db', f', rs, h1, h2, h3⟩ := hall o ho
      have := hone db' h1
      subst this
      rw [hf] at h2; cases h2
      exact ⟨rs, h3⟩
    obtain ⟨R, hR1, hR2, hR3⟩ : ∃ R : List Bytes, allBytes l = R.flatten ∧ (∀ r ∈ R, r.length = db.size) ∧ ∀ r ∈ R, placeOf v f r = some u := by
      clear hl he hall hne hm
      induction l with
      | nil => exact ⟨[], rfl, by simp, by simp⟩
      | cons o l ih =>
        obtain ⟨R, h1, h2, h3⟩ := ih fun o ho => hmade o (by simp [ho])
        obtain ⟨rs, hrs⟩ := hmade o (by simp)
        refine ⟨rs ++ R, ?_, ?_, ?_⟩
        · simp only [allBytes] at h1
          simp only [allBytes, List.flatMap_cons, List.flatten_append, hrs.bytes, h1]
        · intro r hr
          rcases List.mem_append.1 hr with hr | hr
          · exact hrs.len r hr
          · exact h2 r hr
        · intro r hr
          rcases List.mem_append.1 hr with hr | hr
          · exact hrs.place r hr
          · exact h3 r hr
    have hp : P db := by
      cases l with
      | nil => exact absurd rfl hne
      | cons o l =>
        obtain ⟨db', f', rs, h1, h2, h3⟩ := hall o (by simp)
        have := hone db' h1
        subst this
        exact hC.was _ _ h1
    have : recordsOf db m = R := by rw [← he, hR1, recordsOf_flatten (K.size db hp).1 hR2]
    rw [this]
    exact ⟨by rw [← hR1, he], fun r hr => ⟨hR2 r hr, hR3 r hr⟩⟩

section
open Sample

private def acts3' : List Act := [.rows (b "k1") (b "sec") (secRow 1622940000 ++ secRow 1622940001 ++ secRow 1623026400)]
private def disk3' : Disk := (session (lib false) env disk2 (acts3'.map Act.cmd)).getD {}

/-- Three records of two days go to two files. -/
example : Hist (lib false) env (· ∈ dbs) disk2 abs2 ∧ Session (lib false) env (· ∈ dbs) disk2 abs2 [.rows (b "k1") (b "sec") (secRow 1622940000 ++ secRow 1622940001 ++ secRow 1623026400)] disk3' ∧
    abs2.defs (fold (b "sec")) = some secDb ∧ timeField secDb = some secField ∧ rowsIn (lib false) disk2 (b "k1") (b "sec") (.date 20210606) = some none ∧
    rowsIn (lib false) disk3' (b "k1") (b "sec") (.date 20210606) = some (some (secRow 1622940000 ++ secRow 1622940001)) ∧
    rowsIn (lib false) disk3' (b "k1") (b "sec") (.date 20210607) = some (some (secRow 1623026400)) ∧
    (∀ r ∈ recordsOf secDb (secRow 1622940000 ++ secRow 1622940001 ++ secRow 1623026400), placeOf env secField r ≠ some (.date 20210608)) :=
  ⟨hist2, ⟨ok_cons (rows_ok key1 has2 tabSec (by decide +kernel) (block_of secField_eq (by decide +kernel))) ok_nil, run_of (by decide +kernel), moderate_of (by decide +kernel)⟩,
   by decide +kernel, secField_eq, by decide +kernel, by decide +kernel, by decide +kernel, by decide +kernel⟩

/-- A table with one definition and records in a file. -/
example : Hist (lib false) env (· ∈ dbs) disk2 abs2 ∧ (∀ o, abs2.was (fold (b "day")) o → o = dayDb) ∧ timeField dayDb = some dayField ∧
    rowsIn (lib false) disk2 (b "k1") (b "day") (.year 2021) = some (some (dayRow 20210104 2 ++ dayRow 20210105 3)) :=
  ⟨hist2, only_day, dayField_eq, by decide +kernel⟩

/-- C27 fails for times in milliseconds in a block of several days: of the time only 32 bits are used, and a record of
2021-06-24 is in the file of 1970-01-12. -/
theorem C27_violated_msec : ∃ d, session (lib false) env {} [.keys (b "a"), .tabs [⟨b "ms", msDb⟩], .rows (b "a") (b "ms") (leBytes 8 1623500000000 ++ leBytes 8 1624497867264)] = some d ∧
    (timeField msDb).bind (fun f => placeOf env f (leBytes 8 1624497867264)) = some (.date 20210624) ∧
    rowsIn (lib false) d (b "a") (b "ms") (.date 20210624) = some none ∧
    rowsIn (lib false) d (b "a") (b "ms") (.date 19700112) = some (some (leBytes 8 1624497867264)) :=
  ⟨_, run_of (by decide +kernel), by decide +kernel, by decide +kernel, by decide +kernel⟩

end

end Sis.Sdb
