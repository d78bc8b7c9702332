import Verif.Sdb.MergeHist
import Verif.Sdb.SampleHist
/- C103: merging the blocks of a year. -/
namespace Sis.Sdb
open Sis
open Sis.Dyn (Db)

/-! ### Lemmas -/

private theorem rows_of {lib : Lib} {v : Time.Env} {d d' : Disk} {k t : Bytes} (h : ∀ u, rowsIn lib d' k t u = rowsIn lib d k t u) (lo hi : Nat) : getRows lib v d' k t lo hi = getRows lib v d k t lo hi := by
  have hy : ∀ n y, rowsYears lib d' k t n y = rowsYears lib d k t n y := by
    intro n
    induction n with
    | zero => intro y; rfl
    | succ n ih => intro y; simp only [rowsYears, h, ih]
  have hd : ∀ b n a, rowsDays lib v d' k t b n a = rowsDays lib v d k t b n a := by
    intro b n
    induction n with
    | zero => intro y; rfl
    | succ n ih => intro y; simp only [rowsDays, h, ih]
  simp only [getRows, h, hy, hd]

private theorem mvals_short {lib : Lib} {v : Time.Env} {P : Db → Prop} {d : Disk} {a : Abs} (h : MHist lib v P d a) : ∀ n x, a.vals n = some x → x.Short := by
  induction h with
  | new => intro n x h; cases h
  | session h s ih => exact vals_acts _ _ ih s.ok
  | merge _ _ _ _ ih => exact ih

/-! ### C103 -/

/-- C103: the blocks of a year in which something was written can be merged, and then every reader gets the records and values it
would have got before.  `h` is any use of the database up to here, with merges in it.  Missing: years in whose file there is more
than one block of keys or tables, because keys or tables were declared after the first records of the year were written; the
limits on names, sizes and times of `Allowed` and `Moderate`. -/
theorem C103_merge_partial {lib : Lib} {v : Time.Env} {P : Db → Prop} (ht : lib.trace = false) (L : Restores lib) (T : Readable lib P) (K : Tables P) {d : Disk} {a : Abs}
    (h : MHist lib v P d a) {y : Nat} (one : OneDict lib d y) {k₀ t₀ : Bytes} (hk₀ : KeyName k₀) (hsome : a.rows (fold k₀) (fold t₀) (.year y) ≠ none) :
    ∃ d', mergeYear lib d y = some d' ∧ (Moderate d' →
      (∀ k t, KeyName k → TabName t → ∀ lo hi, getRows lib v d' k t lo hi = getRows lib v d k t lo hi) ∧
      ∀ k, getOne lib d' k = getOne lib d k ∧ getMul lib d' k = getMul lib d k) := by
  obtain ⟨⟨m, S, h1, h2⟩, h3, h4⟩ := mhist_rel ht L T K h
  obtain ⟨l, hl⟩ := Option.ne_none_iff_exists'.1 hsome
  obtain ⟨d', hd'⟩ := merge_some ht (zipOk L) h1 h2 h3 h4 one hk₀.dot hl
  refine ⟨d', hd', fun hm => ⟨?_, ?_⟩⟩
  · intro k t hk hn lo hi
    obtain ⟨g1, g2⟩ := merge_ok ht (zipOk L) h1 h2 h3 h4 one hd' ⟨hm.main, hm.units⟩
    refine rows_of (fun u => ?_) lo hi
    rw [rowsIn_eq g1 g2 hk hn u, rowsIn_eq h1 h2 hk hn u]
    simp only [Abs.merge]
    split
    · rw [Option.map_map]
      congr 2
      funext l
      exact asOne_bytes l
    · rfl
  · intro k
    obtain ⟨f, g, _, _, _, u4⟩ := merge_unit hd'
    have : aloneUnits lib d' k = aloneUnits lib d k := by
      unfold aloneUnits openRd
      rw [u4, if_neg (by simp)]
    unfold getOne getMul
    rw [this]
    exact ⟨rfl, rfl⟩

/-- C103: and every key and table with records in the year has just one block there. -/
theorem C103_blocks_partial {lib : Lib} {v : Time.Env} {P : Db → Prop} (ht : lib.trace = false) (L : Restores lib) (T : Readable lib P) (K : Tables P) {d d' : Disk} {a : Abs}
    (h : MHist lib v P d a) {y : Nat} (one : OneDict lib d y) (run : mergeYear lib d y = some d') (hm : Moderate d') {k t : Bytes} (hk : KeyName k)
    (hsome : a.rows (fold k) (fold t) (.year y) ≠ none) :
    ∃ f c, d'.unit (.year y) = some f ∧ openUnit lib .year f = some c ∧ (blocksOf c.idx (k ++ ".".toUTF8.toList ++ t)).length = 1 := by
  obtain ⟨⟨m, S, h1, h2⟩, h3, h4⟩ := mhist_rel ht L T K h
  obtain ⟨l, hl⟩ := Option.ne_none_iff_exists'.1 hsome
  obtain ⟨g1, g2⟩ := merge_ok ht (zipOk L) h1 h2 h3 h4 one run ⟨hm.main, hm.units⟩
  obtain ⟨_, f, _, _, _, u4⟩ := merge_unit run
  have hu : d'.unit (.year y) = some f := by rw [u4, if_pos rfl]
  obtain ⟨_, c, c1, c2, c3⟩ := g1.files.disk _ f hu
  refine ⟨f, c, hu, c1, ?_⟩
  have hv := c3 (by simp) (nodeName k (some t)) (isData_node k t)
  rw [g2.rows k t _ hk.dot] at hv
  simp only [Abs.merge, if_true, hl, Option.map_some] at hv
  rw [blocksOf_eq, show k ++ ".".toUTF8.toList ++ t = nodeName k (some t) by
    rw [show ".".toUTF8.toList = [46] by decide +kernel]; simp [nodeName]]
  unfold view at hv
  unfold dictUnits
  obtain ⟨nd, n1, n2⟩ := Option.map_eq_some_iff.1 hv
  rw [n1]
  have hlen := congrArg List.length n2
  simp only [Option.map_some, Option.getD_some]
  rw [List.length_map] at hlen
  rw [hlen]
  have := h4 _ _ _ _ hl
  unfold asOne rowBlocks
  cases hg : l.getLast? with
  | none => rw [List.getLast?_eq_none_iff] at hg; exact absurd hg this
  | some z => simp

/-- C103: after any sessions with merges in between the reader finds, for a key, a table and a file, the bytes of its blocks: what
`C24_rows_partial` says of sessions, where blocks of a year that were merged are one block from then on, with the times of the
last of them. -/
theorem C103_rows_partial {lib : Lib} {v : Time.Env} {P : Db → Prop} (ht : lib.trace = false) (L : Restores lib) (T : Readable lib P) (K : Tables P) {d : Disk} {a : Abs}
    (h : MHist lib v P d a) {k t : Bytes} (hk : KeyName k) (hn : TabName t) (u : Uid) :
    rowsIn lib d k t u = some ((a.rows (fold k) (fold t) u).map allBytes) := by
  obtain ⟨⟨m, S, h1, h2⟩, _⟩ := mhist_rel ht L T K h
  exact rowsIn_eq h1 h2 hk hn u

/-- C103: and the values keys were given last. -/
theorem C103_values_partial {lib : Lib} {v : Time.Env} {P : Db → Prop} (ht : lib.trace = false) (L : Restores lib) (T : Readable lib P) (K : Tables P) {d : Disk} {a : Abs}
    (h : MHist lib v P d a) {k : Bytes} (hk : KeyName k) :
    getOne lib d k = some (match a.vals (fold k) with
      | some (.one x) => if x = [] then none else some x
      | _ => none) ∧
    getMul lib d k = some (match a.vals (fold k) with
      | some (.mul l) => if l = [] then none else some l
      | _ => none) := by
  obtain ⟨⟨m, S, h1, h2⟩, _⟩ := mhist_rel ht L T K h
  exact ⟨ones_eq h1 h2 hk fun x hx => mvals_short h _ _ hx, muls_eq h1 h2 hk fun l hx => mvals_short h _ _ hx⟩

namespace Sample

theorem one_of {d : Disk} {y : Nat} (h : (d.unit (.year y)).all (fun f => (openUnit (lib false) .year f).all fun c =>
    decide ((blocksOf c.idx "_keys_".toUTF8.toList).length ≤ 1 ∧ (blocksOf c.idx "_sdbs_".toUTF8.toList).length ≤ 1)) = true) : OneDict (lib false) d y := by
  intro f c hf hc
  rw [hf, Option.all_some, hc, Option.all_some] at h
  exact of_decide_eq_true h

/-- The second of the two sessions left two blocks of `k1` and `day` in the year 2021, which are merged here. -/
def disk3 : Disk := (mergeYear (lib false) disk2 2021).getD {}

theorem merge_of {d : Disk} {y : Nat} (h : (mergeYear (lib false) d y).isSome = true) : mergeYear (lib false) d y = some ((mergeYear (lib false) d y).getD {}) := by
  obtain ⟨x, hx⟩ := Option.isSome_iff_exists.1 h
  rw [hx]; rfl

theorem run3 : mergeYear (lib false) disk2 2021 = some disk3 := merge_of (by decide +kernel)

theorem hist3 : MHist (lib false) env (· ∈ dbs) disk3 (abs2.merge 2021) :=
  (hist_mhist hist2).merge (one_of (by decide +kernel)) run3 (moderate_of (by decide +kernel))

end Sample

open Sample in
example : MHist (lib false) env (· ∈ dbs) disk2 abs2 ∧ OneDict (lib false) disk2 2021 ∧ KeyName (b "k1") ∧ (abs2.rows (fold (b "k1")) (fold (b "day")) (.year 2021)).isSome = true ∧
    mergeYear (lib false) disk2 2021 = some disk3 ∧ Moderate disk3 ∧ getRows (lib false) env disk3 (b "k1") (b "day") 1609459200000 1640000000000 = some (some (dayRow 20210104 2 ++ dayRow 20210105 3)) :=
  ⟨hist_mhist hist2, one_of (by decide +kernel), key1, by decide +kernel, run3, moderate_of (by decide +kernel), by decide +kernel⟩

open Sample in
example : MHist (lib false) env (· ∈ dbs) disk3 (abs2.merge 2021) ∧ TabName (b "day") ∧ rowsIn (lib false) disk3 (b "k1") (b "day") (.year 2021) = some (some (dayRow 20210104 2 ++ dayRow 20210105 3)) :=
  ⟨hist3, tabDay, by decide +kernel⟩

open Sample in
/-- C103 fails when a key was declared after the first records of the year: only the last block of keys is kept, and the new
file cannot be read any more. -/
theorem C103_violated_keys : ∃ d d', session (lib false) env {} [.keys (b "k1"), .tabs [⟨b "day", dayDb⟩], .rows (b "k1") (b "day") (dayRow 20210104 2), .keys (b "k2"),
      .rows (b "k2") (b "day") (dayRow 20210105 3)] = some d ∧
    getRows (lib false) env d (b "k1") (b "day") 1609459200000 1640000000000 = some (some (dayRow 20210104 2)) ∧
    getRows (lib false) env d (b "k2") (b "day") 1609459200000 1640000000000 = some (some (dayRow 20210105 3)) ∧
    mergeYear (lib false) d 2021 = some d' ∧ getRows (lib false) env d' (b "k1") (b "day") 1609459200000 1640000000000 = none ∧
    getRows (lib false) env d' (b "k2") (b "day") 1609459200000 1640000000000 = none :=
  ⟨_, (mergeYear (lib false) ((session (lib false) env {} [.keys (b "k1"), .tabs [⟨b "day", dayDb⟩], .rows (b "k1") (b "day") (dayRow 20210104 2), .keys (b "k2"),
      .rows (b "k2") (b "day") (dayRow 20210105 3)]).getD {}) 2021).getD {}, run_of (by decide +kernel), by decide +kernel, by decide +kernel, merge_of (by decide +kernel), by decide +kernel, by decide +kernel⟩

namespace Sample

/-- Two days written one after the other, and the same merged. -/
def days : List Cmd := [.keys (b "k1"), .tabs [⟨b "day", dayDb⟩], .rows (b "k1") (b "day") (dayRow 20210104 2), .rows (b "k1") (b "day") (dayRow 20210105 3)]
def apart : Disk := (session (lib false) env {} days).getD {}
def together : Disk := (mergeYear (lib false) apart 2021).getD {}

end Sample

open Sample in
/-- C103: merging changes what a later write replaces.  When the last of the days is written again the others are lost, which they
are not without the merge. -/
theorem C103_violated_rewrite : ∃ d d', session (lib false) env {} days = some apart ∧ mergeYear (lib false) apart 2021 = some together ∧
    session (lib false) env apart [.rows (b "k1") (b "day") (dayRow 20210105 7)] = some d ∧ session (lib false) env together [.rows (b "k1") (b "day") (dayRow 20210105 7)] = some d' ∧
    getRows (lib false) env d (b "k1") (b "day") 1609459200000 1640000000000 = some (some (dayRow 20210104 2 ++ dayRow 20210105 7)) ∧
    getRows (lib false) env d' (b "k1") (b "day") 1609459200000 1640000000000 = some (some (dayRow 20210105 7)) :=
  ⟨_, _, run_of (by decide +kernel), merge_of (by decide +kernel), run_of (by decide +kernel), run_of (by decide +kernel), by decide +kernel, by decide +kernel⟩

open Sample in
/-- C103: and when another day is written again it is there twice. -/
theorem C103_violated_twice : ∃ d d', session (lib false) env {} days = some apart ∧ mergeYear (lib false) apart 2021 = some together ∧
    session (lib false) env apart [.rows (b "k1") (b "day") (dayRow 20210104 7)] = some d ∧ session (lib false) env together [.rows (b "k1") (b "day") (dayRow 20210104 7)] = some d' ∧
    getRows (lib false) env d (b "k1") (b "day") 1609459200000 1640000000000 = some (some (dayRow 20210105 3 ++ dayRow 20210104 7)) ∧
    getRows (lib false) env d' (b "k1") (b "day") 1609459200000 1640000000000 = some (some (dayRow 20210104 2 ++ dayRow 20210105 3 ++ dayRow 20210104 7)) :=
  ⟨_, _, run_of (by decide +kernel), merge_of (by decide +kernel), run_of (by decide +kernel), run_of (by decide +kernel), by decide +kernel, by decide +kernel⟩

end Sis.Sdb
