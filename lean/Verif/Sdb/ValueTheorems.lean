import Verif.Sdb.ReadLemmas
import Verif.Sdb.SampleHist
/- C23: values of keys in a database on disk. -/
namespace Sis.Sdb
open Sis
open Sis.Dyn (Db)

/-- C23: after any sessions a key reads as the single value it was given last.  Missing: keys with commas or dots or blanks at
their ends or the names of the dictionaries, empty values, values of 2 GB and more, data files of 4 GB and more,
main files and indexes of 2 GB and more or with a size field that is read in two pieces, and a library that logs what it reads; see the theorems `C23_violated_…`. -/
theorem C23_one_partial {lib : Lib} {v : Time.Env} {P : Db → Prop} (ht : lib.trace = false) (L : Restores lib) (T : Readable lib P) (K : Tables P) {d : Disk} {a : Abs}
    (h : Hist lib v P d a) {k : Bytes} (hk : KeyName k) :
    getOne lib d k = some (match a.vals (fold k) with
      | some (.one x) => if x = [] then none else some x
      | _ => none) := by
  obtain ⟨m, S, h1, h2⟩ := hist_rel ht L T K h
  exact ones_eq h1 h2 hk fun x hx => vals_short h _ _ hx

/-- C23: and as the list of values it was given last. -/
theorem C23_list_partial {lib : Lib} {v : Time.Env} {P : Db → Prop} (ht : lib.trace = false) (L : Restores lib) (T : Readable lib P) (K : Tables P) {d : Disk} {a : Abs}
    (h : Hist lib v P d a) {k : Bytes} (hk : KeyName k) :
    getMul lib d k = some (match a.vals (fold k) with
      | some (.mul l) => if l = [] then none else some l
      | _ => none) := by
  obtain ⟨m, S, h1, h2⟩ := hist_rel ht L T K h
  exact muls_eq h1 h2 hk fun l hx => vals_short h _ _ hx

private theorem vals_kept {v : Time.Env} {k : Bytes} (as : List Act) : ∀ {a : Abs}, (∀ y ∈ as, ¬ y.gives k) → (a.acts v as).vals (fold k) = a.vals (fold k) := by
  induction as with
  | nil => intro a _; rfl
  | cons x as ih =>
    intro a h
    refine (ih (a := a.act v x) fun y hy => h y (by simp [hy])).trans ?_
    have hx := h x (by simp)
    cases x with
    | keys ks => rfl
    | tabs ts => rfl
    | one n b => exact if_neg fun he => hx he.symm
    | mul n l => exact if_neg fun he => hx he.symm
    | rows n s b => simp only [Abs.act]; split <;> rfl

private theorem vals_after {v : Time.Env} {k : Bytes} {a : Abs} (pre post : List Act) (x : Act) (h : ∀ y ∈ post, ¬ y.gives k) :
    (a.acts v (pre ++ x :: post)).vals (fold k) = ((a.acts v pre).act v x).vals (fold k) := by
  unfold Abs.acts
  rw [List.foldl_append, List.foldl_cons]
  exact vals_kept post h

/-- C23: a value given in a session, and no other one to this key after it, is read when the session is over. -/
theorem C23_latest_partial {lib : Lib} {v : Time.Env} {P : Db → Prop} (ht : lib.trace = false) (L : Restores lib) (T : Readable lib P) (K : Tables P) {d d' : Disk} {a : Abs}
    (h : Hist lib v P d a) {k x : Bytes} {pre post : List Act} (s : Session lib v P d a (pre ++ .one k x :: post) d') (hk : KeyName k) (hx : x ≠ [])
    (hpost : ∀ y ∈ post, ¬ y.gives k) : getOne lib d' k = some (some x) ∧ getMul lib d' k = some none := by
  have e : (a.acts v (pre ++ .one k x :: post)).vals (fold k) = some (.one x) := (vals_after pre post _ hpost).trans (if_pos rfl)
  rw [C23_one_partial ht L T K (h.session s) hk, C23_list_partial ht L T K (h.session s) hk, e]
  simp [hx]

/-- C23: the same for lists. -/
theorem C23_latest_list_partial {lib : Lib} {v : Time.Env} {P : Db → Prop} (ht : lib.trace = false) (L : Restores lib) (T : Readable lib P) (K : Tables P) {d d' : Disk} {a : Abs}
    (h : Hist lib v P d a) {k : Bytes} {l : List Bytes} {pre post : List Act} (s : Session lib v P d a (pre ++ .mul k l :: post) d') (hk : KeyName k) (hl : l ≠ [])
    (hpost : ∀ y ∈ post, ¬ y.gives k) : getMul lib d' k = some (some l) ∧ getOne lib d' k = some none := by
  have e : (a.acts v (pre ++ .mul k l :: post)).vals (fold k) = some (.mul l) := (vals_after pre post _ hpost).trans (if_pos rfl)
  rw [C23_one_partial ht L T K (h.session s) hk, C23_list_partial ht L T K (h.session s) hk, e]
  simp [hl]

/-- C23: a session that gives a key no value changes nothing for it, whatever else is written. -/
theorem C23_others_partial {lib : Lib} {v : Time.Env} {P : Db → Prop} (ht : lib.trace = false) (L : Restores lib) (T : Readable lib P) (K : Tables P) {d d' : Disk} {a : Abs}
    (h : Hist lib v P d a) {k : Bytes} {as : List Act} (s : Session lib v P d a as d') (hk : KeyName k) (has : ∀ y ∈ as, ¬ y.gives k) :
    getOne lib d' k = getOne lib d k ∧ getMul lib d' k = getMul lib d k := by
  rw [C23_one_partial ht L T K (h.session s) hk, C23_one_partial ht L T K h hk, C23_list_partial ht L T K (h.session s) hk, C23_list_partial ht L T K h hk, vals_kept as has]
  exact ⟨rfl, rfl⟩

open Sample in
/-- Two sessions in which `k1` is given a value twice, and `k2` a list. -/
example : Hist (lib false) env (· ∈ dbs) disk2 abs2 ∧ KeyName (b "k1") ∧ getOne (lib false) disk2 (b "k1") = some (some [9]) ∧
    getMul (lib false) disk2 (b "k2") = some (some [[1], [], [2, 3]]) :=
  ⟨hist2, key1, by decide +kernel, by decide +kernel⟩

open Sample in
example : Session (lib false) env (· ∈ dbs) disk1 abs1 ([] ++ .one (b "K1") [9] :: acts2.tail) disk2 ∧ (∀ y ∈ acts2.tail, ¬ y.gives (b "K1")) ∧
    (∀ y ∈ acts2, ¬ y.gives (b "k2")) ∧ getOne (lib false) disk1 (b "k1") = some (some [1, 2, 3]) := by
  refine ⟨session2, ?_, ?_, by decide +kernel⟩
  · intro y hy
    simp only [acts2, List.tail_cons, List.mem_cons, List.not_mem_nil, or_false] at hy
    rcases hy with rfl | rfl <;> exact id
  · intro y hy
    simp only [acts2, List.mem_cons, List.not_mem_nil, or_false] at hy
    rcases hy with rfl | rfl | rfl
    · show ¬ fold _ = fold _; decide +kernel
    · exact id
    · exact id

open Sample in
/-- C23 fails for an empty value and an empty list: they read as nothing. -/
theorem C23_violated_empty : ∃ d d', session (lib false) env {} [.one (b "k") [1], .one (b "k") []] = some d ∧ getOne (lib false) d (b "k") = some none ∧
    session (lib false) env {} [.mul (b "k") [[1]], .mul (b "k") []] = some d' ∧ getMul (lib false) d' (b "k") = some none :=
  ⟨_, _, run_of (by decide +kernel), by decide +kernel, run_of (by decide +kernel), by decide +kernel⟩

open Sample in
/-- C23 fails for a key with a comma: the file it was written to cannot be read any more, and no other key in it. -/
theorem C23_violated_comma : ∃ d, session (lib false) env {} [.one (b "k") [1], .one (b "a,b") [2]] = some d ∧ getOne (lib false) d (b "a,b") = none ∧
    getOne (lib false) d (b "k") = none :=
  ⟨_, run_of (by decide +kernel), by decide +kernel, by decide +kernel⟩

open Sample in
/-- C23 fails for a key with a dot: its value and the records of a key and a table are the same entry. -/
theorem C23_violated_dot : ∃ d, session (lib false) env {} [.keys (b "a"), .tabs [⟨b "info", infoDb⟩], .one (b "a.info") [1], .rows (b "a") (b "info") [1, 2, 3, 4]] = some d ∧
    getOne (lib false) d (b "a.info") = some none :=
  ⟨_, run_of (by decide +kernel), by decide +kernel⟩

open Sample in
/-- C23 fails for a key with a blank at its end. -/
theorem C23_violated_blank : ∃ d, session (lib false) env {} [.one (b "a ") [1]] = some d ∧ getOne (lib false) d (b "a ") = none :=
  ⟨_, run_of (by decide +kernel), by decide +kernel⟩

open Sample in
/-- C23 fails when the library logs what it reads: with a value in it the index cannot be read. -/
theorem C23_violated_trace : (session (lib true) env {} [.one (b "k") [1]]).bind (fun d => getOne (lib true) d (b "k")) = none := by decide +kernel

end Sis.Sdb
