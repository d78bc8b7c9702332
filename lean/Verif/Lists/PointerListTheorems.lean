import Verif.Lists.PointerListLemmas
/-
C62: the pointer array behaves as a list and frees each element it drops exactly once.
C45: the number array.
-/
namespace Sis.PL
open Sis.SL (intMax)

variable {α : Type} [DecidableEq α]

/-- The calls of the pointer array. -/
inductive Op (α : Type)
  | push (x : α)
  | update (i : Int) (x : α)
  | insert (i : Int) (x : α)
  | get (i : Int)
  | delete (i n : Int)
  | indexof (x : α)
  | findAndDelete (x : α)
  | set (x : α)
  | clear

/-- What a call answers. -/
inductive Out (α : Type)
  | num (n : Int)
  | val (r : Option α)
  | unit
deriving DecidableEq

/-- The program: one call, its answer and the elements freed by it. -/
def step (s : PList α) : Op α → Option (PList α × Out α × List α)
  | .push x => (push s x).map fun p => (p.1, .num p.2, [])
  | .update i x => (update s i x).map fun p => (p.1, .num p.2.1, p.2.2)
  | .insert i x => (insert s i x).map fun p => (p.1, .num p.2, [])
  | .get i => (get s i).map fun r => (s, .val r, [])
  | .delete i n => (delete s i n).map fun p => (p.1, .num p.2.1, p.2.2)
  | .indexof x => (indexof s x).map fun r => (s, .num r, [])
  | .findAndDelete x => (findAndDelete s x).map fun p => (p.1, .num p.2.1, p.2.2)
  | .set x => (set s x).map fun p => (p.1, .num p.2.1, p.2.2)
  | .clear => (clear s).map fun p => (p.1, .unit, p.2)

/-- Specification: the same calls on a plain list, with the elements that leave it.  Positions outside the list are
refused. -/
def specStep (l : List α) : Op α → List α × Out α × List α
  | .push x => (l ++ [x], .num (l.length + 1), [])
  | .update i x => if 0 ≤ i ∧ i < l.length then (l.set i.toNat x, .num i, (l[i.toNat]?).toList) else (l, .num (-1), [])
  | .insert i x =>
    if l = [] then ([x], .num 1, [])
    else if 0 ≤ i ∧ i < l.length then (l.take i.toNat ++ x :: l.drop i.toNat, .num i, []) else (l, .num (-1), [])
  | .get i => (l, .val (if 0 ≤ i then l[i.toNat]? else none), [])
  | .delete i n =>
    if 0 ≤ i ∧ 1 ≤ n ∧ i + n ≤ l.length then
      (l.take i.toNat ++ l.drop (i + n).toNat, .num n, (l.drop i.toNat).take n.toNat)
    else (l, .num 0, [])
  | .indexof x => (l, .num (if x ∈ l then l.idxOf x else -1), [])
  | .findAndDelete x => if x ∈ l then (l.erase x, .num (l.idxOf x), [x]) else (l, .num 0, [])
  | .set x => if x ∈ l then (l, .num (l.idxOf x), []) else (l ++ [x], .num (-1), [])
  | .clear => ([], .unit, l)

/-- The program on a history: the final array, the answers and all elements freed. -/
def run (s : PList α) : List (Op α) → Option (PList α × List (Out α) × List α)
  | [] => some (s, [], [])
  | o :: os => do
    let (s, a, f) ← step s o
    let (s, as, fs) ← run s os
    some (s, a :: as, f ++ fs)

/-- The specification on a history. -/
def specRun (l : List α) : List (Op α) → List α × List (Out α) × List α
  | [] => (l, [], [])
  | o :: os =>
    let r := specStep l o
    let q := specRun r.1 os
    (q.1, r.2.1 :: q.2.1, r.2.2 ++ q.2.2)

/-- A call that stores the given pointer once more although it may be there already. -/
def Op.isSet : Op α → Bool
  | .set _ => true
  | _ => false

theorem take_one_drop (l : List α) (i : Nat) : (l.drop i).take 1 = (l[i]?).toList := by
  by_cases h : i < l.length
  · rw [List.drop_eq_getElem_cons h, List.getElem?_eq_getElem h]; rfl
  · simp [List.drop_eq_nil_iff.2 (Nat.not_lt.1 h), List.getElem?_eq_none (Nat.not_lt.1 h)]

theorem firstIdx_eq (l : List α) (x : α) : firstIdx l x = if x ∈ l then (l.idxOf x : Int) else -1 := by
  unfold firstIdx
  by_cases h : x ∈ l
  · rw [if_pos h]
    have : l.findIdx? (· == x) = some (l.idxOf x) := by
      rw [List.findIdx?_eq_some_iff_getElem]
      have hlt := List.idxOf_lt_length_iff.2 h
      refine ⟨hlt, by simp, ?_⟩
      intro j hj
      have := List.not_of_lt_findIdx (p := (· == x)) (xs := l) (i := j) hj
      simpa using this
    rw [this]
  · rw [if_neg h]
    have : l.findIdx? (· == x) = none := by
      rw [List.findIdx?_eq_none_iff]
      intro y hy
      simp only [beq_eq_false_iff_ne, ne_eq]
      intro he; exact h (he ▸ hy)
    rw [this]

theorem freed_nil (vf : Bool) : freed vf ([] : List α) = [] := by cases vf <;> rfl

theorem step_spec {s : PList α} {l : List α} (r : Rep s l) (o : Op α) (hsz : (l.length + 1281) * 8 < intMax)
    (hset : s.vf = true → o.isSet = false) :
    ∃ s', step s o = some (s', (specStep l o).2.1, freed s.vf (specStep l o).2.2) ∧ Rep s' (specStep l o).1 ∧ s'.vf = s.vf ∧
      (specStep l o).1.length ≤ l.length + 1 := by
  cases o with
  | push x =>
    obtain ⟨s', h1, h2, h3⟩ := push_spec r x hsz
    exact ⟨s', by simp [step, h1, specStep, freed_nil], h2, h3, by simp [specStep]⟩
  | update i x =>
    obtain ⟨s', h1, h2, h3⟩ := update_spec r i x
    by_cases h : 0 ≤ i ∧ i < l.length
    · simp only [if_pos h] at h1 h2
      exact ⟨s', by simp only [step, h1, specStep, if_pos h, Option.map_some, take_one_drop],
        by simpa only [specStep, if_pos h] using h2, h3, by simp [specStep, if_pos h]⟩
    · simp only [if_neg h] at h1 h2
      exact ⟨s', by simp only [step, h1, specStep, if_neg h, Option.map_some, freed_nil],
        by simpa only [specStep, if_neg h] using h2, h3, by simp [specStep, if_neg h]⟩
  | insert i x =>
    obtain ⟨s', h1, h2, h3⟩ := insert_spec r i x hsz
    by_cases hl : l = []
    · subst hl
      exact ⟨s', by simp [step, h1, specStep, freed_nil], by simpa [specStep] using h2, h3, by simp [specStep]⟩
    · have hl' : ¬ l.length < 1 := by
        intro h; exact hl (List.length_eq_zero_iff.1 (by omega))
      simp only [if_neg hl'] at h1 h2
      by_cases h : 0 ≤ i ∧ i < l.length
      · rw [if_neg (by omega)] at h1 h2
        exact ⟨s', by simp only [step, h1, specStep, if_neg hl, if_pos h, Option.map_some, freed_nil],
          by simpa only [specStep, if_neg hl, if_pos h] using h2, h3, by simp [specStep, if_neg hl, if_pos h]; omega⟩
      · rw [if_pos (by omega)] at h1 h2
        exact ⟨s', by simp only [step, h1, specStep, if_neg hl, if_neg h, Option.map_some, freed_nil],
          by simpa only [specStep, if_neg hl, if_neg h] using h2, h3, by simp [specStep, if_neg hl, if_neg h]⟩
  | get i => exact ⟨s, by simp [step, get_spec r i, specStep, freed_nil], r, rfl, by simp [specStep]⟩
  | delete i n =>
    obtain ⟨s', h1, h2, h3⟩ := delete_spec r i n
    by_cases h : 0 ≤ i ∧ 1 ≤ n ∧ i + n ≤ l.length
    · have h' : ¬ (i < 0 ∨ n < 1 ∨ i + n > l.length) := by omega
      simp only [if_neg h'] at h1 h2
      exact ⟨s', by simp only [step, h1, specStep, if_pos h, Option.map_some],
        by simpa only [specStep, if_pos h] using h2, h3, by simp [specStep, if_pos h]; omega⟩
    · have h' : i < 0 ∨ n < 1 ∨ i + n > l.length := by omega
      simp only [if_pos h'] at h1 h2
      exact ⟨s', by simp only [step, h1, specStep, if_neg h, Option.map_some, freed_nil],
        by simpa only [specStep, if_neg h] using h2, h3, by simp [specStep, if_neg h]⟩
  | indexof x =>
    exact ⟨s, by simp [step, indexof_spec r x, specStep, freed_nil, firstIdx_eq], r, rfl, by simp [specStep]⟩
  | findAndDelete x =>
    obtain ⟨s', h1, h2, h3⟩ := findAndDelete_spec r x
    rw [firstIdx_eq] at h1 h2
    by_cases h : x ∈ l
    · have hlt := List.idxOf_lt_length_iff.2 h
      simp only [if_pos h] at h1 h2
      rw [if_neg (by omega)] at h1 h2
      rw [if_neg (by omega)] at h1
      have e1 : ((l.idxOf x : Nat) : Int).toNat = l.idxOf x := rfl
      rw [e1] at h1 h2
      have e2 : (l.drop (l.idxOf x)).take 1 = [x] := by
        rw [take_one_drop, List.getElem?_eq_getElem hlt]
        simp
      rw [e2] at h1
      rw [← List.erase_eq_eraseIdx_of_idxOf rfl] at h2
      refine ⟨s', by simp only [step, h1, specStep, if_pos h, Option.map_some],
        by simpa only [specStep, if_pos h] using h2, h3, ?_⟩
      simp only [specStep, if_pos h]
      exact Nat.le_succ_of_le List.length_erase_le
    · simp only [if_neg h] at h1 h2
      exact ⟨s', by simpa [step, h1, specStep, if_neg h, freed_nil] using h1,
        by simpa [specStep, if_neg h] using h2, h3, by simp [specStep, if_neg h]⟩
  | set x =>
    have hvf : s.vf = false := by
      cases hv : s.vf with
      | false => rfl
      | true => exact absurd (hset hv) (by simp [Op.isSet])
    simp only [step, set, indexof_spec r x, firstIdx_eq]
    by_cases h : x ∈ l
    · have hlt := List.idxOf_lt_length_iff.2 h
      obtain ⟨s', h1, h2, h3⟩ := update_spec r (l.idxOf x : Int) x
      rw [if_pos (by omega), if_pos (by omega)] at h1
      rw [if_pos (by omega)] at h2
      simp only [if_pos h, Option.bind_eq_bind, Option.bind_some]
      rw [if_neg (by omega), h1]
      have e1 : ((l.idxOf x : Nat) : Int).toNat = l.idxOf x := rfl
      rw [e1] at h2
      have e2 : l.set (l.idxOf x) x = l := by
        conv => lhs; arg 3; rw [← List.getElem_idxOf hlt]
        exact List.set_getElem_self hlt
      rw [e2] at h2
      refine ⟨s', by simp [specStep, if_pos h, hvf, freed], by simpa [specStep, if_pos h] using h2, h3, by simp [specStep, if_pos h]⟩
    · obtain ⟨s', h1, h2, h3⟩ := push_spec r x hsz
      simp only [if_neg h, Option.bind_eq_bind, Option.bind_some]
      rw [if_pos (by omega), h1]
      exact ⟨s', by simp [specStep, if_neg h, freed_nil], by simpa [specStep, if_neg h] using h2, h3, by simp [specStep, if_neg h]⟩
  | clear =>
    obtain ⟨s', h1, h2, h3⟩ := clear_spec r
    exact ⟨s', by simp [step, h1, specStep], h2, h3, by simp [specStep]⟩

theorem freed_append (vf : Bool) (a b : List α) : freed vf (a ++ b) = freed vf a ++ freed vf b := by cases vf <;> rfl

theorem run_spec {s : PList α} {l : List α} (r : Rep s l) (os : List (Op α))
    (hsz : (l.length + os.length + 1281) * 8 < intMax) (hset : s.vf = true → ∀ o ∈ os, o.isSet = false) :
    ∃ s', run s os = some (s', (specRun l os).2.1, freed s.vf (specRun l os).2.2) ∧ Rep s' (specRun l os).1 := by
  induction os generalizing s l with
  | nil => exact ⟨s, by simp [run, specRun, freed_nil], r⟩
  | cons o os ih =>
    simp only [List.length_cons] at hsz
    obtain ⟨s1, h1, h2, h3, h4⟩ := step_spec r o (Nat.lt_of_le_of_lt (Nat.mul_le_mul_right 8 (by omega)) hsz) (fun h => hset h o (List.mem_cons_self ..))
    obtain ⟨s2, h5, h6⟩ := ih h2 (Nat.lt_of_le_of_lt (Nat.mul_le_mul_right 8 (by omega)) hsz) (fun h o' ho' => hset (by rw [← h3]; exact h) o' (List.mem_cons_of_mem _ ho'))
    refine ⟨s2, ?_, h6⟩
    simp only [run, h1, Option.bind_eq_bind, Option.bind_some, h5, specRun, freed_append, h3]

/-- C62 without `set` on a list that owns its elements: every history of calls answers what the same calls answer on a
plain list, stays inside its buffer and frees exactly the elements that leave the list. -/
theorem C62_pointer_list_is_list_partial (vf : Bool) (os : List (Op α)) (hsz : (os.length + 1281) * 8 < intMax)
    (hset : vf = true → ∀ o ∈ os, o.isSet = false) :
    (run (create vf) os).map (·.2) =
      some ((specRun [] os).2.1, if vf then (specRun [] os).2.2 else []) := by
  obtain ⟨s', h, _⟩ := run_spec (rep_create vf) os (by simpa using hsz) hset
  rw [h]; rfl

example : (∀ o ∈ ([.push 5, .push 6, .insert 0 7, .update 1 9, .findAndDelete 6] : List (Op Nat)), o.isSet = false) ∧
    (run (create true) ([.push 5, .push 6, .insert 0 7, .update 1 9, .findAndDelete 6] : List (Op Nat))).map (·.2) =
      some ([.num 1, .num 2, .num 0, .num 1, .num 2], [5, 6]) := by decide +kernel

/-- The element a call brings into the list, to be read off its answer. -/
def brought : Op α → Out α → List α
  | .push x, _ => [x]
  | .update _ x, .num n => if n = -1 then [] else [x]
  | .insert _ x, .num n => if n = -1 then [] else [x]
  | .set x, .num n => if n = -1 then [x] else []
  | _, _ => []

theorem perm_step (l : List α) (o : Op α) :
    ((specStep l o).1 ++ (specStep l o).2.2).Perm (l ++ brought o (specStep l o).2.1) := by
  cases o with
  | push x => simp [specStep, brought]
  | update i x =>
    simp only [specStep]
    by_cases h : 0 ≤ i ∧ i < l.length
    · simp only [if_pos h, brought]
      rw [if_neg (by omega)]
      have hi : i.toNat < l.length := by omega
      obtain ⟨l1, y, l2, rfl, hl1⟩ : ∃ l1 y l2, l = l1 ++ y :: l2 ∧ l1.length = i.toNat :=
        ⟨l.take i.toNat, l[i.toNat], l.drop (i.toNat + 1), by simp, by simp; omega⟩
      rw [← hl1]
      simp only [List.set_append_right _ _ (Nat.le_refl l1.length), Nat.sub_self, List.set_cons_zero]
      simp only [List.getElem?_append_right (Nat.le_refl l1.length), Nat.sub_self, List.getElem?_cons_zero, Option.toList_some]
      rw [List.append_assoc, List.append_assoc]
      refine List.Perm.append_left l1 ?_
      have : (x :: l2 ++ [y]).Perm (y :: (x :: l2)) := List.perm_append_singleton y (x :: l2)
      refine this.trans ?_
      refine List.Perm.cons y ?_
      exact (List.perm_append_singleton x l2).symm
    · simp [if_neg h, brought]
  | insert i x =>
    simp only [specStep]
    by_cases hl : l = []
    · subst hl; simp [brought]
    · simp only [if_neg hl]
      by_cases h : 0 ≤ i ∧ i < l.length
      · simp only [if_pos h, brought]
        rw [if_neg (by omega), List.append_nil]
        have h1 := List.perm_middle (a := x) (l₁ := l.take i.toNat) (l₂ := l.drop i.toNat)
        rw [List.take_append_drop] at h1
        exact h1.trans (List.perm_append_singleton x l).symm
      · simp [if_neg h, brought]
  | get i => simp [specStep, brought]
  | delete i n =>
    simp only [specStep, brought, List.append_nil]
    by_cases h : 0 ≤ i ∧ 1 ≤ n ∧ i + n ≤ l.length
    · simp only [if_pos h]
      have hkm : (i + n).toNat = i.toNat + n.toNat := by omega
      rw [hkm, List.append_assoc]
      have h1 : l = l.take i.toNat ++ ((l.drop i.toNat).take n.toNat ++ l.drop (i.toNat + n.toNat)) := by
        have a1 := List.take_append_drop i.toNat l
        have a2 := List.take_append_drop n.toNat (l.drop i.toNat)
        rw [List.drop_drop] at a2
        rw [a2, a1]
      conv => rhs; rw [h1]
      exact List.Perm.append_left _ List.perm_append_comm
    · simp [if_neg h]
  | indexof x => simp [specStep, brought]
  | findAndDelete x =>
    simp only [specStep, brought, List.append_nil]
    by_cases h : x ∈ l
    · simp only [if_pos h]
      exact (List.perm_append_singleton x _).trans (List.perm_cons_erase h).symm
    · simp [if_neg h]
  | set x =>
    simp only [specStep]
    by_cases h : x ∈ l
    · simp only [if_pos h, brought]
      rw [if_neg (by omega)]
    · simp [if_neg h, brought]
  | clear => simp [specStep, brought]

theorem perm_run (l : List α) (os : List (Op α)) :
    ((specRun l os).1 ++ (specRun l os).2.2).Perm (l ++ ((os.zip (specRun l os).2.1).map fun p => brought p.1 p.2).flatten) := by
  induction os generalizing l with
  | nil => simp [specRun]
  | cons o os ih =>
    simp only [specRun, List.zip_cons_cons, List.map_cons, List.flatten_cons]
    have h1 := ih (specStep l o).1
    have h2 := perm_step l o
    generalize (specStep l o).1 = l1 at *
    generalize (specStep l o).2.2 = f at *
    generalize brought o (specStep l o).2.1 = b at *
    generalize (specRun l1 os).1 = q1 at *
    generalize (specRun l1 os).2.2 = q2 at *
    generalize (((os.zip (specRun l1 os).2.1).map fun p => brought p.1 p.2).flatten) = bb at *
    rw [← List.append_assoc l b bb]
    refine List.Perm.trans ?_ (List.Perm.append_right bb h2)
    have : (q1 ++ (f ++ q2)).Perm ((q1 ++ q2) ++ f) := by
      rw [List.append_assoc]; exact List.Perm.append_left _ List.perm_append_comm
    refine this.trans ?_
    refine (List.Perm.append_right f h1).trans ?_
    rw [List.append_assoc, List.append_assoc]
    exact List.Perm.append_left _ List.perm_append_comm

/-- C62, ownership: after any history (without `set`) on a list that owns its elements, the elements it accepted are, one
for one, those still in the list and those freed: nothing is freed twice and nothing is lost. -/
theorem C62_freed_exactly_once_partial (os : List (Op α)) (hsz : (os.length + 1281) * 8 < intMax)
    (hset : ∀ o ∈ os, o.isSet = false) :
    ∃ s' outs fs, run (create true) os = some (s', outs, fs) ∧
      ∃ l : List α, (∀ i : Nat, get s' i = some l[i]?) ∧
        (l ++ fs).Perm ((os.zip outs).map fun p => brought p.1 p.2).flatten := by
  obtain ⟨s', h, hr⟩ := run_spec (rep_create true) os (by simpa using hsz) (fun _ => hset)
  refine ⟨s', _, _, h, (specRun [] os).1, ?_, ?_⟩
  · intro i
    rw [get_spec hr, if_pos (by omega)]; rfl
  · have := perm_run ([] : List α) os
    simpa [freed, create] using this

/-- C62 fails for `set` on a list that owns its elements: setting a pointer that is already there frees it and keeps it. -/
theorem C62_set_violated :
    (run (create true) ([.push 5, .set 5] : List (Op Nat))).map (fun r => (r.2.2, get r.1 0)) =
      some ([5], some (some 5)) := by decide +kernel

/-- C45 for numbers that fit 32 bits: after any history of an integer list, reading position `i` gives the number that the
same history leaves at position `i` of a plain list, if that number is between -2147483648 and 2147483647. -/
theorem C45_int_list_get_partial (os : List (Op Int)) (hsz : (os.length + 1281) * 8 < intMax) (i : Nat) (v : Int)
    (hv : (specRun [] os).1[i]? = some v) (hlo : -2147483648 ≤ v) (hhi : v ≤ 2147483647) :
    ∃ s' outs fs, run (create false) os = some (s', outs, fs) ∧ intGet s' i = some v := by
  obtain ⟨s', h, hr⟩ := run_spec (rep_create false) os (by simpa using hsz) (fun h => absurd h (by decide))
  refine ⟨s', _, _, h, ?_⟩
  unfold intGet
  rw [get_spec hr, if_pos (by omega)]
  have : ((i : Int).toNat) = i := rfl
  rw [this, hv]
  simp only [Option.map_some, Option.some.injEq]
  show (v + 2147483648) % 4294967296 - 2147483648 = v
  omega

example : (specRun [] [.push 7, .push (-3), .insert 0 12345]).1[2]? = some (-3 : Int) := by decide

/-- C45 fails: 2147483648 is read back as -2147483648. -/
theorem C45_truncation_violated :
    (run (create false) ([.push 2147483648] : List (Op Int))).map (fun r => intGet r.1 0) = some (some (-2147483648)) := by
  decide +kernel

end Sis.PL
