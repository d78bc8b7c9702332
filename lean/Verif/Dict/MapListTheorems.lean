import Verif.Dict.MapList
import Verif.Dict.DictTheorems
import Verif.Lists.PointerListLemmas
/-
C41: in the named list, lookup by name and lookup by position agree, and positions never change.
-/
namespace Sis.ML
open Sis.Dict (Ty Dict Inv ents Absent Distinct)
open Sis.PL (PList freed)
open Sis.SL (intMax)

variable {K α : Type}

/-- The calls of the named list. -/
inductive Op (K α : Type)
  | set (k : K) (v : α)
  | get (k : K)
  | index (k : K)
  | geti (i : Int)
  | size
  | clear

/-- What a call answers. -/
inductive Out (α : Type)
  | num (n : Int)
  | val (r : Option α)
  | unit
deriving DecidableEq

/-- The program: one call, its answer and the elements freed by it. -/
def step (ty : Ty K) (m : MList K α) : Op K α → Option (MList K α × Out α × List α)
  | .set k v => (set ty m k v).map fun r => (r.1, .num r.2.1, r.2.2)
  | .get k => (get ty m k).map fun r => (r.1, .val r.2, [])
  | .index k => (getIndex ty m k).map fun r => (r.1, .num r.2, [])
  | .geti i => (geti m i).map fun r => (m, .val r, [])
  | .size => some (m, .num (size m), [])
  | .clear => (clear m).map fun r => (r.1, .unit, r.2)

/-- The program on a history. -/
def run (ty : Ty K) (m : MList K α) : List (Op K α) → Option (MList K α × List (Out α) × List α)
  | [] => some (m, [], [])
  | o :: os => (step ty m o).bind fun r => (run ty r.1 os).map fun q => (q.1, r.2.1 :: q.2.1, r.2.2 ++ q.2.2)

/-! Specification: a list of named values.  Setting a name that is there replaces the value where it is, setting a new name
appends. -/

/-- The position of a name. -/
def pos (same : K → K → Bool) (l : List (K × α)) (k : K) : Option Nat := l.findIdx? fun e => same k e.1

/-- One call. -/
def specStep (same : K → K → Bool) (l : List (K × α)) : Op K α → List (K × α) × Out α × List α
  | .set k v => match pos same l k with
    | some i => (l.modify i fun e => (e.1, v), .num i, ((l[i]?).map (·.2)).toList)
    | none => (l ++ [(k, v)], .num l.length, [])
  | .get k => (l, .val ((pos same l k).bind fun i => (l[i]?).map (·.2)), [])
  | .index k => (l, .num (match pos same l k with
    | some i => i
    | none => -1), [])
  | .geti i => (l, .val (if 0 ≤ i then (l[i.toNat]?).map (·.2) else none), [])
  | .size => (l, .num l.length, [])
  | .clear => ([], .unit, l.map (·.2))

/-- A history. -/
def specRun (same : K → K → Bool) (l : List (K × α)) : List (Op K α) → List (K × α) × List (Out α) × List α
  | [] => (l, [], [])
  | o :: os =>
    let r := specStep same l o
    let q := specRun same r.1 os
    (q.1, r.2.1 :: q.2.1, r.2.2 ++ q.2.2)

/-! Proof. -/

/-- The names with their positions. -/
def idx (l : List (K × α)) : List (K × Int) := l.zipIdx.map fun p => (p.1.1, (p.2 : Int))

theorem mem_idx {l : List (K × α)} {e : K × Int} : e ∈ idx l ↔ ∃ (i : Nat) (a : K × α), l[i]? = some a ∧ e = (a.1, (i : Int)) := by
  unfold idx
  simp only [List.mem_map, Prod.exists]
  constructor
  · rintro ⟨a, b, i, h, rfl⟩
    exact ⟨i, a, b, by simpa using List.mem_zipIdx_iff_getElem?.1 h, rfl⟩
  · rintro ⟨i, a, b, h, rfl⟩
    exact ⟨a, b, i, List.mem_zipIdx_iff_getElem?.2 h, rfl⟩

structure Rep (ty : Ty K) (m : MList K α) (l : List (K × α)) : Prop where
  inv : Inv ty m.map
  map : (ents m.map).Perm (idx l)
  list : PL.Rep m.list (l.map (·.2))
  uniq : l.Pairwise fun a b => ty.same a.1 b.1 = false

theorem pos_none {ty : Ty K} {l : List (K × α)} {k : K} (h : Absent ty k (idx l)) : pos ty.same l k = none := by
  unfold pos
  rw [List.findIdx?_eq_none_iff]
  intro e he
  obtain ⟨i, hi, he⟩ := List.getElem_of_mem he
  exact h (e.1, (i : Int)) (mem_idx.2 ⟨i, e, by rw [List.getElem?_eq_getElem hi, he], rfl⟩)

theorem pos_some {ty : Ty K} (ok : ty.Ok) {l : List (K × α)} (hu : l.Pairwise fun a b => ty.same a.1 b.1 = false) {k : K} {i : Nat} {a : K × α}
    (h : l[i]? = some a) (hk : ty.same k a.1 = true) : pos ty.same l k = some i := by
  unfold pos
  obtain ⟨hi, ha⟩ := List.getElem?_eq_some_iff.1 h
  rw [List.findIdx?_eq_some_iff_getElem]
  refine ⟨hi, by rw [ha]; exact hk, ?_⟩
  intro j hj
  have := List.pairwise_iff_getElem.1 hu j i (by omega) hi hj
  rw [ha] at this
  intro h2
  rw [ok.trans _ _ _ (ok.symm _ _ h2) hk] at this
  cases this

theorem intGet_spec {ty : Ty K} (ok : ty.Ok) {m : MList K α} {l : List (K × α)} (r : Rep ty m l) (k : K) :
    ∃ d, intGet ty m.map k = some (d, match pos ty.same l k with
      | some i => (i : Int)
      | none => -1) ∧ Inv ty d ∧ (ents d).Perm (idx l) := by
  obtain ⟨d', o, e1, e2, e3, _, _, e6⟩ := Dict.find_spec ok m.map k r.inv
  unfold intGet
  rw [e1]
  refine ⟨d', ?_, e2, e3.trans r.map⟩
  rcases e6 with ⟨ho, hab⟩ | ⟨e, R, ho, hk, hp⟩
  · rw [ho, pos_none (hab.perm r.map)]; rfl
  · have hin : e ∈ idx l := r.map.mem_iff.1 (hp.mem_iff.2 (by simp))
    obtain ⟨i, a, hi, he⟩ := mem_idx.1 hin
    rw [ho, pos_some ok r.uniq hi (by rw [he] at hk; exact hk), he]; rfl

theorem pos_lt {same : K → K → Bool} {l : List (K × α)} {k : K} {i : Nat} (h : pos same l k = some i) : i < l.length := by
  unfold pos at h
  exact (List.findIdx?_eq_some_iff_getElem.1 h).1

theorem idx_append (l : List (K × α)) (k : K) (v : α) : idx (l ++ [(k, v)]) = idx l ++ [(k, (l.length : Int))] := by
  unfold idx
  rw [List.zipIdx_append]
  simp

theorem idx_modify (l : List (K × α)) (i : Nat) (v : α) : idx (l.modify i fun e => (e.1, v)) = idx l := by
  apply List.ext_getElem?
  intro j
  unfold idx
  simp only [List.getElem?_map, List.getElem?_zipIdx, List.getElem?_modify]
  cases l[j]? with
  | none => rfl
  | some a => by_cases h : i = j <;> simp [h]

theorem keys_modify (l : List (K × α)) (i : Nat) (v : α) : (l.modify i fun e => (e.1, v)).map (·.1) = l.map (·.1) := by
  apply List.ext_getElem?
  intro j
  simp only [List.getElem?_map, List.getElem?_modify]
  cases l[j]? with
  | none => rfl
  | some a => by_cases h : i = j <;> simp [h]

theorem vals_modify (l : List (K × α)) (i : Nat) (v : α) (hi : i < l.length) :
    (l.modify i fun e => (e.1, v)).map (·.2) = (l.map (·.2)).set i v := by
  apply List.ext_getElem?
  intro j
  simp only [List.getElem?_map, List.getElem?_modify, List.getElem?_set, List.length_map]
  by_cases h : i = j
  · subst h
    rw [if_pos rfl, if_pos hi, List.getElem?_eq_getElem hi]
    simp
  · rw [if_neg h]
    cases l[j]? <;> simp [h]

theorem uniq_modify {ty : Ty K} {l : List (K × α)} (i : Nat) (v : α) (hu : l.Pairwise fun a b => ty.same a.1 b.1 = false) :
    (l.modify i fun e => (e.1, v)).Pairwise fun a b => ty.same a.1 b.1 = false := by
  have h1 : (l.map (·.1)).Pairwise fun a b => ty.same a b = false := List.pairwise_map.2 hu
  rw [← keys_modify l i v] at h1
  exact List.pairwise_map.1 h1

theorem take_one_drop' (l : List α) (i : Nat) : (l.drop i).take 1 = (l[i]?).toList := by
  by_cases h : i < l.length
  · rw [List.drop_eq_getElem_cons h, List.getElem?_eq_getElem h]; rfl
  · simp [List.drop_eq_nil_iff.2 (Nat.not_lt.1 h), List.getElem?_eq_none (Nat.not_lt.1 h)]

theorem freed_nil (vf : Bool) : freed vf ([] : List α) = [] := by cases vf <;> rfl

theorem step_spec {ty : Ty K} (ok : ty.Ok) {m : MList K α} {l : List (K × α)} (r : Rep ty m l) (o : Op K α)
    (hsz : (l.length + 1281) * 8 < intMax) :
    ∃ m', step ty m o = some (m', (specStep ty.same l o).2.1, freed m.list.vf (specStep ty.same l o).2.2) ∧
      Rep ty m' (specStep ty.same l o).1 ∧ m'.list.vf = m.list.vf ∧ (specStep ty.same l o).1.length ≤ l.length + 1 := by
  cases o with
  | set k v =>
    obtain ⟨d, h1, h2, h3⟩ := intGet_spec ok r k
    simp only [step, set, h1, specStep, Option.bind_eq_bind, Option.bind_some]
    cases hp : pos ty.same l k with
    | some i =>
      have hlt := pos_lt hp
      obtain ⟨p', u1, u2, u3⟩ := PL.update_spec r.list (i : Int) v
      have hc : 0 ≤ (i : Int) ∧ (i : Int) < (l.map (·.2)).length := by rw [List.length_map]; omega
      rw [if_pos hc] at u1 u2
      simp only [if_pos hc] at u1 u2
      rw [if_pos (by simp only; omega)]
      simp only [u1, Option.bind_some, Option.map_some]
      refine ⟨⟨d, p'⟩, ?_, ⟨h2, ?_, ?_, uniq_modify i v r.uniq⟩, u3, by simp⟩
      · rw [Int.toNat_natCast, take_one_drop']
        simp
      · rw [idx_modify]; exact h3
      · rw [vals_modify l i v hlt]; exact u2
    | none =>
      rw [if_neg (by simp)]
      have hlen : l.length < 2 ^ 61 := by unfold intMax at hsz; omega
      have hsize : Dict.size d < 2 ^ 61 := by
        rw [Dict.size_eq h2, h3.length_eq]; simp [idx]; exact hlen
      obtain ⟨d', new, old, s1, s2⟩ := Dict.set_spec ok d k (m.list.count : Int) h2 hsize
      obtain ⟨p', u1, u2, u3⟩ := PL.push_spec r.list v (by rw [List.length_map]; exact hsz)
      simp only [s1, u1, Option.bind_some, Option.map_some]
      have hab : Absent ty k (ents d) := by
        intro e he
        obtain ⟨i, a, hi, hee⟩ := Sis.ML.mem_idx.1 (h3.mem_iff.1 he)
        by_cases hk : ty.same k e.1 = true
        · rw [pos_some ok r.uniq hi (by rw [hee] at hk; exact hk)] at hp
          cases hp
        · simpa using hk
      have hchg : (ents d').Perm ((k, (m.list.count : Int)) :: ents d) := by
        rcases s2.change with ⟨_, _, _, h⟩ | ⟨_, e, R, hk, _, hperm, _⟩
        · exact h
        · have := hab e (hperm.mem_iff.2 (by simp))
          rw [hk] at this; cases this
      have hcnt : m.list.count = l.length := by rw [r.list.1, List.length_map]
      refine ⟨⟨d', p'⟩, ?_, ⟨s2.inv, ?_, ?_, ?_⟩, u3, by simp⟩
      · have : p'.count = l.length + 1 := by rw [u2.1]; simp
        simp [this, freed_nil]
      · rw [hcnt] at hchg
        rw [idx_append]
        exact hchg.trans ((List.Perm.cons _ h3).trans (List.perm_append_singleton _ _).symm)
      · simpa using u2
      · rw [List.pairwise_append]
        refine ⟨r.uniq, List.pairwise_singleton _ _, ?_⟩
        intro a ha b hb
        obtain ⟨i, hi, he⟩ := List.getElem_of_mem ha
        have hm : (a.1, (i : Int)) ∈ ents d := h3.mem_iff.2 (mem_idx.2 ⟨i, a, by rw [List.getElem?_eq_getElem hi, he], rfl⟩)
        have h1 := hab _ hm
        simp only [List.mem_singleton] at hb
        rw [hb]
        exact Dict.same_symm_false ok h1
  | get k =>
    obtain ⟨d, h1, h2, h3⟩ := intGet_spec ok r k
    refine ⟨⟨d, m.list⟩, ?_, ⟨h2, h3, r.list, r.uniq⟩, rfl, by simp [specStep]⟩
    simp only [step, get, h1, specStep, Option.bind_eq_bind, Option.bind_some, freed_nil]
    have hcnt : m.list.count = l.length := by rw [r.list.1, List.length_map]
    cases hp : pos ty.same l k with
    | some i =>
      have hlt := pos_lt hp
      simp only
      rw [if_pos (by omega), PL.get_spec r.list, if_pos (by omega)]
      simp
    | none => simp
  | index k =>
    obtain ⟨d, h1, h2, h3⟩ := intGet_spec ok r k
    refine ⟨⟨d, m.list⟩, ?_, ⟨h2, h3, r.list, r.uniq⟩, rfl, by simp [specStep]⟩
    simp only [step, getIndex, h1, specStep, Option.map_some, freed_nil]
  | geti i =>
    refine ⟨m, ?_, r, rfl, by simp [specStep]⟩
    simp only [step, geti, PL.get_spec r.list, specStep, Option.map_some, freed_nil, List.getElem?_map]
  | size =>
    refine ⟨m, ?_, r, rfl, by simp [specStep]⟩
    have hcnt : m.list.count = l.length := by rw [r.list.1, List.length_map]
    simp only [step, size, hcnt, specStep, freed_nil]
  | clear =>
    obtain ⟨p', u1, u2, u3⟩ := PL.clear_spec r.list
    refine ⟨⟨Dict.create, p'⟩, ?_, ⟨Dict.inv_create ty, List.Perm.refl _, u2, List.Pairwise.nil⟩, u3, by simp [specStep]⟩
    simp only [step, clear, u1, specStep, Option.bind_eq_bind, Option.bind_some, Option.map_some, Dict.empty_spec r.inv]

theorem run_spec {ty : Ty K} (ok : ty.Ok) (os : List (Op K α)) {m : MList K α} {l : List (K × α)} (r : Rep ty m l)
    (hsz : (l.length + os.length + 1281) * 8 < intMax) :
    ∃ m', run ty m os = some (m', (specRun ty.same l os).2.1, freed m.list.vf (specRun ty.same l os).2.2) ∧
      Rep ty m' (specRun ty.same l os).1 := by
  induction os generalizing m l with
  | nil => exact ⟨m, by simp [run, specRun, freed_nil], r⟩
  | cons o os ih =>
    obtain ⟨m1, h1, h2, h3, h4⟩ := step_spec ok r o
      (Nat.lt_of_le_of_lt (Nat.mul_le_mul_right 8 (by omega)) hsz)
    obtain ⟨m2, h5, h6⟩ := ih h2 (Nat.lt_of_le_of_lt (Nat.mul_le_mul_right 8 (by simp only [List.length_cons]; omega)) hsz)
    refine ⟨m2, ?_, h6⟩
    simp only [run, h1, Option.bind_some, h5, Option.map_some, specRun, h3]
    cases m.list.vf <;> simp [freed]

/-- C41.  Every history of calls of the named list answers as a list of named values does, and with a free function frees
exactly the values replaced and cleared: a name keeps the position it got when first set, both lookups give the last value set
for it, and names that compare equal are one name. -/
theorem C41_named_list {ty : Ty K} (ok : ty.Ok) (vf : Bool) (os : List (Op K α)) (hsz : (os.length + 1281) * 8 < intMax) :
    ∃ m, run ty (create vf) os = some (m, (specRun ty.same [] os).2.1, freed vf (specRun ty.same [] os).2.2) := by
  have h0 : Rep ty (create vf : MList K α) [] :=
    ⟨Dict.inv_create ty, List.Perm.refl _, PL.rep_create vf, List.Pairwise.nil⟩
  obtain ⟨m, h1, _⟩ := run_spec ok os h0 (by simpa using hsz)
  exact ⟨m, h1⟩

/-- C41 for names: names are the same when equal but for case. -/
theorem C41_named_list_names (k0 k1 : UInt64) (vf : Bool) (os : List (Op Dict.Name α)) (hsz : (os.length + 1281) * 8 < intMax) :
    ∃ m, run (Dict.nameTy k0 k1) (create vf) os =
      some (m, (specRun Dict.sameName [] os).2.1, freed vf (specRun Dict.sameName [] os).2.2) := by
  have := C41_named_list (Dict.nameTy_ok k0 k1) vf os hsz
  rwa [Dict.nameTy_same] at this

/-- The specification keeps what C41 says: a name keeps its position while nothing is cleared. -/
theorem C41_position_stable {same : K → K → Bool} (l : List (K × α)) (os : List (Op K α)) (hc : Op.clear ∉ os) (k : K) (i : Nat)
    (h : pos same l k = some i) : pos same (specRun same l os).1 k = some i := by
  induction os generalizing l with
  | nil => exact h
  | cons o os ih =>
    apply ih _ (fun h => hc (by simp [h]))
    cases o with
    | set x v =>
      simp only [specStep]
      cases hp : pos same l x with
      | some j =>
        simp only
        unfold pos at h ⊢
        have e : ∀ l : List (K × α), l.findIdx? (fun e => same k e.1) = (l.map (·.1)).findIdx? (same k) := by
          intro l; rw [List.findIdx?_map]; rfl
        rw [e, keys_modify, ← e]; exact h
      | none =>
        simp only
        unfold pos at h ⊢
        rw [List.findIdx?_append, h]; rfl
    | clear => simp at hc
    | get x => exact h
    | index x => exact h
    | geti x => exact h
    | size => exact h

example : ((run Dict.intTy (create true) [.set 7 70, .set 8 80, .set 7 71, .get 7, .index 8, .geti 0, .geti 5, .size]).map
    fun r => (r.2.1, r.2.2)) =
    some ([.num 0, .num 1, .num 0, .val (some 71), .num 1, .val (some 71), .val none, .num 2], [70]) := by decide +kernel

end Sis.ML
