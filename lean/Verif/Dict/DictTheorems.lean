import Verif.Dict.Siphash
import Verif.Dict.DictLemmas
import Verif.Dict.IterLemmas
/-
C63: the hash map is a finite map under every history, with names compared without regard to case.
C64: iterating over a map visits every entry that stays in it exactly once.
C65: a map made with a free function frees every value it was given exactly once.
-/
namespace Sis.Dict

variable {K V : Type}

/-! The program. -/

/-- The calls on a map; `iters n` stands for iterators being opened and closed in between. -/
inductive Op (K V : Type)
  | set (k : K) (v : V)
  | del (k : K)
  | get (k : K)
  | clear
  | iters (n : Nat)

/-- One call: the dictionary after it and the values handed to the free function, as `sis_map_pointer_set`,
`sis_map_pointer_del`, `sis_map_pointer_get` and `sis_map_pointer_clear` (src/core/sis_map.c:269-309) make it. -/
def step (ty : Ty K) (d : Dict K V) : Op K V → Option (Dict K V × List V)
  | .set k v => (set ty d k v).map fun r => (r.1, r.2.2.toList)
  | .del k => (delete ty d k).map fun r => (r.1, r.2.toList)
  | .get k => (find ty d k).map fun r => (r.1, [])
  | .clear => some (empty d)
  | .iters n => some ({ d with iters := n }, [])

/-- A history: the dictionary and the values freed so far. -/
def run (ty : Ty K) (d : Dict K V) : List (Op K V) → Option (Dict K V × List V)
  | [] => some (d, [])
  | o :: os => (step ty d o).bind fun r => (run ty r.1 os).map fun r2 => (r2.1, r.2 ++ r2.2)

/-- What `sis_map_pointer_get` (src/core/sis_map.c:274-286) answers. -/
def getValue (ty : Ty K) (d : Dict K V) (k : K) : Option (Option V) := (find ty d k).map fun r => r.2.map (·.2)

/-! Specification. -/

/-- The value of a key after a history, newest call first: the last call on the key decides. -/
def answer (same : K → K → Bool) : List (Op K V) → K → Option V
  | [], _ => none
  | .set k v :: h, x => if same k x then some v else answer same h x
  | .del k :: h, x => if same k x then none else answer same h x
  | .get _ :: h, x => answer same h x
  | .clear :: _, _ => none
  | .iters _ :: h, x => answer same h x

/-- The values a history puts into the map. -/
def given : List (Op K V) → List V
  | [] => []
  | .set _ v :: h => v :: given h
  | .del _ :: h => given h
  | .get _ :: h => given h
  | .clear :: h => given h
  | .iters _ :: h => given h

/-! Proof. -/

theorem given_append (a b : List (Op K V)) : given (a ++ b) = given a ++ given b := by
  induction a with
  | nil => rfl
  | cons o a ih => cases o <;> simp [given, ih]

/-- The entries say what the history says. -/
def Agree (ty : Ty K) (l : List (K × V)) (h : List (Op K V)) : Prop :=
  ∀ x v, answer ty.same h x = some v ↔ ∃ e ∈ l, ty.same x e.1 = true ∧ e.2 = v

theorem Agree.perm {ty : Ty K} {l l' : List (K × V)} {h : List (Op K V)} (ha : Agree ty l h) (hp : l.Perm l') : Agree ty l' h := by
  intro x v
  rw [ha x v]
  constructor
  · rintro ⟨e, he, h⟩; exact ⟨e, hp.mem_iff.1 he, h⟩
  · rintro ⟨e, he, h⟩; exact ⟨e, hp.mem_iff.2 he, h⟩

theorem distinct_head {ty : Ty K} (ok : ty.Ok) {l : List (K × V)} {e : K × V} (h : Distinct ty (e :: l)) {k x : K}
    (hk : ty.same k e.1 = true) (hx : ty.same k x = true) : Absent ty x l := by
  intro a ha
  by_cases h2 : ty.same x a.1 = true
  · have h3 := (List.pairwise_cons.1 h).1 a ha
    rw [ok.trans _ _ _ (ok.symm _ _ hk) (ok.trans _ _ _ hx h2)] at h3
    cases h3
  · simpa using h2

structure Reach (ty : Ty K) (os : List (Op K V)) (d : Dict K V) (f : List V) : Prop where
  inv : Inv ty d
  agree : Agree ty (ents d) os.reverse
  freed : (f ++ (ents d).map (·.2)).Perm (given os)

theorem perm_swap_mid {α : Type} {a : α} {f r : List α} : (f ++ a :: r).Perm (f ++ [a] ++ r) := by simp

theorem reach_step {ty : Ty K} (ok : ty.Ok) {os : List (Op K V)} {d : Dict K V} {f : List V} (hr : Reach ty os d f) (o : Op K V)
    (hsz : (given os).length < 2 ^ 61) : ∃ d' f', step ty d o = some (d', f') ∧ Reach ty (os ++ [o]) d' (f ++ f') := by
  have hsize : size d < 2 ^ 61 := by
    rw [size_eq hr.inv]
    have := hr.freed.length_eq
    simp at this
    omega
  cases o with
  | set k v =>
    obtain ⟨d', new, old, e1, e2⟩ := set_spec ok d k v hr.inv hsize
    refine ⟨d', old.toList, by simp only [step, e1, Option.map_some], e2.inv, ?_, ?_⟩
    · rw [List.reverse_append]
      rcases e2.change with ⟨_, _, hab, hp⟩ | ⟨_, e, R, hk, _, hp, hp'⟩
      · refine Agree.perm ?_ hp.symm
        intro x w
        show (if ty.same k x then some v else answer ty.same os.reverse x) = some w ↔ _
        by_cases hx : ty.same k x = true
        · rw [if_pos hx]
          constructor
          · intro h; cases h; exact ⟨(k, v), by simp, ok.symm _ _ hx, rfl⟩
          · rintro ⟨e, he, hs, rfl⟩
            rcases List.mem_cons.1 he with h | h
            · rw [h]
            · have := hab e h
              rw [ok.trans _ _ _ hx hs] at this; cases this
        · rw [if_neg hx, hr.agree x w]
          constructor
          · rintro ⟨e, he, h⟩; exact ⟨e, by simp [he], h⟩
          · rintro ⟨e, he, hs, h⟩
            rcases List.mem_cons.1 he with h' | h'
            · subst h'; exact absurd (ok.symm _ _ hs) hx
            · exact ⟨e, h', hs, h⟩
      · refine Agree.perm ?_ hp'.symm
        have hd : Distinct ty (e :: R) := hr.inv.uniq.perm ok hp
        intro x w
        show (if ty.same k x then some v else answer ty.same os.reverse x) = some w ↔ _
        by_cases hx : ty.same k x = true
        · rw [if_pos hx]
          constructor
          · intro h; cases h; exact ⟨(e.1, v), by simp, ok.trans _ _ _ (ok.symm _ _ hx) hk, rfl⟩
          · rintro ⟨a, ha, hs, rfl⟩
            rcases List.mem_cons.1 ha with h | h
            · rw [h]
            · have := distinct_head ok hd hk hx a h
              rw [hs] at this; cases this
        · rw [if_neg hx, (hr.agree.perm hp) x w]
          constructor
          · rintro ⟨a, ha, hs, h⟩
            rcases List.mem_cons.1 ha with h' | h'
            · subst h'; exact absurd (ok.trans _ _ _ hk (ok.symm _ _ hs)) hx
            · exact ⟨a, by simp [h'], hs, h⟩
          · rintro ⟨a, ha, hs, h⟩
            rcases List.mem_cons.1 ha with h' | h'
            · subst h'; exact absurd (ok.trans _ _ _ hk (ok.symm _ _ hs)) hx
            · exact ⟨a, by simp [h'], hs, h⟩
    · rw [given_append]
      show (f ++ old.toList ++ (ents d').map (·.2)).Perm (given os ++ [v])
      rcases e2.change with ⟨_, ho, hab, hp⟩ | ⟨_, e, R, hk, ho, hp, hp'⟩
      · rw [ho]
        simp only [Option.toList_none, List.append_nil]
        refine (List.Perm.append_left f (hp.map _)).trans ?_
        simp only [List.map_cons]
        refine List.perm_middle.trans ?_
        refine (List.Perm.cons v hr.freed).trans ?_
        exact (List.perm_append_singleton v _).symm
      · rw [ho]
        simp only [Option.toList_some]
        refine (List.Perm.append_left _ (hp'.map _)).trans ?_
        simp only [List.map_cons]
        refine List.perm_middle.trans ?_
        refine List.Perm.trans ?_ (List.perm_append_singleton v _).symm
        refine List.Perm.cons v ?_
        refine List.Perm.trans ?_ hr.freed
        have := List.Perm.append_left f (hp.map (·.2))
        refine List.Perm.trans ?_ this.symm
        simp
  | del k =>
    obtain ⟨d', o, e1, e2⟩ := delete_spec ok d k hr.inv
    refine ⟨d', o.toList, by simp only [step, e1, Option.map_some], e2.inv, ?_, ?_⟩
    · rw [List.reverse_append]
      rcases e2.change with ⟨_, hab, hp⟩ | ⟨e, R, hk, _, hp, hp'⟩
      · refine Agree.perm ?_ hp.symm
        intro x w
        show (if ty.same k x then none else answer ty.same os.reverse x) = some w ↔ _
        by_cases hx : ty.same k x = true
        · rw [if_pos hx]
          constructor
          · intro h; cases h
          · rintro ⟨e, he, hs, rfl⟩
            have := hab e he
            rw [ok.trans _ _ _ hx hs] at this; cases this
        · rw [if_neg hx, hr.agree x w]
      · refine Agree.perm ?_ hp'.symm
        have hd : Distinct ty (e :: R) := hr.inv.uniq.perm ok hp
        intro x w
        show (if ty.same k x then none else answer ty.same os.reverse x) = some w ↔ _
        by_cases hx : ty.same k x = true
        · rw [if_pos hx]
          constructor
          · intro h; cases h
          · rintro ⟨a, ha, hs, rfl⟩
            have := distinct_head ok hd hk hx a ha
            rw [hs] at this; cases this
        · rw [if_neg hx, (hr.agree.perm hp) x w]
          constructor
          · rintro ⟨a, ha, hs, h⟩
            rcases List.mem_cons.1 ha with h' | h'
            · subst h'; exact absurd (ok.trans _ _ _ hk (ok.symm _ _ hs)) hx
            · exact ⟨a, h', hs, h⟩
          · rintro ⟨a, ha, hs, h⟩
            exact ⟨a, by simp [ha], hs, h⟩
    · rw [given_append]
      show (f ++ o.toList ++ (ents d').map (·.2)).Perm (given os ++ [])
      rw [List.append_nil]
      rcases e2.change with ⟨ho, hab, hp⟩ | ⟨e, R, hk, ho, hp, hp'⟩
      · rw [ho]
        simp only [Option.toList_none, List.append_nil]
        exact (List.Perm.append_left f (hp.map _)).trans hr.freed
      · rw [ho]
        simp only [Option.toList_some]
        refine (List.Perm.append_left _ (hp'.map _)).trans ?_
        refine List.Perm.trans ?_ hr.freed
        refine List.Perm.trans ?_ (List.Perm.append_left f (hp.map (·.2))).symm
        simp
  | get k =>
    obtain ⟨d', o, e1, e2, e3, _⟩ := find_spec ok d k hr.inv
    refine ⟨d', [], by simp only [step, e1, Option.map_some], e2, ?_, ?_⟩
    · rw [List.reverse_append]
      exact hr.agree.perm e3.symm
    · rw [given_append, List.append_nil]
      simp only [given, List.append_nil]
      exact (List.Perm.append_left f (e3.map _)).trans hr.freed
  | clear =>
    refine ⟨create, (ents d).map (·.2), by simp only [step, empty_spec hr.inv], inv_create ty, ?_, ?_⟩
    · rw [List.reverse_append]
      intro x w
      constructor
      · intro h; cases h
      · rintro ⟨e, he, _⟩; cases he
    · rw [given_append]
      simpa [given, ents, create, HT.ents, HT.reset] using hr.freed
  | iters n =>
    refine ⟨{ d with iters := n }, [], rfl, hr.inv.of_tables rfl rfl rfl, ?_, ?_⟩
    · rw [List.reverse_append]; exact hr.agree
    · rw [given_append, List.append_nil]
      simp only [given, List.append_nil]
      exact hr.freed

theorem reach_run' {ty : Ty K} (ok : ty.Ok) (os2 : List (Op K V)) {os : List (Op K V)} {d : Dict K V} {f : List V}
    (hr : Reach ty os d f) (hsz : (given (os ++ os2)).length < 2 ^ 61) :
    ∃ d' f', run ty d os2 = some (d', f') ∧ Reach ty (os ++ os2) d' (f ++ f') := by
  induction os2 generalizing os d f with
  | nil => exact ⟨d, [], rfl, by simpa using hr⟩
  | cons o os2 ih =>
    have hsz' : (given os).length < 2 ^ 61 := by
      rw [given_append, List.length_append] at hsz; omega
    obtain ⟨d', f', h3, h4⟩ := reach_step ok hr o hsz'
    obtain ⟨d2, f2, h5, h6⟩ := ih h4 (by simpa using hsz)
    refine ⟨d2, f' ++ f2, ?_, by simpa using h6⟩
    simp only [run, h3, Option.bind_some, h5, Option.map_some]

theorem reach_run {ty : Ty K} (ok : ty.Ok) (os : List (Op K V)) (hsz : (given os).length < 2 ^ 61) :
    ∃ d f, run ty create os = some (d, f) ∧ Reach ty os d f := by
  have h0 : Reach ty [] (create : Dict K V) [] :=
    ⟨inv_create ty, (fun x v => ⟨(fun h => by cases h), (fun ⟨e, he, _⟩ => by cases he)⟩), List.Perm.refl _⟩
  have := reach_run' ok os h0 hsz
  simpa using this

theorem getValue_spec {ty : Ty K} (ok : ty.Ok) {os : List (Op K V)} {d : Dict K V} {f : List V} (hr : Reach ty os d f) (k : K) :
    getValue ty d k = some (answer ty.same os.reverse k) := by
  obtain ⟨d', o, e1, e2, e3, _, _, e6⟩ := find_spec ok d k hr.inv
  unfold getValue
  rw [e1]
  simp only [Option.map_some, Option.some.injEq]
  rcases e6 with ⟨ho, hab⟩ | ⟨e, R, ho, hk, hp⟩
  · rw [ho]
    cases ha : answer ty.same os.reverse k with
    | none => rfl
    | some v =>
      obtain ⟨e, he, hs, _⟩ := (hr.agree k v).1 ha
      rw [hab e he] at hs; cases hs
  · rw [ho]
    exact ((hr.agree k e.2).2 ⟨e, hp.mem_iff.2 (by simp), hk, rfl⟩).symm

/-! C63 -/

/-- C63.  After every history of sets, deletions, lookups and clears, with iterators opened and closed in between, looking up a
key answers what the last call on that key says, and the size is the number of different keys that have a value.  Nothing in
the history or the lookup reads outside a table, though each call may move entries between the two tables. -/
theorem C63_finite_map {ty : Ty K} (ok : ty.Ok) (os : List (Op K V)) (hsz : (given os).length < 2 ^ 61) :
    ∃ d f, run ty create os = some (d, f) ∧
      (∀ k, getValue ty d k = some (answer ty.same os.reverse k)) ∧
      ∃ m : List (K × V), m.Pairwise (fun a b => ty.same a.1 b.1 = false) ∧ m.length = size d ∧
        ∀ k v, answer ty.same os.reverse k = some v ↔ ∃ e ∈ m, ty.same k e.1 = true ∧ e.2 = v := by
  obtain ⟨d, f, h1, h2⟩ := reach_run ok os hsz
  exact ⟨d, f, h1, getValue_spec ok h2, ents d, h2.inv.uniq, (size_eq h2.inv).symm, h2.agree⟩

/-- A name as `_sis_dict_type_nofree_val_s` has it: a C string. -/
abbrev Name := { s : Bytes // CStr s }

/-- The functions of a map with name keys (src/core/sis_map.c:105-112), with the hash seed. -/
def nameTy (k0 k1 : UInt64) : Ty Name := ⟨fun a b => caseEq a.1 b.1, fun a => caseHash k0 k1 a.1⟩

/-- Two names are the same: equal but for the case of letters. -/
def sameName (a b : Name) : Bool := a.1.map lower == b.1.map lower

theorem nameTy_same (k0 k1 : UInt64) : (nameTy k0 k1).same = sameName := by
  funext a b
  unfold nameTy sameName
  have := caseEq_iff a.2 b.2
  simp only
  by_cases h : a.1.map lower = b.1.map lower
  · rw [this.2 h]; simp [h]
  · have h2 : caseEq a.1 b.1 = false := by
      by_cases h3 : caseEq a.1 b.1 = true
      · exact absurd (this.1 h3) h
      · simpa using h3
    rw [h2]; simp [h]

theorem nameTy_ok (k0 k1 : UInt64) : (nameTy k0 k1).Ok := by
  refine ⟨?_, ?_, ?_, ?_⟩
  · intro a; rw [nameTy_same]; simp [sameName]
  · intro a b; rw [nameTy_same]; simp only [sameName, beq_iff_eq]; exact Eq.symm
  · intro a b c; rw [nameTy_same]; simp only [sameName, beq_iff_eq]; exact Eq.trans
  · intro a b; rw [nameTy_same]; simp only [sameName, beq_iff_eq]; exact caseHash_same k0 k1

/-- C63 for maps whose keys are names, whatever the hash seed: names are the same when equal but for case. -/
theorem C63_names (k0 k1 : UInt64) (os : List (Op Name V)) (hsz : (given os).length < 2 ^ 61) :
    ∃ d f, run (nameTy k0 k1) create os = some (d, f) ∧
      ∀ k, getValue (nameTy k0 k1) d k = some (answer sameName os.reverse k) := by
  obtain ⟨d, f, h1, h2, _⟩ := C63_finite_map (nameTy_ok k0 k1) os hsz
  refine ⟨d, f, h1, fun k => ?_⟩
  rw [h2 k, nameTy_same]

/-- The functions of a map with integer keys (src/core/sis_map.c:117-124). -/
def intTy : Ty UInt64 := ⟨fun a b => a == b, fun a => a.toNat⟩

theorem intTy_ok : intTy.Ok := by
  refine ⟨?_, ?_, ?_, ?_⟩ <;> simp [intTy]

/-- C63 for maps whose keys are integers. -/
theorem C63_int_keys (os : List (Op UInt64 V)) (hsz : (given os).length < 2 ^ 61) :
    ∃ d f, run intTy create os = some (d, f) ∧ ∀ k, getValue intTy d k = some (answer (fun a b => a == b) os.reverse k) := by
  obtain ⟨d, f, h1, h2, _⟩ := C63_finite_map intTy_ok os hsz
  exact ⟨d, f, h1, h2⟩

/-- A history in which the table grows and entries are deleted and replaced while it is being moved. -/
def sample : List (Op UInt64 Nat) :=
  [.set 1 10, .set 2 20, .set 3 30, .set 4 40, .set 5 50, .del 2, .set 3 31, .get 1, .set 6 60]

example : (given sample).length < 2 ^ 61 := by decide
example : ((run intTy create sample).map fun r => (size r.1, r.2)) = some (5, [20, 30]) := by decide +kernel
example : ((run intTy create (sample.take 6)).map fun r => (r.1.ridx, r.1.h0.used, r.1.h1.used)) = some (some 1, 2, 2) := by
  decide +kernel
example : ((run intTy create (sample.take 6)).bind fun r => getValue intTy r.1 4) = some (some 40) := by decide +kernel

/-! C65 -/

/-- C65.  The values freed and the values still in the map are together the values the map was given, each as often as it was
given. -/
theorem C65_freed_or_held {ty : Ty K} (ok : ty.Ok) (os : List (Op K V)) (hsz : (given os).length < 2 ^ 61) :
    ∃ d freed, run ty create os = some (d, freed) ∧
      ∃ held : List V, (∀ v, v ∈ held ↔ ∃ k, getValue ty d k = some (some v)) ∧ (freed ++ held).Perm (given os) := by
  obtain ⟨d, f, h1, h2⟩ := reach_run ok os hsz
  refine ⟨d, f, h1, (ents d).map (·.2), ?_, h2.freed⟩
  intro v
  constructor
  · intro h
    obtain ⟨e, he, rfl⟩ := List.mem_map.1 h
    refine ⟨e.1, ?_⟩
    rw [getValue_spec ok h2, (h2.agree e.1 e.2).2 ⟨e, he, ok.refl _, rfl⟩]
  · rintro ⟨k, hk⟩
    rw [getValue_spec ok h2] at hk
    obtain ⟨e, he, _, rfl⟩ := (h2.agree k v).1 (Option.some.inj hk)
    exact List.mem_map_of_mem he

/-- C65.  Given each pointer only once, the map frees none that it still holds. -/
theorem C65_no_early_free_partial {ty : Ty K} (ok : ty.Ok) (os : List (Op K V)) (hsz : (given os).length < 2 ^ 61)
    (hnd : (given os).Nodup) : ∃ d freed, run ty create os = some (d, freed) ∧ freed.Nodup ∧
      ∀ k v, getValue ty d k = some (some v) → v ∉ freed := by
  obtain ⟨d, f, h1, held, h2, h3⟩ := C65_freed_or_held ok os hsz
  have hn := h3.nodup_iff.2 hnd
  rw [List.nodup_append] at hn
  refine ⟨d, f, h1, hn.1, fun k v hk hv => ?_⟩
  exact hn.2.2 v hv v ((h2 v).2 ⟨k, hk⟩) rfl

/-- C65.  Destroying the map (`sis_map_pointer_destroy`, src/core/sis_map.c:263-268, frees like `sis_dict_empty`) leaves nothing
unfreed: over its whole life the map frees every value it was given exactly as often as it was given. -/
theorem C65_destroyed_all_freed {ty : Ty K} (ok : ty.Ok) (os : List (Op K V)) (hsz : (given os).length < 2 ^ 61) :
    ∃ d freed, run ty create os = some (d, freed) ∧ (freed ++ (empty d).2).Perm (given os) := by
  obtain ⟨d, f, h1, h2⟩ := reach_run ok os hsz
  refine ⟨d, f, h1, ?_⟩
  rw [empty_spec h2.inv]
  exact h2.freed

/-- C65 fails when a key is set to the pointer it already has: the pointer is freed and stays in the map. -/
theorem C65_set_same_pointer_violated :
    ((run intTy create [.set 7 1000, .set 7 1000]).map fun r => (r.2, getValue intTy r.1 7)) = some ([1000], some (some 1000)) := by
  decide +kernel

example : ([.set 1 10, .set 1 11, .set 2 20, .del 2, .set 3 30, .clear, .set 1 12] : List (Op UInt64 Nat)) |> given |>.Nodup := by
  decide

/-! C64 -/

/-- What a program that iterates may do between two calls of `sis_dict_next`. -/
inductive Ev (K V : Type)
  | next
  | get (k : K)
  | set (k : K) (v : V)
  | del (k : K)

/-- A running iteration: the dictionary, the iterator, the entries returned so far, and whether the end was reached.  `seen` is
bookkeeping of the specification: the keys returned that were not deleted since. -/
structure Walk (K V : Type) where
  d : Dict K V
  it : Iter K
  visited : List (K × V)
  seen : List K
  done : Bool

/-- One event; a program does not go on calling `sis_dict_next` after the end. -/
def walkStep (ty : Ty K) (w : Walk K V) : Ev K V → Option (Walk K V)
  | .next =>
    if w.done then some w
    else (next ty w.d w.it).map fun r => match r.2.2 with
      | some e => { w with d := r.1, it := r.2.1, visited := w.visited ++ [e], seen := e.1 :: w.seen }
      | none => { w with d := r.1, it := r.2.1, done := true }
  | .get k => (find ty w.d k).map fun r => { w with d := r.1 }
  | .set k v => (set ty w.d k v).map fun r => { w with d := r.1 }
  | .del k => (delete ty w.d k).map fun r => { w with d := r.1, seen := w.seen.filter fun x => !ty.same k x }

/-- A history of events. -/
def walk (ty : Ty K) (w : Walk K V) : List (Ev K V) → Option (Walk K V)
  | [] => some w
  | e :: es => (walkStep ty w e).bind (walk ty · es)

/-- The start of an iteration. -/
def begin_ (d : Dict K V) : Walk K V := ⟨d, getIter, [], [], false⟩

/-! Specification. -/

/-- The deletions of a history hit only entries already returned, for instance the current one. -/
def careful (ty : Ty K) (w : Walk K V) : List (Ev K V) → Bool
  | [] => true
  | e :: es =>
    (match e with
      | .del k => w.seen.any (ty.same k)
      | _ => true) &&
    match walkStep ty w e with
    | some w' => careful ty w' es
    | none => true

/-- A key that no event of the history deletes. -/
def Kept (same : K → K → Bool) (k : K) (es : List (Ev K V)) : Prop := ∀ x, .del x ∈ es → same x k = false

/-- How many of the entries have the key. -/
def countKey (same : K → K → Bool) (k : K) (l : List (K × V)) : Nat := (l.filter fun e => same k e.1).length

/-! Proof. -/

structure WInv (ty : Ty K) (w : Walk K V) (T : K → Prop) : Prop where
  inv : Inv ty w.d
  pres : ∀ k, T k → Pres ty k (ents w.d)
  seenIn : ∀ x ∈ w.seen, Pres ty x (ents w.d)
  iter : w.done = false → ∃ suf, IterInv w.d w.it suf ∧ (∀ x ∈ w.seen, Absent ty x (rem w.d w.it suf)) ∧
    ∀ k, T k → ((countKey ty.same k w.visited = 1 ∧ Absent ty k (rem w.d w.it suf)) ∨
     (countKey ty.same k w.visited = 0 ∧ Pres ty k (rem w.d w.it suf)))
  finish : w.done = true → ∀ k, T k → countKey ty.same k w.visited = 1
  fresh : w.it.index = none → w.d.iters < 2 ^ 64 - 1
  visited : w.done = false → w.it.index = none → w.visited = [] ∧ w.seen = []

theorem countKey_append {same : K → K → Bool} {k : K} {l : List (K × V)} {e : K × V} :
    countKey same k (l ++ [e]) = countKey same k l + if same k e.1 then 1 else 0 := by
  unfold countKey
  rw [List.filter_append, List.length_append]
  by_cases h : same k e.1 = true
  · rw [if_pos h]; simp [h]
  · rw [if_neg h]; simp [h]

theorem rem_sub {d : Dict K V} {it : Iter K} {suf : List (K × V)} (ht : IterInv d it suf) {e : K × V} (he : e ∈ rem d it suf) :
    e ∈ ents d := by
  unfold rem at he
  cases hx : it.index with
  | none => rw [hx] at he; exact he
  | some i =>
    rw [hx] at he
    simp only at he
    have hin : e ∈ (itTable d it).flatten → e ∈ ents d := by
      intro h
      unfold itTable at h
      by_cases hs : it.second = true
      · rw [if_pos hs] at h; exact List.mem_append_right _ h
      · rw [if_neg hs] at h; exact List.mem_append_left _ h
    rcases List.mem_append.1 he with h | h
    · by_cases hc : it.cur = true
      · obtain ⟨A, p, B, t1, _⟩ := ht.chain hc
        apply hin
        rw [t1]; simp [h]
      · rw [ht.idle (by simpa using hc)] at h; cases h
    · rcases List.mem_append.1 h with h | h
      · apply hin
        obtain ⟨c, hc, hec⟩ := List.mem_flatten.1 h
        exact List.mem_flatten.2 ⟨c, List.mem_of_mem_drop hc, hec⟩
      · by_cases hs : it.second = true
        · rw [if_pos hs] at h; cases h
        · rw [if_neg hs] at h; exact List.mem_append_right _ h

/-- What is left keeps distinct keys. -/
theorem rem_distinct {ty : Ty K} {d : Dict K V} (hi : Inv ty d) {it : Iter K} {suf : List (K × V)} (ht : IterInv d it suf) :
    Distinct ty (rem d it suf) := by
  have hsub : (rem d it suf).Sublist (ents d) := by
    unfold rem
    cases hx : it.index with
    | none => exact List.Sublist.refl _
    | some i =>
      simp only
      have key : ∀ t : List (List (K × V)), itTable d it = t → (suf ++ (t.drop (i + 1)).flatten).Sublist t.flatten := by
        intro t h
        by_cases hc : it.cur = true
        · obtain ⟨A, p, B, t1, t2, _⟩ := ht.chain hc
          rw [hx] at t2
          cases t2
          rw [h] at t1
          subst t1
          have : (A ++ (p ++ suf) :: B).drop (A.length + 1) = B := by
            rw [List.drop_append, List.drop_of_length_le (by omega)]
            simp
          rw [this]
          simp only [List.flatten_append, List.flatten_cons, List.append_assoc]
          exact (List.sublist_append_right p _).trans (List.sublist_append_right A.flatten _)
        · rw [ht.idle (by simpa using hc), List.nil_append]
          have : t.flatten = (t.take (i + 1)).flatten ++ (t.drop (i + 1)).flatten := by
            rw [← List.flatten_append, List.take_append_drop]
          rw [this]
          exact List.sublist_append_right _ _
      by_cases hs : it.second = true
      · rw [if_pos hs, List.append_nil]
        have := key d.h1.table (by unfold itTable; rw [if_pos hs])
        unfold itTable
        rw [if_pos hs]
        exact this.trans (List.sublist_append_right _ _)
      · rw [if_neg hs, ← List.append_assoc]
        have := key d.h0.table (by unfold itTable; rw [if_neg hs])
        unfold itTable
        rw [if_neg hs]
        exact this.append (List.Sublist.refl _)
  exact hi.uniq.sublist hsub

theorem sim_absent {ty : Ty K} {k : K} {s : Prop} {a b : List (K × V)} (h : Sim ty k s a b) {x : K} (hx : ty.same k x = false)
    (ha : Absent ty x a) : Absent ty x b := by
  rw [← not_pres] at ha ⊢
  rw [h.pres x hx]; exact ha

theorem same_comm_false {ty : Ty K} (ok : ty.Ok) {x k : K} (h : ty.same x k = false) : ty.same k x = false := same_symm_false ok h

theorem pres_of_same {ty : Ty K} (ok : ty.Ok) {x y : K} (h : ty.same x y = true) {l : List (K × V)} (hp : Pres ty x l) : Pres ty y l := by
  obtain ⟨e, he, hs⟩ := hp
  exact ⟨e, he, ok.trans _ _ _ (ok.symm _ _ h) hs⟩

theorem walk_step {ty : Ty K} (ok : ty.Ok) (w : Walk K V) (T : K → Prop) (hw : WInv ty w T) (ev : Ev K V)
    (hcare : ∀ x, ev = .del x → ∃ y ∈ w.seen, ty.same x y = true) (hkept : ∀ x, ev = .del x → ∀ k, T k → ty.same x k = false)
    (hsz : size w.d < 2 ^ 61) :
    ∃ w', walkStep ty w ev = some w' ∧ WInv ty w' T ∧ size w'.d ≤ size w.d + 1 := by
  cases ev with
  | next =>
    unfold walkStep
    by_cases hd : w.done = true
    · simp only [hd, if_true]
      exact ⟨w, rfl, hw, by omega⟩
    · have hdf : w.done = false := by simpa using hd
      simp only [hdf, Bool.false_eq_true, if_false]
      obtain ⟨suf, ht, hseen, hcnt⟩ := hw.iter hdf
      obtain ⟨d', it', o, suf', e1, e2⟩ := next_spec ok w.d w.it suf hw.inv ht hw.fresh
      rw [e1]
      simp only [Option.map_some]
      have hi' : Inv ty d' := hw.inv.of_tables e2.h0 e2.h1 e2.ridx
      have hents : ents d' = ents w.d := by unfold ents; rw [e2.h0, e2.h1]
      have hsize : size d' = size w.d := by unfold size; rw [e2.h0, e2.h1]
      cases o with
      | none =>
        refine ⟨_, rfl, ⟨hi', by rw [hents]; exact hw.pres, (fun x hx => by rw [hents]; exact hw.seenIn x hx), (fun h => by cases h), ?_, fun h => absurd h e2.started, (fun h => by cases h)⟩, by simp only; omega⟩
        intro _ k hT
        rcases hcnt k hT with ⟨h, _⟩ | ⟨_, h⟩
        · exact h
        · rw [e2.none rfl] at h
          obtain ⟨e, he, _⟩ := h
          cases he
      | some e =>
        have hr := e2.some e rfl
        have hdis := rem_distinct hw.inv ht
        rw [hr] at hdis hseen hcnt
        have hein : e ∈ ents w.d := rem_sub ht (by rw [hr]; simp)
        refine ⟨_, rfl, ⟨hi', by rw [hents]; exact hw.pres, ?_, fun _ => ⟨suf', e2.inv, ?_, ?_⟩, (fun h => by cases h), fun h => absurd h e2.started, fun _ h => absurd h e2.started⟩, by simp only; omega⟩
        · intro x hx
          simp only [List.mem_cons] at hx
          rw [hents]
          rcases hx with hx | hx
          · rw [hx]; exact ⟨e, hein, ok.refl _⟩
          · exact hw.seenIn x hx
        · intro x hx
          simp only [List.mem_cons] at hx
          rcases hx with hx | hx
          · subst hx
            exact distinct_head ok hdis (ok.refl _) (ok.refl _)
          · exact fun a ha => hseen x hx a (by simp [ha])
        · intro k hT
          have hcnt := hcnt k hT
          simp only
          rw [countKey_append]
          by_cases hk : ty.same k e.1 = true
          · left
            rcases hcnt with ⟨_, h⟩ | ⟨h, _⟩
            · have := h e (by simp)
              rw [hk] at this; cases this
            · rw [if_pos hk, h]
              exact ⟨rfl, distinct_head ok hdis hk (ok.refl k)⟩
          · rw [if_neg hk]
            rcases hcnt with ⟨h1, h2⟩ | ⟨h1, h2⟩
            · exact Or.inl ⟨h1, fun a ha => h2 a (by simp [ha])⟩
            · right
              refine ⟨h1, ?_⟩
              rw [pres_cons] at h2
              rcases h2 with h2 | h2
              · exact absurd h2 hk
              · exact h2
  | get x =>
    obtain ⟨d', o, e1, e2, e3, e4, e5, _⟩ := find_spec ok w.d x hw.inv
    refine ⟨{ w with d := d' }, by simp only [walkStep, e1, Option.map_some], ⟨e2, fun k hT => (pres_perm e3).2 (hw.pres k hT), fun y hy => (pres_perm e3).2 (hw.seenIn y hy), ?_, hw.finish, (fun h => by show d'.iters < _; rw [e4]; exact hw.fresh h), hw.visited⟩, ?_⟩
    · intro hd
      obtain ⟨suf, ht, hseen, hcnt⟩ := hw.iter hd
      cases hx : w.it.index with
      | some i =>
        have : d' = w.d := e5 (ht.iters (by rw [hx]; simp))
        subst this
        exact ⟨suf, ht, hseen, hcnt⟩
      | none =>
        obtain ⟨hv, hs⟩ := hw.visited hd hx
        obtain ⟨s1, s2⟩ := ht.start hx
        refine ⟨[], ⟨ht.start, fun h => absurd hx h, (fun h => by rw [s1] at h; cases h), fun _ => rfl, (fun h => by rw [s2] at h; cases h)⟩, (fun y hy => by rw [show w.seen = [] from hs] at hy; cases hy), ?_⟩
        intro k hT
        right
        rw [hv]
        refine ⟨rfl, ?_⟩
        unfold rem
        simp only [hx]
        exact (pres_perm e3).2 (hw.pres k hT)
    · rw [size_eq e2, size_eq hw.inv, e3.length_eq]; omega
  | set x v =>
    obtain ⟨d', new, old, e1, e2⟩ := set_spec ok w.d x v hw.inv hsz
    have hpres : ∀ y, Pres ty y (ents w.d) → Pres ty y (ents d') := by
      intro y hy
      rcases e2.change with ⟨_, _, _, hp⟩ | ⟨_, e, R, hk, _, hp, hp'⟩
      · rw [pres_perm hp, pres_cons]; exact Or.inr hy
      · rw [pres_perm hp, pres_cons] at hy
        rw [pres_perm hp', pres_cons]
        exact hy
    refine ⟨{ w with d := d' }, by simp only [walkStep, e1, Option.map_some], ⟨e2.inv, fun k hT => hpres k (hw.pres k hT), fun y hy => hpres y (hw.seenIn y hy), ?_, hw.finish, (fun h => by show d'.iters < _; rw [e2.iters]; exact hw.fresh h), hw.visited⟩, ?_⟩
    · intro hd
      obtain ⟨suf, ht, hseen, hcnt⟩ := hw.iter hd
      cases hx : w.it.index with
      | none =>
        obtain ⟨hv, hs⟩ := hw.visited hd hx
        obtain ⟨s1, s2⟩ := ht.start hx
        refine ⟨[], ⟨ht.start, fun h => absurd hx h, (fun h => by rw [s1] at h; cases h), fun _ => rfl, (fun h => by rw [s2] at h; cases h)⟩, (fun y hy => by rw [show w.seen = [] from hs] at hy; cases hy), ?_⟩
        intro k hT
        right
        rw [hv]
        refine ⟨rfl, ?_⟩
        unfold rem
        simp only [hx]
        exact hpres k (hw.pres k hT)
      | some i =>
        have hne : w.it.index ≠ none := by rw [hx]; simp
        obtain ⟨d1, f1, f2⟩ := e2.edit (ht.iters hne)
        obtain ⟨g1, g2⟩ := expand_iter hw.inv hsz f1 ht hne
        rcases f2 with ⟨hnew, c, hed⟩ | ⟨hold, p, e, q, hk, hed⟩
        · -- a new key
          have hab : Absent ty x (ents w.d) := by
            rcases e2.change with ⟨_, _, h, _⟩ | ⟨h, _⟩
            · exact h
            · rw [hnew] at h; cases h
          have hother : ∀ y, Pres ty y (ents w.d) → ty.same x y = false := by
            intro y hy
            by_cases h : ty.same x y = true
            · exact absurd (pres_of_same ok (ok.symm _ _ h) hy) (not_pres.2 hab)
            · simpa using h
          obtain ⟨suf', i1, i2⟩ := edit_iter ok hed (.add v c) g1 hne (fun _ _ _ => Or.inr (Or.inr ⟨v, rfl⟩))
          rw [g2] at i2
          refine ⟨suf', i1, fun y hy => sim_absent i2 (hother y (hw.seenIn y hy)) (hseen y hy), ?_⟩
          intro k hT
          rcases hcnt k hT with ⟨h1, h2⟩ | ⟨h1, h2⟩
          · exact Or.inl ⟨h1, sim_absent i2 (hother k (hw.pres k hT)) h2⟩
          · exact Or.inr ⟨h1, (i2.pres k (hother k (hw.pres k hT))).2 h2⟩
        · -- an old key
          have hkeys : (p ++ (e.1, v) :: q).map (·.1) = (p ++ e :: q).map (·.1) := by simp
          obtain ⟨suf', i1, i2⟩ := edit_iter ok hed (.rev (ty := ty) (k := x) p e v q) g1 hne (fun _ _ _ => Or.inr (Or.inl hkeys))
          rw [g2] at i2
          have hk2 := i2.keys hkeys
          refine ⟨suf', i1, fun y hy => ?_, ?_⟩
          · rw [← not_pres, pres_keys hk2, not_pres]; exact hseen y hy
          · intro k hT
            rcases hcnt k hT with ⟨h1, h2⟩ | ⟨h1, h2⟩
            · left; refine ⟨h1, ?_⟩
              rw [← not_pres, pres_keys hk2, not_pres]; exact h2
            · right; exact ⟨h1, (pres_keys hk2).2 h2⟩
    · rw [size_eq e2.inv, size_eq hw.inv]
      rcases e2.change with ⟨_, _, _, hp⟩ | ⟨_, e, R, _, _, hp, hp'⟩
      · rw [hp.length_eq]; simp
      · rw [hp.length_eq, hp'.length_eq]; simp
  | del x =>
    obtain ⟨d', o, e1, e2⟩ := delete_spec ok w.d x hw.inv
    obtain ⟨y0, hy0, hxy⟩ := hcare x rfl
    have hkx := hkept x rfl
    have hpres : ∀ y, ty.same x y = false → Pres ty y (ents w.d) → Pres ty y (ents d') := by
      intro y hy hp0
      rcases e2.change with ⟨_, _, hp⟩ | ⟨e, R, hk, _, hp, hp'⟩
      · rw [pres_perm hp]; exact hp0
      · rw [pres_perm hp, pres_cons] at hp0
        rw [pres_perm hp']
        rcases hp0 with h | h
        · have := ok.trans _ _ _ hk (ok.symm _ _ h)
          rw [this] at hy; cases hy
        · exact h
    have hseen' : ∀ y ∈ w.seen.filter (fun z => !ty.same x z), y ∈ w.seen ∧ ty.same x y = false := by
      intro y hy
      obtain ⟨h1, h2⟩ := List.mem_filter.1 hy
      exact ⟨h1, by simpa using h2⟩
    refine ⟨{ w with d := d', seen := w.seen.filter fun z => !ty.same x z }, by simp only [walkStep, e1, Option.map_some],
      ⟨e2.inv, fun k hT => hpres k (hkx k hT) (hw.pres k hT), fun y hy => hpres y (hseen' y hy).2 (hw.seenIn y (hseen' y hy).1), ?_, hw.finish, (fun h => by show d'.iters < _; rw [e2.iters]; exact hw.fresh h), ?_⟩, ?_⟩
    · intro hd
      obtain ⟨suf, ht, hseen, hcnt⟩ := hw.iter hd
      cases hx : w.it.index with
      | none =>
        obtain ⟨_, hs⟩ := hw.visited hd hx
        rw [hs] at hy0; cases hy0
      | some i =>
        have hne : w.it.index ≠ none := by rw [hx]; simp
        rcases e2.edit (ht.iters hne) with hsame | ⟨p, e, q, hk, hed⟩
        · subst hsame
          exact ⟨suf, ht, fun y hy => hseen y (hseen' y hy).1, hcnt⟩
        · have hn : ∀ a s, suf = a :: s → ty.same x a.1 = false := by
            intro a s hs
            have h1 := hseen y0 hy0 a (by unfold rem; rw [hx]; simp [hs])
            by_cases h : ty.same x a.1 = true
            · have := ok.trans _ _ _ (ok.symm _ _ hxy) h
              rw [this] at h1; cases h1
            · simpa using h
          obtain ⟨suf', i1, i2⟩ := edit_iter ok hed (.del p e q hk) ht hne (fun a s h => Or.inl (hn a s h))
          refine ⟨suf', i1, fun y hy => sim_absent i2 (hseen' y hy).2 (hseen y (hseen' y hy).1), ?_⟩
          intro k hT
          rcases hcnt k hT with ⟨h1, h2⟩ | ⟨h1, h2⟩
          · exact Or.inl ⟨h1, sim_absent i2 (hkx k hT) h2⟩
          · exact Or.inr ⟨h1, (i2.pres k (hkx k hT)).2 h2⟩
    · intro hd hx
      obtain ⟨h1, h2⟩ := hw.visited hd hx
      exact ⟨h1, by simp only [h2]; rfl⟩
    · rw [size_eq e2.inv, size_eq hw.inv]
      rcases e2.change with ⟨_, _, hp⟩ | ⟨e, R, _, _, hp, hp'⟩
      · rw [hp.length_eq]; omega
      · rw [hp.length_eq, hp'.length_eq]; simp; omega

theorem walk_inv {ty : Ty K} (ok : ty.Ok) (es : List (Ev K V)) (w : Walk K V) (T : K → Prop) (hw : WInv ty w T)
    (hcare : careful ty w es = true) (hkept : ∀ k, T k → Kept ty.same k es) (hsz : size w.d + es.length < 2 ^ 61) :
    ∃ w', walk ty w es = some w' ∧ WInv ty w' T := by
  induction es generalizing w with
  | nil => exact ⟨w, rfl, hw⟩
  | cons ev es ih =>
    unfold careful at hcare
    rw [Bool.and_eq_true] at hcare
    have hc1 : ∀ x, ev = .del x → ∃ y ∈ w.seen, ty.same x y = true := by
      intro x hx
      have := hcare.1
      rw [hx] at this
      simpa using this
    obtain ⟨w', h1, h2, h3⟩ := walk_step ok w T hw ev hc1 (fun x hx k hT => hkept k hT x (by rw [hx]; simp))
      (by simp at hsz; omega)
    obtain ⟨w2, h4, h5⟩ := ih w' h2 (by have := hcare.2; rw [h1] at this; exact this) (fun k hT x hx => hkept k hT x (by simp [hx])) (by simp at hsz; omega)
    exact ⟨w2, by simp only [walk, h1, Option.bind_some, h4], h5⟩

theorem begin_inv {ty : Ty K} {d : Dict K V} (hi : Inv ty d) (hit : d.iters < 2 ^ 64 - 1) (T : K → Prop)
    (hT : ∀ k, T k → Pres ty k (ents d)) : WInv ty (begin_ d) T :=
  ⟨hi, hT, (fun x hx => by cases hx), fun _ => ⟨[], ⟨fun _ => ⟨rfl, rfl⟩, fun h => absurd rfl h, (fun h => by cases h), fun _ => rfl,
    (fun h => by cases h)⟩, (fun x hx => by cases hx), fun k h => Or.inr ⟨rfl, hT k h⟩⟩, (fun h => by cases h), fun _ => hit,
    fun _ _ => ⟨rfl, rfl⟩⟩

theorem reach_size {ty : Ty K} {os : List (Op K V)} {d : Dict K V} {f : List V} (h2 : Reach ty os d f) : size d ≤ (given os).length := by
  rw [size_eq h2.inv]
  have := h2.freed.length_eq
  simp at this
  omega

/-- C64.  Take a map after any history, iterate over it, and between the calls look up, set and add keys and delete entries
already returned.  The iteration never touches memory that is gone, and when it ends, every key that was in the map at the start
and was not deleted has been returned exactly once - even while entries move between tables and the table grows. -/
theorem C64_each_once {ty : Ty K} (ok : ty.Ok) (os : List (Op K V)) (es : List (Ev K V))
    (hsz : (given os).length + es.length < 2 ^ 61) :
    ∃ d f, run ty create os = some (d, f) ∧ (d.iters < 2 ^ 64 - 1 → careful ty (begin_ d) es = true →
      ∃ w, walk ty (begin_ d) es = some w ∧ (w.done = true →
        ∀ k v, getValue ty d k = some (some v) → Kept ty.same k es → countKey ty.same k w.visited = 1)) := by
  obtain ⟨d, f, h1, h2⟩ := reach_run ok os (by omega)
  refine ⟨d, f, h1, fun hit hcare => ?_⟩
  have hsize := reach_size h2
  obtain ⟨w, h3, h4⟩ := walk_inv ok es (begin_ d) (fun k => Pres ty k (ents d) ∧ Kept ty.same k es)
    (begin_inv h2.inv hit _ (fun k h => h.1)) hcare (fun k h => h.2) (by show size d + _ < _; omega)
  refine ⟨w, h3, fun hd k v hv hk => h4.finish hd k ⟨?_, hk⟩⟩
  rw [getValue_spec ok h2] at hv
  obtain ⟨e, he, hs, _⟩ := (h2.agree k v).1 (Option.some.inj hv)
  exact ⟨e, he, hs⟩

/-- C64.  Every entry the iteration returns is in the map at that moment, with its value of that moment. -/
theorem C64_current {ty : Ty K} (ok : ty.Ok) (os : List (Op K V)) (es : List (Ev K V))
    (hsz : (given os).length + es.length < 2 ^ 61) :
    ∃ d f, run ty create os = some (d, f) ∧ (d.iters < 2 ^ 64 - 1 → careful ty (begin_ d) es = true →
      ∃ w, walk ty (begin_ d) es = some w ∧ (w.done = false → ∃ d' it' o, next ty w.d w.it = some (d', it', o) ∧
        ∀ e, o = some e → getValue ty w.d e.1 = some (some e.2))) := by
  obtain ⟨d, f, h1, h2⟩ := reach_run ok os (by omega)
  refine ⟨d, f, h1, fun hit hcare => ?_⟩
  have hsize := reach_size h2
  obtain ⟨w, h3, h4⟩ := walk_inv ok es (begin_ d) (fun _ => False)
    (begin_inv h2.inv hit _ (fun k h => h.elim)) hcare (fun k h => h.elim) (by show size d + _ < _; omega)
  refine ⟨w, h3, fun hd => ?_⟩
  obtain ⟨suf, ht, _⟩ := h4.iter hd
  obtain ⟨d', it', o, suf', e1, e2⟩ := next_spec ok w.d w.it suf h4.inv ht h4.fresh
  refine ⟨d', it', o, e1, fun e ho => ?_⟩
  have hin : e ∈ ents w.d := rem_sub ht (by rw [e2.some e ho]; simp)
  obtain ⟨d2, o2, g1, g2, g3, _, _, g6⟩ := find_spec ok w.d e.1 h4.inv
  unfold getValue
  rw [g1]
  rcases g6 with ⟨_, hab⟩ | ⟨e', R, ho', hk, hp⟩
  · have := hab e hin
    rw [ok.refl] at this; cases this
  · rw [ho']
    have hd2 : Distinct ty (e' :: R) := h4.inv.uniq.perm ok hp
    rcases List.mem_cons.1 (hp.mem_iff.1 hin) with h | h
    · rw [← h]; rfl
    · have := distinct_head ok hd2 hk (ok.refl e.1) e h
      rw [ok.refl] at this; cases this

/-- Without the restriction to entries already returned C64 fails: when the entry the iterator will go to next is deleted, the
iterator follows a pointer to memory already freed. -/
theorem C64_delete_ahead_violated :
    ((run intTy create [.set 1 10, .set 5 50]).bind fun r => walk intTy (begin_ r.1) [.next, .del 1, .next]).isNone = true := by
  decide +kernel

/-- The entries `[.set 1 .., .set 5 ..]` are iterated over while keys are added, replaced and deleted; the table grows meanwhile. -/
def sampleEv : List (Ev UInt64 Nat) :=
  [.next, .set 2 20, .set 5 51, .del 5, .set 3 30, .set 4 40, .set 6 60, .next, .get 1, .next, .next, .next, .next, .next]

example : ((run intTy create [.set 1 10, .set 5 50]).bind fun r => walk intTy (begin_ r.1) sampleEv).map
    (fun w => (w.done, w.visited, w.d.ridx)) = some (true, [(5, 50), (1, 10), (2, 20), (3, 30), (6, 60)], some 0) := by decide +kernel
example : ((run intTy create [.set 1 10, .set 5 50]).map fun r => careful intTy (begin_ r.1) sampleEv) = some true := by decide +kernel
example : ((run intTy create [.set 1 10, .set 5 50]).map fun r => careful intTy (begin_ r.1) [.next, .del 1]) = some false := by
  decide +kernel

end Sis.Dict
