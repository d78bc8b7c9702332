import Verif.Lists.StructListLemmas
/-
C40: the record array behaves as a list of records under every history of operations.
-/
namespace Sis.SL

variable {α : Type}

/-- The calls of the record array. -/
inductive Op (α : Type)
  | pushs (rs : List α)
  | update (i : Int) (r : α)
  | inserts (i : Int) (rs : List α)
  | get (i : Int)
  | pop
  | delete (i n : Int)
  | clear
  | rect (n : Int)
  | limit (n : Int)
  | pack
  | set (rs : List α)

/-- What a call answers. -/
inductive Out (α : Type)
  | num (n : Int)
  | val (r : Option α)
  | unit
deriving DecidableEq

/-- The program: one call. -/
def step (s : SList α) : Op α → Option (SList α × Out α)
  | .pushs rs => (pushs s rs).map fun p => (p.1, .num p.2)
  | .update i r => (update s i r).map fun p => (p.1, .num p.2)
  | .inserts i rs => (inserts s i rs).map fun p => (p.1, .num p.2)
  | .get i => (get s i).map fun r => (s, .val r)
  | .pop => (pop s).map fun p => (p.1, .val p.2)
  | .delete i n => (delete s i n).map fun p => (p.1, .num p.2)
  | .clear => some (clear s, .unit)
  | .rect n => (rect s n).map fun s => (s, .unit)
  | .limit n => some (limit s n, .unit)
  | .pack => (pack s).map fun p => (p.1, .num p.2)
  | .set rs => (set s rs).map fun p => (p.1, .num p.2)

/-- Specification: the same calls on a plain list.  Positions outside the list are refused by `get`, `update` and
`delete`; `insert` inserts at the front for a negative position and appends for a position behind the end. -/
def specStep (l : List α) : Op α → List α × Out α
  | .pushs rs => (l ++ rs, .num ((l ++ rs).length - 1))
  | .update i r => if 0 ≤ i ∧ i < l.length then (l.set i.toNat r, .num i) else (l, .num (-1))
  | .inserts i rs =>
    if i < l.length then
      if i < 0 then if l = [] then (rs, .num (rs.length - 1)) else (rs ++ l, .num 0)
      else (l.take i.toNat ++ rs ++ l.drop i.toNat, .num i)
    else (l ++ rs, .num ((l ++ rs).length - 1))
  | .get i => (l, .val (if 0 ≤ i then l[i.toNat]? else none))
  | .pop => (l.tail, .val l.head?)
  | .delete i n =>
    if 0 ≤ i ∧ 1 ≤ n ∧ i + n ≤ l.length then (l.take i.toNat ++ l.drop (i + n).toNat, .num n) else (l, .num 0)
  | .clear => ([], .unit)
  | .rect n => (if 1 ≤ n ∧ n ≤ l.length then l.drop (l.length - n.toNat) else l, .unit)
  | .limit n => (if 1 ≤ n ∧ n ≤ l.length then l.drop (l.length - n.toNat) else l, .unit)
  | .pack => (l, .num l.length)
  | .set rs => (if rs = [] then l else rs, .num rs.length)

/-- The program on a history: the answers, `none` when a call is undefined. -/
def run (s : SList α) : List (Op α) → Option (SList α × List (Out α))
  | [] => some (s, [])
  | o :: os => do
    let (s, a) ← step s o
    let (s, as) ← run s os
    some (s, a :: as)

/-- The specification on a history. -/
def specRun (l : List α) : List (Op α) → List α × List (Out α)
  | [] => (l, [])
  | o :: os => ((specRun (specStep l o).1 os).1, (specStep l o).2 :: (specRun (specStep l o).1 os).2)

/-- The records a call brings in. -/
def Op.added : Op α → Nat
  | .pushs rs => rs.length
  | .inserts _ rs => rs.length
  | .set rs => rs.length
  | _ => 0

/-- The records a history brings in. -/
def added (os : List (Op α)) : Nat := (os.map Op.added).sum

theorem newMax_room {a b len : Nat} (h : 16 * (a + b + 1) * len < intMax) (c : Nat) (hc : c ≤ a + b) :
    newMax c * len < intMax := by
  have h1 : newMax c ≤ 16 * (a + b + 1) := by
    by_cases h0 : 1 ≤ c
    · have := newMax_le c h0; omega
    · have : c = 0 := by omega
      subst this; show 16 ≤ _; omega
  exact Nat.lt_of_le_of_lt (Nat.mul_le_mul_right len h1) h

theorem step_spec {s : SList α} {l : List α} (r : Rep s l) (o : Op α) (hsz : 16 * (l.length + o.added + 1) * s.len < intMax) :
    ∃ s', step s o = some (s', (specStep l o).2) ∧ Rep s' (specStep l o).1 ∧ s'.len = s.len ∧
      (specStep l o).1.length ≤ l.length + o.added := by
  cases o with
  | pushs rs =>
    obtain ⟨s', h1, h2, h3⟩ := pushs_spec r rs (newMax_room hsz _ (by simp [Op.added]))
    exact ⟨s', by simp [step, h1, specStep], h2, h3, by simp [specStep, Op.added]⟩
  | update i x =>
    obtain ⟨s', h1, h2, h3⟩ := update_spec r i x
    refine ⟨s', ?_, ?_, h3, ?_⟩
    · simp only [step, h1, specStep, Option.map_some]; split <;> rfl
    · simp only [specStep]
      split at h2 <;> rename_i h <;> simp only [h] <;> exact h2
    · simp only [specStep, Op.added]; split <;> simp
  | inserts i rs =>
    obtain ⟨s', h1, h2, h3⟩ := inserts_spec r i rs (newMax_room hsz _ (by simp [Op.added]))
    have hspec : specStep l (.inserts i rs) = (l.take i.toNat ++ rs ++ l.drop i.toNat,
        .num (if l.length < 1 ∨ i > (l.length : Int) - 1 then ((l ++ rs).length : Int) - 1 else if i < 0 then 0 else i)) := by
      simp only [specStep]
      by_cases h : i < l.length
      · rw [if_pos h]
        by_cases h' : i < 0
        · have h0 : i.toNat = 0 := by omega
          simp only [if_pos h', h0]
          cases l with
          | nil => simp
          | cons x l => simp; omega
        · rw [if_neg h', if_neg (by omega), if_neg h']
      · rw [if_neg h, if_pos (by omega), List.take_of_length_le (by omega), List.drop_eq_nil_iff.2 (by omega)]
        simp
    rw [hspec]
    exact ⟨s', by simp [step, h1], h2, h3, by simp [Op.added]; omega⟩
  | get i =>
    exact ⟨s, by simp [step, get_spec r i, specStep], r, rfl, by simp [specStep]⟩
  | pop =>
    obtain ⟨s', h1, h2, h3⟩ := pop_spec r
    exact ⟨s', by simp [step, h1, specStep], h2, h3, by simp [specStep]; omega⟩
  | delete i n =>
    obtain ⟨s', h1, h2, h3⟩ := delete_spec r i n
    refine ⟨s', ?_, ?_, h3, ?_⟩
    · simp only [step, h1, specStep, Option.map_some]
      split
      · rw [if_neg (by omega)]
      · rw [if_pos (by omega)]
    · simp only [specStep]
      split at h2
      · rw [if_neg (by omega)]; exact h2
      · rw [if_pos (by omega)]; exact h2
    · simp only [specStep, Op.added]; split
      · simp; omega
      · simp
  | clear => exact ⟨clear s, rfl, clear_spec, rfl, by simp [specStep]⟩
  | rect n =>
    obtain ⟨s', h1, h2, h3⟩ := rect_spec r n
    refine ⟨s', by simp [step, h1, specStep], ?_, h3, ?_⟩
    · simp only [specStep]
      split at h2
      · rw [if_neg (by omega)]; exact h2
      · rw [if_pos (by omega)]; exact h2
    · simp only [specStep, Op.added]; split <;> simp
  | limit n =>
    obtain ⟨h2, h3⟩ := limit_spec r n
    refine ⟨limit s n, rfl, ?_, h3, ?_⟩
    · simp only [specStep]
      split at h2
      · rw [if_neg (by omega)]; exact h2
      · rw [if_pos (by omega)]; exact h2
    · simp only [specStep, Op.added]; split <;> simp
  | pack =>
    obtain ⟨s', h1, h2, h3⟩ := pack_spec r
    exact ⟨s', by simp [step, h1, specStep], h2, h3, by simp [specStep]⟩
  | set rs =>
    obtain ⟨s', h1, h2, h3⟩ := set_spec s r rs (by
      refine Nat.lt_of_le_of_lt (Nat.mul_le_mul_right _ ?_) hsz
      simp [Op.added]; omega)
    refine ⟨s', by simp [step, h1, specStep], h2, h3, ?_⟩
    simp only [specStep, Op.added]; split <;> omega

theorem run_spec {s : SList α} {l : List α} (r : Rep s l) (os : List (Op α))
    (hsz : 16 * (l.length + added os + 1) * s.len < intMax) :
    ∃ s', run s os = some (s', (specRun l os).2) ∧ Rep s' (specRun l os).1 ∧ s'.len = s.len := by
  induction os generalizing s l with
  | nil => exact ⟨s, rfl, r, rfl⟩
  | cons o os ih =>
    have hadd : added (o :: os) = o.added + added os := by simp [added]
    obtain ⟨s1, h1, h2, h3, h4⟩ := step_spec r o (Nat.lt_of_le_of_lt (Nat.mul_le_mul_right _ (by omega)) hsz)
    obtain ⟨s2, h5, h6, h7⟩ := ih h2 (by rw [h3]; exact Nat.lt_of_le_of_lt (Nat.mul_le_mul_right _ (by omega)) hsz)
    refine ⟨s2, ?_, h6, h7.trans h3⟩
    simp only [run, h1, Option.bind_eq_bind, Option.bind_some, h5]
    rfl

/-- C40: starting from an empty record array, every history of calls answers exactly what the same calls answer on a
plain list, and never leaves its buffer.  The hypothesis bounds the memory the history may need by what a C `int` of
bytes can describe. -/
theorem C40_struct_list_is_list (len : Nat) (hlen : 1 ≤ len) (os : List (Op α))
    (hsz : 16 * (added os + 1) * len < intMax) :
    ∃ s, create len = some s ∧ (run s os).map (·.2) = some (specRun [] os).2 := by
  refine ⟨⟨[], 0, 0, len⟩, if_neg (by omega), ?_⟩
  obtain ⟨s', h, _⟩ := run_spec (s := ⟨[], 0, 0, len⟩) (l := ([] : List α)) ⟨rfl, by simp, by simp⟩ os (by simpa using hsz)
  rw [h]; rfl

/-- The hypothesis is met by ordinary histories, here four-byte records. -/
example : 16 * (added ([.pushs [1, 2, 3], .inserts 1 [7, 8], .delete 0 2, .pop, .get 0] : List (Op Nat)) + 1) * 4 < intMax := by
  decide

/-- and the answers are what one expects -/
example : (specRun [] ([.pushs [1, 2, 3], .inserts 1 [7, 8], .delete 0 2, .pop, .get 0, .get 5] : List (Op Nat))).2
    = [.num 2, .num 1, .num 2, .val (some 8), .val (some 2), .val none] := by decide

/-- C40 for copies: a copy of a non-empty record array holds the same records, whatever the copy held before. -/
theorem C40_clone_partial (slen len : Nat) (hs : 1 ≤ slen) (hl : 1 ≤ len) (os₁ os₂ : List (Op α))
    (h₁ : 16 * (added os₁ + 1) * slen < intMax) (h₂ : 16 * (added os₂ + 1) * len < intMax)
    (hcopy : (specRun [] os₁).1.length * len < intMax) (hne : (specRun [] os₁).1 ≠ []) (i : Int) :
    ∃ a b a' b' c, create slen = some a ∧ create len = some b ∧ (run a os₁).map (·.1) = some a' ∧
      (run b os₂).map (·.1) = some b' ∧ (clone a' b').map (·.1) = some c ∧ get c i = get a' i := by
  obtain ⟨a', ha, ra, _⟩ := run_spec (s := ⟨[], 0, 0, slen⟩) (l := ([] : List α)) ⟨rfl, by simp, by simp⟩ os₁ (by simpa using h₁)
  obtain ⟨b', hb, rb, hlen⟩ := run_spec (s := ⟨[], 0, 0, len⟩) (l := ([] : List α)) ⟨rfl, by simp, by simp⟩ os₂ (by simpa using h₂)
  obtain ⟨c, hc, rc, _⟩ := clone_spec ra rb (by rw [hlen]; exact hcopy)
  refine ⟨_, _, a', b', c, if_neg (by omega), if_neg (by omega), by rw [ha]; rfl, by rw [hb]; rfl, by rw [hc]; rfl, ?_⟩
  rw [if_neg hne] at rc
  rw [get_spec rc, get_spec ra]

/-- C40 fails for copies of an empty record array: the copy keeps its old records. -/
theorem C40_clone_empty_violated :
    ∃ (a b b' c : SList Nat), create 4 = some a ∧ create 4 = some b ∧ (pushs b [7]).map (·.1) = some b' ∧
      (clone a b').map (·.1) = some c ∧ get c 0 = some (some 7) ∧ get a 0 = some none :=
  ⟨_, _, _, _, rfl, rfl, rfl, rfl, rfl, rfl⟩

end Sis.SL
