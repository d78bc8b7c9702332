import Verif.Bits.Lemmas
import Verif.Bits.Codec
/-
Composable reasoning about writers and readers of the bit stream.
-/
namespace Sis
namespace BitS

/-- The bits in front of the cursor. -/
def view (s : BitS) : List Bool := (toBits s.buf).drop s.pos

/-- Cursor moved forward by `n` bits. -/
def adv (s : BitS) (n : Nat) : BitS := ⟨s.buf, s.pos + n⟩

theorem view_adv (s : BitS) (n : Nat) : (s.adv n).view = s.view.drop n := by
  simp [view, adv, List.drop_drop]

theorem adv_adv (s : BitS) (a b : Nat) : (s.adv a).adv b = s.adv (a + b) := by
  simp [adv, Nat.add_assoc]

/-- The bits written by a list of `put` calls. -/
def callBits (cs : List (Nat × Nat)) : List Bool := cs.flatMap fun c => natBits c.2 c.1

theorem callBits_cons (c : Nat × Nat) (cs) : callBits (c :: cs) = natBits c.2 c.1 ++ callBits cs := by
  simp [callBits]

theorem callBits_append (a b) : callBits (a ++ b) = callBits a ++ callBits b := by
  simp [callBits]

theorem putAll_append (s : BitS) (a b : List (Nat × Nat)) :
    putAll s (a ++ b) = (putAll s a).bind fun s' => putAll s' b := by
  induction a generalizing s with
  | nil => rfl
  | cons c a ih =>
    obtain ⟨v, k⟩ := c
    simp only [List.cons_append, putAll]
    cases put s v k with
    | none => rfl
    | some s' => exact ih s'

/-- All widths are legal. -/
def Widths (cs : List (Nat × Nat)) : Prop := ∀ c ∈ cs, c.2 ≤ 64

theorem putAll_spec (cs : List (Nat × Nat)) (s : BitS) (hw : Widths cs)
    (hroom : s.pos + (callBits cs).length ≤ 8 * s.buf.length) :
    ∃ s', putAll s cs = some s' ∧ s'.pos = s.pos + (callBits cs).length ∧ s'.buf.length = s.buf.length ∧
      (toBits s'.buf).take s'.pos = (toBits s.buf).take s.pos ++ callBits cs := by
  induction cs generalizing s with
  | nil => exact ⟨s, rfl, by simp [callBits], rfl, by simp [callBits]⟩
  | cons c cs ih =>
    obtain ⟨v, k⟩ := c
    have hk : k ≤ 64 := hw (v, k) (by simp)
    rw [callBits_cons, List.length_append, natBits_length] at hroom
    obtain ⟨s1, a1, a2, a3, a4⟩ := put_spec s v k hk (by simp only at hroom; omega)
    obtain ⟨s2, b1, b2, b3, b4⟩ := ih s1 (fun c hc => hw c (by simp [hc])) (by simp only at hroom; omega)
    refine ⟨s2, ?_, ?_, by omega, ?_⟩
    · simp [putAll, a1, b1]
    · rw [b2, a2, callBits_cons, List.length_append, natBits_length]; simp only; omega
    · rw [b4, a4, callBits_cons, List.append_assoc]

/-- After a successful write, reading from the old cursor sees the written bits. -/
theorem view_after {s s' : BitS} {l : List Bool} (hp : s'.pos = s.pos + l.length)
    (hlen : s'.buf.length = s.buf.length) (hle : s.pos ≤ 8 * s.buf.length)
    (ht : (toBits s'.buf).take s'.pos = (toBits s.buf).take s.pos ++ l) :
    (⟨s'.buf, s.pos⟩ : BitS).view = l ++ (toBits s'.buf).drop s'.pos := by
  unfold view
  simp only
  conv => lhs; rw [← List.take_append_drop s'.pos (toBits s'.buf), ht]
  rw [List.append_assoc, List.drop_append_of_le_length (by simp; omega),
    List.drop_of_length_le (by simp; omega), List.nil_append]

/-- `f` reads exactly the bits `l` and yields `v`. -/
def Rd {α : Type} (f : BitS → Option (α × BitS)) (l : List Bool) (v : α) : Prop :=
  ∀ s rest, s.view = l ++ rest → f s = some (v, s.adv l.length)

theorem Rd_get (k x : Nat) (h1 : 1 ≤ k) (h2 : k ≤ 64) : Rd (fun s => s.get k) (natBits k x) (x % 2 ^ k) := by
  intro s rest hv
  have hlen : s.view.length = k + rest.length := by rw [hv]; simp
  have hvl : s.view.length = 8 * s.buf.length - s.pos := by simp [view]
  change s.get k = _
  rw [get_spec s k h1 h2 (by omega)]
  have : (toBits s.buf).drop s.pos = s.view := rfl
  rw [this, hv, List.take_append_of_le_length (by simp), List.take_of_length_le (by simp), bitsVal_natBits]
  simp [adv]

theorem Rd_pure {α : Type} (v : α) : Rd (fun s => some (v, s)) [] v := by
  intro s rest _
  simp [adv]

theorem Rd_bind {α β : Type} {f : BitS → Option (α × BitS)} {g : α → BitS → Option (β × BitS)}
    {l₁ l₂ : List Bool} {a : α} {b : β} (hf : Rd f l₁ a) (hg : Rd (g a) l₂ b) :
    Rd (fun s => (f s).bind fun p => g p.1 p.2) (l₁ ++ l₂) b := by
  intro s rest hv
  rw [List.append_assoc] at hv
  simp only [hf s _ hv, Option.bind_some]
  rw [hg (s.adv l₁.length) rest (by rw [view_adv, hv]; simp)]
  rw [adv_adv, List.length_append]

theorem Rd_map {α β : Type} {f : BitS → Option (α × BitS)} {g : α → β}
    {l : List Bool} {a : α} (hf : Rd f l a) :
    Rd (fun s => (f s).bind fun p => some (g p.1, p.2)) l (g a) := by
  intro s rest hv
  simp [hf s _ hv]

theorem Rd.view_eq {α : Type} {f : BitS → Option (α × BitS)} {l : List Bool} {v : α} (h : Rd f l v)
    {s : BitS} {rest : List Bool} (hv : s.view = l ++ rest) :
    f s = some (v, s.adv l.length) ∧ (s.adv l.length).view = rest :=
  ⟨h s rest hv, by rw [view_adv, hv]; simp⟩

/-- One `get` in front of known bits. -/
theorem get_step {s : BitS} {rest : List Bool} (k x : Nat) (h1 : 1 ≤ k) (h2 : k ≤ 64)
    (hv : s.view = natBits k x ++ rest) :
    s.get k = some (x % 2 ^ k, s.adv k) ∧ (s.adv k).view = rest := by
  have := (Rd_get k x h1 h2).view_eq hv
  simpa using this

/-! ### masks -/

theorem and_shift (d k m : Nat) : d &&& (k <<< m) = ((d >>> m) &&& k) <<< m := by
  apply Nat.eq_of_testBit_eq
  intro i
  simp only [Nat.testBit_and, Nat.testBit_shiftLeft, Nat.testBit_shiftRight]
  by_cases h : m ≤ i
  · simp [h]
  · simp [h]

/-- A mask of the bits `m..n-1` tests whether a number below `2^n` reaches `2^m`. -/
theorem mask_eq_zero {d : Nat} (n m mask : Nat) (hm : mask = (2 ^ (n - m) - 1) <<< m) (hmn : m ≤ n) (hd : d < 2 ^ n) :
    (d &&& mask = 0) ↔ d < 2 ^ m := by
  subst hm
  rw [and_shift, Nat.and_two_pow_sub_one_eq_mod]
  have hlt : d >>> m < 2 ^ (n - m) := by
    rw [Nat.shiftRight_eq_div_pow, Nat.div_lt_iff_lt_mul (Nat.two_pow_pos _), ← Nat.pow_add]
    rwa [show n - m + m = n by omega]
  rw [Nat.mod_eq_of_lt hlt, Nat.shiftLeft_eq]
  have hp := Nat.two_pow_pos m
  constructor
  · intro h
    have : d >>> m = 0 := by
      rcases Nat.mul_eq_zero.mp h with h | h
      · exact h
      · omega
    rw [Nat.shiftRight_eq_div_pow] at this
    exact (Nat.div_eq_zero_iff_lt hp).mp this
  · intro h
    rw [Nat.shiftRight_eq_div_pow, Nat.div_eq_of_lt h, Nat.zero_mul]

/-- Writing `prefix | value` in one call is writing the prefix and then the value. -/
theorem natBits_or {d b : Nat} (a p m : Nat) (hm : m = p <<< b) (hd : d < 2 ^ b) :
    natBits (a + b) (d ||| m) = natBits a p ++ natBits b d := by
  subst hm
  rw [natBits_append, Nat.or_comm, ← Nat.shiftLeft_add_eq_or_of_lt hd]
  congr 1
  · congr 1
    rw [Nat.shiftRight_eq_div_pow, Nat.shiftLeft_eq, Nat.mul_comm, Nat.mul_add_div (Nat.two_pow_pos _),
      Nat.div_eq_of_lt hd, Nat.add_zero]
  · rw [← natBits_mod, Nat.shiftLeft_eq, Nat.mul_comm, Nat.mul_add_mod, Nat.mod_eq_of_lt hd]

end BitS
end Sis
