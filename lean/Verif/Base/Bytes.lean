/-
Byte strings and little-endian integers, shared by all components.
These are not models of repository code; they fix the machine assumption of DESIGN.md
(64-bit little-endian, 8-bit bytes).
-/
namespace Sis

/-- A byte string, as found in a buffer, a file or on the wire (buffers and their lengths, e.g. `s_sis_memory`, src/core/sis_memory.h:14-19). -/
abbrev Bytes := List UInt8

/-- The `k` low-order bytes of `n`, least significant first: the memory image of an integer of
`k` bytes on a little-endian machine (as integers are stored by `memmove` in `sis_memory_cat_int`, src/core/sis_memory.c:146-209). -/
def leBytes : Nat → Nat → Bytes
  | 0, _ => []
  | k + 1, n => UInt8.ofNat (n % 256) :: leBytes k (n / 256)

/-- The unsigned integer whose little-endian memory image is the given byte string (as integers are read back by `sis_memory_get_int`, src/core/sis_memory.c:153-220). -/
def leVal : Bytes → Nat
  | [] => 0
  | b :: bs => b.toNat + 256 * leVal bs

@[simp] theorem leBytes_length (k n : Nat) : (leBytes k n).length = k := by
  induction k generalizing n with
  | zero => rfl
  | succ k ih => simp [leBytes, ih]

theorem leVal_leBytes (k n : Nat) : leVal (leBytes k n) = n % 256 ^ k := by
  induction k generalizing n with
  | zero => simp [leBytes, leVal, Nat.mod_one]
  | succ k ih =>
    simp only [leBytes, leVal, ih]
    have h1 : (UInt8.ofNat (n % 256)).toNat = n % 256 := by
      simp
    rw [h1, Nat.pow_succ, Nat.mul_comm (256 ^ k) 256, Nat.mod_mul]

theorem leVal_lt (bs : Bytes) : leVal bs < 256 ^ bs.length := by
  induction bs with
  | nil => simp [leVal]
  | cons b bs ih =>
    simp only [leVal, List.length_cons, Nat.pow_succ]
    have := b.toNat_lt
    omega

theorem leBytes_leVal (bs : Bytes) : leBytes bs.length (leVal bs) = bs := by
  induction bs with
  | nil => rfl
  | cons b bs ih =>
    simp only [List.length_cons, leBytes, leVal]
    have := b.toNat_lt
    have h1 : (b.toNat + 256 * leVal bs) % 256 = b.toNat := by omega
    have h2 : (b.toNat + 256 * leVal bs) / 256 = leVal bs := by omega
    rw [h1, h2, ih]
    simp

/-- Read `k` bytes off the front of a byte string; `none` when fewer are there (`sis_memory_move` behind a read, src/core/sis_memory.c:505-515). -/
def takeBytes (k : Nat) (bs : Bytes) : Option (Bytes × Bytes) :=
  if k ≤ bs.length then some (bs.take k, bs.drop k) else none

theorem takeBytes_append (a b : Bytes) : takeBytes a.length (a ++ b) = some (a, b) := by
  simp [takeBytes]

theorem takeBytes_append' {k : Nat} {a : Bytes} (b : Bytes) (h : a.length = k) :
    takeBytes k (a ++ b) = some (a, b) := by
  subst h; exact takeBytes_append a b

theorem takeBytes_eq_some {k : Nat} {bs a b : Bytes} :
    takeBytes k bs = some (a, b) ↔ bs = a ++ b ∧ a.length = k := by
  unfold takeBytes
  constructor
  · split
    · intro h
      cases h
      exact ⟨(List.take_append_drop k bs).symm, by simp; omega⟩
    · intro h; cases h
  · rintro ⟨rfl, rfl⟩; simp

theorem takeBytes_eq_none {k : Nat} {bs : Bytes} : takeBytes k bs = none ↔ bs.length < k := by
  unfold takeBytes; split <;> simp <;> omega

end Sis
