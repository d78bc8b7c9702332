import Verif.Memory.Ssize
/-
C01, C02: the size codec is lossless and self-delimiting.
-/
namespace Sis

theorem getByte_catByte {k : Nat} (hk : k = 1 ∨ k = 2 ∨ k = 4 ∨ k = 8) (v : Nat) (rest : Bytes) :
    getByte k (catByte v k ++ rest) = some (v % 256 ^ k, rest) := by
  simp only [getByte, catByte, if_pos hk]
  rw [takeBytes_append' rest (leBytes_length k v)]
  simp [leVal_leBytes]

/-- Reading one byte. -/
theorem getByte_one_cons (b : UInt8) (r : Bytes) : getByte 1 (b :: r) = some (b.toNat, r) := by
  simp [getByte, takeBytes, leVal]

/-- **C01** Whatever size `n` below 2^64 is appended and whatever follows it, reading a size yields `n`
and leaves exactly what followed. -/
theorem C01_ssize_roundtrip (n : Nat) (h : n < 2 ^ 64) (rest : Bytes) :
    getSsize (catSsize n ++ rest) = some (n, rest) := by
  unfold catSsize
  split
  · rw [List.append_assoc]
    unfold getSsize
    rw [getByte_catByte (by simp)]
    simp only [show (254 : Nat) % 256 ^ 1 = 254 by decide]
    simp only [true_or, if_true]
    rw [getByte_catByte (by simp), Nat.mod_eq_of_lt (by omega)]
  split
  · rw [List.append_assoc]
    unfold getSsize
    rw [getByte_catByte (by simp)]
    simp only [show (253 : Nat) % 256 ^ 1 = 253 by decide]
    simp only [show ¬((253 : Nat) = 254 ∨ (253 : Nat) = 255) by decide, if_false, if_true]
    rw [getByte_catByte (by simp), Nat.mod_eq_of_lt (by omega)]
  split
  · rw [List.append_assoc]
    unfold getSsize
    rw [getByte_catByte (by simp)]
    simp only [show (252 : Nat) % 256 ^ 1 = 252 by decide]
    simp only [show ¬((252 : Nat) = 254 ∨ (252 : Nat) = 255) by decide,
      show ¬((252 : Nat) = 253) by decide, if_false, if_true]
    rw [getByte_catByte (by simp), Nat.mod_eq_of_lt (by omega)]
    simp; omega
  split
  · rw [List.append_assoc]
    unfold getSsize
    rw [getByte_catByte (by simp)]
    simp only [show (251 : Nat) % 256 ^ 1 = 251 by decide]
    simp only [show ¬((251 : Nat) = 254 ∨ (251 : Nat) = 255) by decide,
      show ¬((251 : Nat) = 253) by decide, show ¬((251 : Nat) = 252) by decide, if_false, if_true]
    rw [getByte_catByte (by simp), Nat.mod_eq_of_lt (by omega)]
    simp; omega
  · unfold getSsize
    rw [getByte_catByte (by simp), Nat.mod_eq_of_lt (by omega)]
    simp only
    rw [if_neg (by omega), if_neg (by omega), if_neg (by omega), if_neg (by omega)]

/-- The number of bytes reported by the writer is the number of bytes appended. -/
theorem C01_ssize_length (n : Nat) : (catSsize n).length = catSsizeRet n := by
  unfold catSsize catSsizeRet catByte
  repeat' split
  all_goals simp_all

example : getSsize (catSsize 0x123456789AB ++ [7, 8]) = some (0x123456789AB, [7, 8]) := by decide
example : getSsize (catSsize 65785 ++ [9]) = some (65785, [9]) := by decide

/-- Specification for C02, independent of the code: how many bytes an encoding occupies, judged by its
first byte. -/
def ssizeSpan (first : UInt8) : Nat :=
  if first.toNat ≤ 250 then 1
  else if first.toNat = 251 then 2
  else if first.toNat = 252 then 3
  else if first.toNat = 253 then 5
  else 9

/-- A byte string starts with a complete encoding. -/
def StartsComplete (m : Bytes) : Prop := ∃ b r, m = b :: r ∧ ssizeSpan b ≤ m.length

theorem u8_eq_iff (b : UInt8) (n : Nat) (hn : n < 256) : b = UInt8.ofNat n ↔ b.toNat = n := by
  constructor
  · rintro rfl; simp; omega
  · intro h
    apply UInt8.toNat_inj.mp
    simp [h]; omega

/-- **C02** The completeness test answers yes exactly on byte strings that start with a complete
encoding. -/
theorem C02_try_iff_complete (m : Bytes) : trySsize m = true ↔ StartsComplete m := by
  cases m with
  | nil => simp [trySsize, StartsComplete]
  | cons b r =>
    have hb := b.toNat_lt
    have e1 := u8_eq_iff b 254 (by omega)
    have e2 := u8_eq_iff b 255 (by omega)
    have e3 := u8_eq_iff b 253 (by omega)
    have e4 := u8_eq_iff b 252 (by omega)
    have e5 := u8_eq_iff b 251 (by omega)
    simp only [StartsComplete, trySsize]
    constructor
    · intro h
      refine ⟨b, r, rfl, ?_⟩
      unfold ssizeSpan
      simp only [List.length_cons] at h ⊢
      change (if _ then _ else _) = true at h
      rw [if_neg (by omega)] at h
      simp only [show (254 : UInt8) = UInt8.ofNat 254 from rfl, show (255 : UInt8) = UInt8.ofNat 255 from rfl,
        show (253 : UInt8) = UInt8.ofNat 253 from rfl, show (252 : UInt8) = UInt8.ofNat 252 from rfl,
        show (251 : UInt8) = UInt8.ofNat 251 from rfl, e1, e2, e3, e4, e5] at h
      repeat' split at h
      all_goals simp only [decide_eq_true_eq] at h
      all_goals repeat' split
      all_goals omega
    · rintro ⟨b', r', hbr, hs⟩
      cases hbr
      unfold ssizeSpan at hs
      simp only [List.length_cons] at hs ⊢
      rw [if_neg (by omega)]
      simp only [show (254 : UInt8) = UInt8.ofNat 254 from rfl, show (255 : UInt8) = UInt8.ofNat 255 from rfl,
        show (253 : UInt8) = UInt8.ofNat 253 from rfl, show (252 : UInt8) = UInt8.ofNat 252 from rfl,
        show (251 : UInt8) = UInt8.ofNat 251 from rfl, e1, e2, e3, e4, e5]
      repeat' split at hs
      all_goals repeat' split
      all_goals simp only [decide_eq_true_eq]
      all_goals omega

/-- **C02** Whenever the completeness test answers yes, reading is in bounds; when it answers no,
reading would leave the received bytes. -/
theorem C02_try_iff_read_in_bounds (m : Bytes) : trySsize m = true ↔ (getSsize m).isSome = true := by
  rw [C02_try_iff_complete]
  cases m with
  | nil => simp [StartsComplete, getSsize, getByte, takeBytes]
  | cons b r =>
    have hb := b.toNat_lt
    have hg : ∀ k, (k = 1 ∨ k = 2 ∨ k = 4 ∨ k = 8) → ((getByte k r).isSome = true ↔ k ≤ r.length) := by
      intro k hk
      simp only [getByte, if_pos hk, Option.isSome_map]
      by_cases h : k ≤ r.length <;> simp [takeBytes, h]
    have hst : StartsComplete (b :: r) ↔ ssizeSpan b ≤ r.length + 1 := by
      constructor
      · rintro ⟨b', r', h, hs⟩; cases h; simpa using hs
      · intro h; exact ⟨b, r, rfl, by simpa using h⟩
    rw [hst]
    simp only [getSsize, getByte_one_cons]
    have hsp : ∀ k, (if b.toNat ≤ 250 then 1 else if b.toNat = 251 then 2 else if b.toNat = 252 then 3
        else if b.toNat = 253 then 5 else 9) = k → ssizeSpan b = k := fun k h => h
    by_cases h1 : b.toNat = 254 ∨ b.toNat = 255
    · rw [hsp 9 (by repeat' split
                    all_goals omega)]
      simp only [if_pos h1, hg 8 (by simp)]; omega
    by_cases h2 : b.toNat = 253
    · rw [hsp 5 (by repeat' split
                    all_goals omega)]
      simp only [if_neg h1, if_pos h2, hg 4 (by simp)]; omega
    by_cases h3 : b.toNat = 252
    · rw [hsp 3 (by repeat' split
                    all_goals omega)]
      simp only [if_neg h1, if_neg h2, if_pos h3, Option.isSome_map, hg 2 (by simp)]; omega
    by_cases h4 : b.toNat = 251
    · rw [hsp 2 (by repeat' split
                    all_goals omega)]
      simp only [if_neg h1, if_neg h2, if_neg h3, if_pos h4, Option.isSome_map, hg 1 (by simp)]; omega
    · rw [hsp 1 (by repeat' split
                    all_goals omega)]
      simp only [if_neg h1, if_neg h2, if_neg h3, if_neg h4]; simp

theorem trySsize_append_of_true {m : Bytes} (h : trySsize m = true) (r : Bytes) : trySsize (m ++ r) = true := by
  rw [C02_try_iff_complete] at *
  obtain ⟨b, t, rfl, hs⟩ := h
  exact ⟨b, t ++ r, rfl, by simp at *; omega⟩

/-- **C02** The test is exact on encodings: on the part of an encoding that has arrived it answers yes
exactly when all of it has. -/
theorem C02_try_on_prefix (n k : Nat) (h : n < 2 ^ 64) :
    trySsize ((catSsize n).take k) = true ↔ (catSsize n).length ≤ k := by
  constructor
  · intro ht
    rw [C02_try_iff_read_in_bounds] at ht
    rw [Option.isSome_iff_exists] at ht
    obtain ⟨⟨v, r⟩, hv⟩ := ht
    -- reading the whole encoding leaves nothing, and reading is extensible
    have hspan : StartsComplete ((catSsize n).take k) := by
      rw [← C02_try_iff_complete, C02_try_iff_read_in_bounds, hv]; rfl
    obtain ⟨b, t, hbt, hs⟩ := hspan
    have hlen : ssizeSpan b = (catSsize n).length := by
      have hcons : ∃ t', catSsize n = b :: t' := by
        rcases hk : catSsize n with _ | ⟨b', t'⟩
        · rw [hk] at hbt; simp at hbt
        · rw [hk] at hbt
          cases k with
          | zero => simp at hbt
          | succ k => simp at hbt; exact ⟨t', by rw [hbt.1]⟩
      obtain ⟨t', ht'⟩ := hcons
      have hx : ∀ v w, (∃ t', catByte v 1 ++ w = b :: t') → b.toNat = v % 256 := by
        intro v w ⟨t', ht⟩
        simp only [catByte, true_or, if_true, leBytes, List.cons_append, List.cons.injEq] at ht
        rw [← ht.1]; simp
      rw [C01_ssize_length]
      unfold catSsize at ht'
      unfold ssizeSpan catSsizeRet
      split at ht'
      · have := hx 254 _ ⟨_, ht'⟩; rw [this]; rename_i h; rw [if_pos h]; rfl
      split at ht'
      · have := hx 253 _ ⟨_, ht'⟩; rw [this]; rename_i h1 h2; rw [if_neg h1, if_pos h2]; rfl
      split at ht'
      · have := hx 252 _ ⟨_, ht'⟩; rw [this]; rename_i h1 h2 h3; rw [if_neg h1, if_neg h2, if_pos h3]; rfl
      split at ht'
      · have := hx 251 _ ⟨_, ht'⟩; rw [this]; rename_i h1 h2 h3 h4
        rw [if_neg h1, if_neg h2, if_neg h3, if_pos h4]; rfl
      · have := hx n [] ⟨_, by rw [List.append_nil]; exact ht'⟩
        rename_i h1 h2 h3 h4
        rw [if_pos (by omega), if_neg h1, if_neg h2, if_neg h3, if_neg h4]
    have : ((catSsize n).take k).length ≤ k := by simp; omega
    omega
  · intro hk
    rw [List.take_of_length_le hk, C02_try_iff_read_in_bounds]
    have := C01_ssize_roundtrip n h []
    rw [List.append_nil] at this
    rw [this]; rfl

/-- **C02** No encoded size is a prefix of (another) encoded size: a stream of encoded sizes can be cut
in only one way. -/
theorem C02_prefix_free (n m : Nat) (hn : n < 2 ^ 64) (hm : m < 2 ^ 64) (r : Bytes)
    (h : catSsize m = catSsize n ++ r) : n = m ∧ r = [] := by
  have h1 := C01_ssize_roundtrip m hm []
  have h2 := C01_ssize_roundtrip n hn r
  rw [List.append_nil, h, h2] at h1
  cases h1
  exact ⟨rfl, rfl⟩

example : trySsize ((catSsize 70000).take 4) = false ∧ trySsize ((catSsize 70000).take 5) = true := by decide
example : (70000 : Nat) < 2 ^ 64 := by decide

end Sis
