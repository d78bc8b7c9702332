import Verif.Strs.Case
/-
Decimal text of integers: `sis_lldtoa` / `sis_llutoa` of `src/os/linux/os_str.h`, always called in the modelled code
with a buffer of 32 bytes and radix 10, and the C library's `atoll` that reads the text back.
-/
namespace Sis.Num
open Sis

/-- The digit loop of `sis_lldtoa` (src/os/linux/os_str.h:112-128) and `sis_llutoa` (src/os/linux/os_str.h:145-184)
with radix 10: the digits of `v`, least significant first.  `ilen` is the room left in the buffer; `none` is the
early return with an empty string. -/
def digRev : Nat → Nat → Option Bytes
  | 0, _ => none
  | ilen + 1, v =>
    if ilen < 1 then none
    else if v / 10 > 0 then (digRev ilen (v / 10)).map fun r => UInt8.ofNat (v % 10 + 48) :: r
    else some [UInt8.ofNat (v % 10 + 48)]

/-- `sis_llutoa(v, buf, ilen, 10)` (src/os/linux/os_str.h:145-184): the string left in the buffer. -/
def llutoa (v : Nat) (ilen : Nat) : Bytes := ((digRev ilen v).map List.reverse).getD []

/-- `sis_lldtoa(v, buf, ilen, 10)` (src/os/linux/os_str.h:96-143): the string left in the buffer.  `none`: `v` is the
smallest 64-bit integer, whose negation overflows (undefined behaviour). -/
def lldtoa (v : Int) (ilen : Nat) : Option Bytes :=
  if v < 0 then
    if v ≤ -9223372036854775808 then none
    else some (((digRev (ilen - 1) v.natAbs).map fun r => 45 :: r.reverse).getD [])
  else some (llutoa v.toNat ilen)

/-- `isspace` in the C locale (used by `atoll`) (used for src/core/sis_json.c:1477-1485). -/
def isSpace (c : UInt8) : Bool := c == 32 || (9 ≤ c && c ≤ 13)

/-- `isdigit` in the C locale (used by `atoll`) (used for src/core/sis_json.c:1477-1485). -/
def isDigit (c : UInt8) : Bool := 48 ≤ c && c ≤ 57

/-- The value of a run of digits (the conversion loop of `atoll`) (used for src/core/sis_json.c:1477-1485). -/
def digVal (ds : Bytes) : Nat := ds.foldl (fun a c => a * 10 + (c.toNat - 48)) 0

/-- The C library's `atoll` on a C string: white space, an optional sign, digits; out of range values are clamped as
`strtoll` does.  The C library is not part of the repository; this is its documented behaviour (called in src/core/sis_json.c:1477-1485). -/
def atoll (s : Bytes) : Int :=
  let t := s.dropWhile isSpace
  match t with
  | 45 :: r => max (-9223372036854775808) (-(digVal (r.takeWhile isDigit) : Int))
  | 43 :: r => min 9223372036854775807 (digVal (r.takeWhile isDigit) : Int)
  | r => min 9223372036854775807 (digVal (r.takeWhile isDigit) : Int)

theorem digit_facts (k : Nat) (h : k < 10) : isDigit (UInt8.ofNat (k + 48)) = true ∧
    (UInt8.ofNat (k + 48)).toNat = k + 48 := by
  have : ∀ n : Fin 10, isDigit (UInt8.ofNat (n.val + 48)) = true ∧ (UInt8.ofNat (n.val + 48)).toNat = n.val + 48 := by
    decide +kernel
  exact this ⟨k, h⟩

theorem digVal_append (a b : Bytes) : digVal (a ++ b) =
    b.foldl (fun a c => a * 10 + (c.toNat - 48)) (digVal a) := by
  simp [digVal, List.foldl_append]

/-- With enough room the digits are there, and they are the digits of the number. -/
theorem digRev_some (ilen v : Nat) (h0 : 2 ≤ ilen) (hv : v < 10 ^ (ilen - 1)) :
    ∃ r, digRev ilen v = some r ∧ r ≠ [] ∧ (∀ c ∈ r, isDigit c = true) ∧ digVal r.reverse = v ∧
      r.length ≤ ilen - 1 := by
  induction ilen generalizing v with
  | zero => omega
  | succ n ih =>
    have d := digit_facts (v % 10) (Nat.mod_lt _ (by omega))
    rw [digRev, if_neg (show ¬ n < 1 by omega)]
    by_cases h : v / 10 > 0
    · rw [if_pos h]
      have hn : 2 ≤ n := by
        rcases Nat.lt_or_ge n 2 with h1 | h1
        · have h1 : n = 1 := by omega
          subst h1
          simp at hv; omega
        · exact h1
      have hp : v / 10 < 10 ^ (n - 1) := by
        have e : n + 1 - 1 = (n - 1) + 1 := by omega
        rw [e, Nat.pow_succ] at hv
        exact Nat.div_lt_of_lt_mul (by omega)
      obtain ⟨r, h1, h2, h3, h4, h5⟩ := ih (v / 10) hn hp
      refine ⟨UInt8.ofNat (v % 10 + 48) :: r, by rw [h1]; rfl, by simp, ?_, ?_, by simp; omega⟩
      · intro c hc
        rcases List.mem_cons.1 hc with rfl | hc
        · exact d.1
        · exact h3 c hc
      · rw [List.reverse_cons, digVal_append, h4]
        simp only [List.foldl_cons, List.foldl_nil, d.2]
        omega
    · rw [if_neg h]
      refine ⟨[UInt8.ofNat (v % 10 + 48)], rfl, by simp, ?_, ?_, by simp; omega⟩
      · intro c hc
        rw [List.mem_singleton.1 hc]; exact d.1
      · simp only [List.reverse_singleton, digVal, List.foldl_cons, List.foldl_nil, d.2]
        omega

theorem isDigit_not (c : UInt8) (h : isDigit c = true) : isSpace c = false ∧ c ≠ 45 ∧ c ≠ 43 ∧ c ≠ 0 ∧ 48 ≤ c := by
  have : ∀ n : Fin 256, isDigit (UInt8.ofNat n.val) = true → isSpace (UInt8.ofNat n.val) = false ∧
      UInt8.ofNat n.val ≠ 45 ∧ UInt8.ofNat n.val ≠ 43 ∧ UInt8.ofNat n.val ≠ 0 ∧ 48 ≤ UInt8.ofNat n.val := by decide +kernel
  have := this ⟨c.toNat, c.toNat_lt⟩
  simp at this
  exact this h

theorem takeWhile_all {p : UInt8 → Bool} {a : Bytes} (h : ∀ c ∈ a, p c = true) : a.takeWhile p = a := by
  induction a with
  | nil => rfl
  | cons x a ih =>
    rw [List.takeWhile_cons, if_pos (h x (List.mem_cons_self ..)), ih fun c hc => h c (List.mem_cons_of_mem _ hc)]

/-- The text of a number below 10^30 is read back as that number, clamped to the 64-bit range. -/
theorem atoll_digits {r : Bytes} (hne : r ≠ []) (hd : ∀ c ∈ r, isDigit c = true) :
    atoll r = min 9223372036854775807 (digVal r : Int) := by
  cases r with
  | nil => exact absurd rfl hne
  | cons x t =>
    have hx := isDigit_not x (hd x (List.mem_cons_self ..))
    have hdw : (x :: t).dropWhile isSpace = x :: t := by rw [List.dropWhile_cons, hx.1]; rfl
    unfold atoll
    simp only [hdw]
    split
    · rename_i h; cases h; exact absurd rfl hx.2.1
    · rename_i h; cases h; exact absurd rfl hx.2.2.1
    · rw [takeWhile_all hd]

theorem atoll_neg {r : Bytes} (hd : ∀ c ∈ r, isDigit c = true) :
    atoll (45 :: r) = max (-9223372036854775808) (-(digVal r : Int)) := by
  have hdw : (45 :: r).dropWhile isSpace = 45 :: r := by rw [List.dropWhile_cons]; rfl
  unfold atoll
  simp only [hdw]
  rw [takeWhile_all hd]

/-- What `sis_lldtoa` writes for a 64-bit integer other than the smallest one: not empty, at most 20 characters, all
of them digits or the sign, and `atoll` gives the integer back. -/
theorem lldtoa_spec (v : Int) (h1 : -9223372036854775808 < v) (h2 : v ≤ 9223372036854775807) :
    ∃ s, lldtoa v 32 = some s ∧ s ≠ [] ∧ s.length ≤ 31 ∧ CStr s ∧ atoll s = v ∧
      ((∃ r, s = 45 :: r ∧ r ≠ [] ∧ v < 0 ∧ ∀ c ∈ r, isDigit c = true) ∨ (0 ≤ v ∧ ∀ c ∈ s, isDigit c = true)) := by
  unfold lldtoa
  by_cases hv : v < 0
  · rw [if_pos hv, if_neg (by omega)]
    obtain ⟨r, e1, e2, e3, e4, e5⟩ := digRev_some 31 v.natAbs (by omega) (by
      have : (10 : Nat) ^ 30 = 1000000000000000000000000000000 := by decide
      rw [show (31 : Nat) - 1 = 30 from rfl, this]; omega)
    have hd : ∀ c ∈ r.reverse, isDigit c = true := fun c hc => e3 c (List.mem_reverse.1 hc)
    refine ⟨45 :: r.reverse, by rw [show (32 : Nat) - 1 = 31 from rfl, e1]; rfl, by simp, by simp; omega, ?_, ?_,
      .inl ⟨_, rfl, by simpa using e2, hv, hd⟩⟩
    · intro c hc
      rcases List.mem_cons.1 hc with rfl | hc
      · decide
      · exact (isDigit_not c (hd c hc)).2.2.2.1
    · rw [atoll_neg hd, e4]; omega
  · rw [if_neg hv]
    obtain ⟨r, e1, e2, e3, e4, e5⟩ := digRev_some 32 v.toNat (by omega) (by
      have : (10 : Nat) ^ 31 = 10000000000000000000000000000000 := by decide
      rw [show (32 : Nat) - 1 = 31 from rfl, this]; omega)
    have hd : ∀ c ∈ r.reverse, isDigit c = true := fun c hc => e3 c (List.mem_reverse.1 hc)
    refine ⟨r.reverse, by rw [llutoa, e1]; rfl, by simpa using e2, by simp; omega, ?_, ?_, .inr ⟨by omega, hd⟩⟩
    · intro c hc
      exact (isDigit_not c (hd c hc)).2.2.2.1
    · rw [atoll_digits (by simpa using e2) hd, e4]; omega

end Sis.Num
