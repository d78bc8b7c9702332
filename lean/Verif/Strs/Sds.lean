import Verif.Base.Bytes
/-
Model of the strings of src/core/sis_sds.c in their memory: the type of the header, its two numbers, which are cut to the width of
that type, and the bytes behind it.

Memory does not run out.  A byte of memory that was never written is `none`; `none` as an outcome is a read or a write outside of
the memory of the string, or of memory that was freed.  The bytes of the header are not modelled as bytes, nor is where a string
lies in memory: the pointer a call returns takes the place of the one it was given.
-/
namespace Sis.Sds
open Sis

/-- A string: the type of its header, 0 to 4 (src/core/sis_sds.h:58-62), `len` and `alloc` (src/core/sis_sds.h:27-54), and the memory
of `buf`.  A header of type 0 has no `alloc`. -/
structure Sds where
  typ : Nat
  len : Nat
  alloc : Nat
  mem : List (Option UInt8)
deriving DecidableEq

/-- What the numbers of a header are cut to (src/core/sis_sds.h:27-54). -/
def cap : Nat → Nat
  | 0 => 2 ^ 5
  | 1 => 2 ^ 8
  | 2 => 2 ^ 16
  | 3 => 2 ^ 32
  | _ => 2 ^ 64

/-- `sdsReqType` (src/core/sis_sds.c:23-44). -/
def reqType (n : Nat) : Nat := if n < 2 ^ 5 then 0 else if n < 2 ^ 8 then 1 else if n < 2 ^ 16 then 2 else if n < 2 ^ 32 then 3 else 4

/-- `sis_sdsavail` (src/core/sis_sds.h:90-114), with the wrapping of an `alloc` below `len`. -/
def avail (s : Sds) : Nat :=
  if s.typ = 0 then 0 else if s.len ≤ s.alloc then s.alloc - s.len else s.alloc + (if s.typ = 3 then 2 ^ 32 else 2 ^ 64) - s.len

/-- `sis_sdsalloc` (src/core/sis_sds.h:166-181). -/
def allocOf (s : Sds) : Nat := if s.typ = 0 then s.len else s.alloc

/-- `sis_sdssetlen` (src/core/sis_sds.h:116-138). -/
def setLen (s : Sds) (n : Nat) : Sds := { s with len := n % cap s.typ }

/-- `sis_sdssetalloc` (src/core/sis_sds.h:183-204). -/
def setAlloc (s : Sds) (n : Nat) : Sds := if s.typ = 0 then s else { s with alloc := n % cap s.typ }

/-- The memory with `b` written at `i` (used for src/core/sis_sds.c:453-455). -/
def setAt (m : List (Option UInt8)) (i : Nat) (b : List (Option UInt8)) : List (Option UInt8) := m.take i ++ b ++ m.drop (i + b.length)

/-- Writing bytes into the string (used for src/core/sis_sds.c:453-455); `none`: outside of its memory. -/
def poke (s : Sds) (i : Nat) (b : List (Option UInt8)) : Option Sds :=
  if i + b.length ≤ s.mem.length then some { s with mem := setAt s.mem i b } else none

/-- Reading the first bytes of the string (used for src/core/sis_sds.c:149, 256); `none`: outside of its memory. -/
def peek (s : Sds) (n : Nat) : Option (List (Option UInt8)) := if n ≤ s.mem.length then some (s.mem.take n) else none

/-- `sis_sdsnewlen` (src/core/sis_sds.c:59-130) with something to copy. -/
def newLen (b : List (Option UInt8)) : Option Sds :=
  let t := reqType b.length
  let t := if t = 0 ∧ b.length = 0 then 1 else t
  let s : Sds := ⟨t, b.length % cap t, if t = 0 then 0 else b.length % cap t, List.replicate (b.length + 1) none⟩
  (poke s 0 b).bind fun s => poke s b.length [some 0]

/-- `sis_realloc` of the memory to `n` bytes (used for src/core/sis_sds.c:244, 297). -/
def realloc (m : List (Option UInt8)) (n : Nat) : List (Option UInt8) := m.take n ++ List.replicate (n - m.length) none

/-- `sis_sds_addlen` (src/core/sis_sds.c:204-269). -/
def addLen (s : Sds) (n : Nat) : Option Sds :=
  if n ≤ avail s then some s
  else
    let m := s.len + n
    let m := if m < 1048576 then m * 2 else m + 1048576
    let t := reqType m
    let t := if t = 0 then 1 else t
    if s.typ = t then some (setAlloc { s with mem := realloc s.mem (m + 1) } m)
    else
      (peek s (s.len + 1)).bind fun b =>
        (poke ⟨t, 0, 0, List.replicate (m + 1) none⟩ 0 b).map fun s' => setAlloc (setLen s' s.len) m

/-- `sis_sds_remove_freespace` (src/core/sis_sds.c:277-320). -/
def shrink (s : Sds) : Option Sds :=
  let t := reqType s.len
  if s.typ = t ∨ t > 1 then some (setAlloc { s with mem := realloc s.mem (s.len + 1) } s.len)
  else
    (peek s (s.len + 1)).bind fun b =>
      (poke ⟨t, 0, 0, List.replicate (s.len + 1) none⟩ 0 b).map fun s' => setAlloc (setLen s' s.len) s.len

/-- `sis_sdscatlen` (src/core/sis_sds.c:444-457) of bytes that are not those of the string. -/
def catLen (s : Sds) (b : Bytes) : Option Sds :=
  (addLen s b.length).bind fun s' => (poke s' s.len (b.map some)).bind fun s' => poke (setLen s' (s.len + b.length)) (s.len + b.length) [some 0]

/-- `sis_sdscatsds` (src/core/sis_sds.c:472-475) of the string itself: where its memory is moved, the bytes are read from memory
that was freed. -/
def catSelf (s : Sds) : Option Sds :=
  if avail s < s.len then none
  else (peek s s.len).bind fun b => (poke s s.len b).bind fun s' => poke (setLen s' (s.len + s.len)) (s.len + s.len) [some 0]

/-- `sis_sdscpylen` (src/core/sis_sds.c:479-493). -/
def cpyLen (s : Sds) (b : Bytes) : Option Sds :=
  (if allocOf s < b.length then addLen s (b.length - s.len) else some s).bind fun s =>
    (poke s 0 (b.map some)).bind fun s => (poke s b.length [some 0]).map fun s => setLen s b.length

/-- `sis_sdsgrowzero` (src/core/sis_sds.c:419-437). -/
def growZero (s : Sds) (n : Nat) : Option Sds :=
  if n ≤ s.len then some s
  else (addLen s (n - s.len)).bind fun s' => (poke s' s.len (List.replicate (n - s.len + 1) (some 0))).map fun s' => setLen s' n

/-- `sis_sdsclear` (src/core/sis_sds.c:192-196). -/
def clear (s : Sds) : Option Sds := poke (setLen s 0) 0 [some 0]

/-- `sis_sdsdup` (src/core/sis_sds.c:147-150). -/
def dup (s : Sds) : Option Sds := (peek s s.len).bind newLen

/-- Moving `n` bytes at `i` to the beginning (`memmove`, src/core/sis_sds.c:809, 864). -/
def move (s : Sds) (i n : Nat) : Option Sds := if i + n ≤ s.mem.length then poke s 0 ((s.mem.drop i).take n) else none

/-- An index from either end, not before the first byte (src/core/sis_sds.c:835-846). -/
def index (s : Sds) (i : Int) : Nat := if i < 0 then (s.len + i).toNat else i.toNat

/-- The first byte kept and how many are (src/core/sis_sds.c:847-862). -/
def kept (n lo hi : Nat) : Nat × Nat :=
  let m := if lo > hi then 0 else hi - lo + 1
  if m ≠ 0 then
    if lo ≥ n then (lo, 0) else if hi ≥ n then (lo, if lo > n - 1 then 0 else n - 1 - lo + 1) else (lo, m)
  else (0, m)

/-- `sis_sdsrange` (src/core/sis_sds.c:829-867); `none` also for a size that does not fit. -/
def range (s : Sds) (a b : Int) : Option Sds :=
  if s.len = 0 then some s
  else if index s a ≤ index s b ∧ 2 ^ 63 ≤ index s b - index s a + 1 then none
  else
    let k := kept s.len (index s a) (index s b)
    (if k.1 ≠ 0 ∧ k.2 ≠ 0 then move s k.1 k.2 else some s).bind fun s => (poke s k.2 [some 0]).map fun s => setLen s k.2

/-- The bytes of the string; `none`: outside of its memory or never written (used for src/core/sis_sds.c:801-804). -/
def bytes (s : Sds) : Option Bytes := if s.len ≤ s.mem.length ∧ (s.mem.take s.len).all (·.isSome) then some ((s.mem.take s.len).filterMap id) else none

/-- `strchr` finds the byte; it finds a zero in every text (used for src/core/sis_sds.c:801-804). -/
def strchr (cset : Bytes) (c : UInt8) : Bool := cset.contains c || c == 0

/-- The loop from the end (src/core/sis_sds.c:803-804); `ep` is one less than the number. -/
def trimEnd (cset v : Bytes) (sp : Nat) : Nat → Nat
  | 0 => 0
  | e + 1 => if e > sp ∧ (v[e]?.map (strchr cset)).getD false then trimEnd cset v sp e else e + 1

/-- `sis_sdstrim` (src/core/sis_sds.c:794-812); `cset` has no zero in it. -/
def trim (s : Sds) (cset : Bytes) : Option Sds :=
  (bytes s).bind fun v =>
    let sp := (v.takeWhile (strchr cset)).length
    let e := trimEnd cset v sp v.length
    let n := if sp ≥ e then 0 else e - sp
    (if sp ≠ 0 then move s sp n else some s).bind fun s => (poke s n [some 0]).map fun s => setLen s n

/-- A call (src/core/sis_sds.h:206-254). -/
inductive Op
  | cat (b : Bytes)
  | cpy (b : Bytes)
  | grow (n : Nat)
  | room (n : Nat)
  | clear
  | shrink
  | dup
  | range (a b : Int)
  | trim (cset : Bytes)

/-- The call made (src/core/sis_sds.h:206-254). -/
def step (s : Sds) : Op → Option Sds
  | .cat b => catLen s b
  | .cpy b => cpyLen s b
  | .grow n => growZero s n
  | .room n => addLen s n
  | .clear => Sds.clear s
  | .shrink => shrink s
  | .dup => dup s
  | .range a b => range s a b
  | .trim c => trim s c

/-- Calls in a row, each on what the one before returned (used for src/core/sis_sds.h:206-254). -/
def run : Sds → List Op → Option Sds
  | s, [] => some s
  | s, o :: l => (step s o).bind fun s => run s l

end Sis.Sds
