/-
Model of the search functions of `workers/sisdb/sisdb_fmap_ctrl.c`.

The records of a unit are seen through `key : Int → Nat` (the main index field of the record at a position, as
`sisdb_fmap_unit_get_mindex`, workers/sisdb/sisdb_fmap_ctrl.c:144-149) and `count`.  The start position computed by
`sisdb_fmap_unit_goto` is a parameter `hint`: the C code interpolates it in floating point from cached bounds that may
be stale, so the theorems quantify over every hint inside the list.
C `int` positions are unbounded integers here (lists longer than 2^31 records are outside the model).
-/
namespace Sis.Fmap

/-- The variable `dir` of the search loops: 0, 1 or -1 (workers/sisdb/sisdb_fmap_ctrl.c:214-309). -/
inductive Dir
  | none | up | down
deriving DecidableEq, Repr

/-- Loop measure: `dir` never turns round, so a loop visits each position at most once (workers/sisdb/sisdb_fmap_ctrl.c:214-309). -/
def measure (count : Int) (i : Int) : Dir → Nat
  | .none => (count + 2).toNat
  | .up => (count - i).toNat
  | .down => (i + 1).toNat

/-- `sisdb_fmap_unit_goto` (workers/sisdb/sisdb_fmap_ctrl.c:183-209) from the cached `start`, `stop`, `step` of the
unit.  Simplification: the quotient of doubles is the integer quotient; no theorem depends on its value. -/
def goto (start stop step : Nat) (count : Int) (curr : Nat) : Int :=
  if count < 1 then -1
  else if curr ≤ start then 0
  else if curr ≥ stop then count - 1
  else
    let index : Int := if step > 1 then (((curr - start) / step : Nat) : Int) else 0
    if index > count - 1 then count - 1 else index

/-- The inner loop of `sisdb_fmap_cmp_find_head` (workers/sisdb/sisdb_fmap_ctrl.c:214-259, loop at 247-255). -/
def scanDown (key : Int → Nat) (x : Nat) (k : Int) : Int :=
  if k ≥ 0 then
    if key k ≠ x then k + 1 else scanDown key x (k - 1)
  else 0
termination_by (k + 1).toNat
decreasing_by omega

/-- The main loop of `sisdb_fmap_cmp_find_head` (workers/sisdb/sisdb_fmap_ctrl.c:214-259). -/
def findHeadLoop (key : Int → Nat) (count : Int) (x : Nat) (i : Int) (dir : Dir) : Int :=
  if 0 ≤ i ∧ i < count then
    if x > key i then
      if dir = .down then i + 1 else findHeadLoop key count x (i + 1) .up
    else if x < key i then
      if dir = .up then i else findHeadLoop key count x (i - 1) .down
    else scanDown key x i
  else if dir = .up then count else -1
termination_by measure count i dir
decreasing_by
  · cases dir <;> simp_all [measure] <;> omega
  · cases dir <;> simp_all [measure] <;> omega

/-- `sisdb_fmap_cmp_find_head` (workers/sisdb/sisdb_fmap_ctrl.c:214-259); `hint` is the result of `goto`. -/
def findHead (key : Int → Nat) (count : Int) (hint : Int) (x : Nat) : Int :=
  if hint < 0 then count else findHeadLoop key count x hint .none

/-- The inner loop of `sisdb_fmap_cmp_find_tail` (workers/sisdb/sisdb_fmap_ctrl.c:264-309, loop at 297-305). -/
def scanUp (key : Int → Nat) (count : Int) (x : Nat) (k : Int) : Int :=
  if k < count then
    if key k ≠ x then k - 1 else scanUp key count x (k + 1)
  else count
termination_by (count - k).toNat
decreasing_by omega

/-- The main loop of `sisdb_fmap_cmp_find_tail` (workers/sisdb/sisdb_fmap_ctrl.c:264-309). -/
def findTailLoop (key : Int → Nat) (count : Int) (x : Nat) (i : Int) (dir : Dir) : Int :=
  if 0 ≤ i ∧ i < count then
    if x > key i then
      if dir = .down then i + 1 else findTailLoop key count x (i + 1) .up
    else if x < key i then
      if dir = .up then i else findTailLoop key count x (i - 1) .down
    else scanUp key count x i
  else if dir = .up then count else -1
termination_by measure count i dir
decreasing_by
  · cases dir <;> simp_all [measure] <;> omega
  · cases dir <;> simp_all [measure] <;> omega

/-- `sisdb_fmap_cmp_find_tail` (workers/sisdb/sisdb_fmap_ctrl.c:264-309). -/
def findTail (key : Int → Nat) (count : Int) (hint : Int) (x : Nat) : Int :=
  if hint < 0 then count else findTailLoop key count x hint .none

/-- Result of a search: `s_sisdb_fmap_cmp` (workers/sisdb/sisdb_fmap.h:171-176) without `ostart`, which is derived
from the record found and only used for messages. -/
structure Cmp where
  oindex : Int
  ocount : Int
deriving DecidableEq, Repr

/-- The inner loop of `sisdb_fmap_cmp_same` (workers/sisdb/sisdb_fmap_ctrl.c:314-408, loop at 367-375): number of equal
records from position `k` on. -/
def countUp (key : Int → Nat) (count : Int) (x : Nat) (k : Int) : Int :=
  if k < count then
    if x ≠ key k then 0 else 1 + countUp key count x (k + 1)
  else 0
termination_by (count - k).toNat
decreasing_by omega

/-- The main loop of `sisdb_fmap_cmp_same` (workers/sisdb/sisdb_fmap_ctrl.c:314-408, loop at 329-407): return value
and `*ans_`. -/
def cmpSameLoop (key : Int → Nat) (count : Int) (x : Nat) (i : Int) (dir : Dir) (ans : Cmp) : Int × Cmp :=
  if 0 ≤ i ∧ i < count then
    if x > key i then
      if ans.ocount > 0 then (ans.ocount, ans)
      else if dir = .down then (-1, { ans with oindex := i + 1 })
      else cmpSameLoop key count x (i + 1) .up ans
    else if x < key i then
      if ans.ocount > 0 then (ans.ocount, ans)
      else if dir = .up then (-1, { ans with oindex := i })
      else cmpSameLoop key count x (i - 1) .down ans
    else if ans.ocount = 0 then
      if dir = .none then
        cmpSameLoop key count x (i - 1) .down ⟨i, countUp key count x (i + 1) + 1⟩
      else if dir = .down then cmpSameLoop key count x (i - 1) .down ⟨i, 1⟩
      else cmpSameLoop key count x (i + 1) .up ⟨i, 1⟩
    else if dir = .down then cmpSameLoop key count x (i - 1) .down ⟨i, ans.ocount + 1⟩
    else if dir = .up then cmpSameLoop key count x (i + 1) .up ⟨ans.oindex, ans.ocount + 1⟩
    else (ans.ocount + 1, ans)  -- not reached: a positive count implies a direction
  else if ans.ocount > 0 then (ans.ocount, ans)
  else if i < 0 then (-1, { ans with oindex := -1 })
  else (-1, { ans with oindex := count })
termination_by measure count i dir
decreasing_by
  all_goals (cases dir <;> simp_all [measure] <;> omega)

/-- `sisdb_fmap_cmp_same` (workers/sisdb/sisdb_fmap_ctrl.c:314-408). -/
def cmpSame (key : Int → Nat) (count : Int) (hint : Int) (x : Nat) : Int × Cmp :=
  if hint < 0 then (-1, ⟨count, 0⟩) else cmpSameLoop key count x hint .none ⟨-1, 0⟩

/-- `sisdb_fmap_offset_prev` (workers/sisdb/sisdb_fmap_ctrl.c:411-438): step back `-offset` records (`offset < 0`);
the loop at 420-428 stops at record 0. -/
def offsetPrev (offset : Int) (count : Int) (ans : Cmp) : Int × Cmp :=
  if ans.oindex < 0 ∨ ans.oindex < -1 * offset then (-1, ans)
  else
    let n := min (-1 * offset) ans.oindex
    let ans' : Cmp := ⟨ans.oindex - n, min (ans.ocount + n) count⟩
    (ans'.ocount, ans')

/-- `sisdb_fmap_cmp_where` (workers/sisdb/sisdb_fmap_ctrl.c:575-592). -/
def cmpWhere (key : Int → Nat) (count : Int) (hint : Int) (x : Nat) (offset : Int) : Int × Cmp :=
  let r := cmpSame key count hint x
  if offset = 0 then r
  else if offset < 0 then offsetPrev offset 1 r.2
  else (-1, r.2)

/-- The result codes `CMP_FIND_OK` ... `CMP_TAIL_NONE` (workers/sisdb/sisdb_fmap_ctrl.c:440-444). -/
inductive Find
  | ok | ago | headNone | tailNone
deriving DecidableEq, Repr

/-- The loop of `_fmap_cmp_range_head` (workers/sisdb/sisdb_fmap_ctrl.c:447-510); state `ocount`, `oindex`. -/
def rangeHeadLoop (key : Int → Nat) (count : Int) (x : Nat) (i : Int) (dir : Dir) (c : Cmp) : Find × Int :=
  if 0 ≤ i ∧ i < count then
    if key i < x then
      if c.ocount > 0 then (.ok, c.oindex)
      else if dir = .down then (.ago, i)
      else rangeHeadLoop key count x (i + 1) .up c
    else if key i > x then
      if c.ocount > 0 then (.ok, c.oindex)
      else if dir = .up then (.ago, i - 1)
      else rangeHeadLoop key count x (i - 1) .down c
    else if dir = .up then (.ok, i)
    else rangeHeadLoop key count x (i - 1) .down ⟨i, c.ocount + 1⟩
  else if c.ocount > 0 then (.ok, c.oindex)
  else if i < 0 then (.headNone, c.oindex)
  else (.tailNone, c.oindex)
termination_by measure count i dir
decreasing_by
  all_goals (cases dir <;> simp_all [measure] <;> omega)

/-- `_fmap_cmp_range_head` (workers/sisdb/sisdb_fmap_ctrl.c:447-510). -/
def rangeHead (key : Int → Nat) (count : Int) (hint : Int) (x : Nat) : Find × Int :=
  rangeHeadLoop key count x hint .none ⟨-1, 0⟩

/-- The loop of `_fmap_cmp_range_tail` (workers/sisdb/sisdb_fmap_ctrl.c:512-574). -/
def rangeTailLoop (key : Int → Nat) (count : Int) (x : Nat) (i : Int) (dir : Dir) (c : Cmp) : Find × Int :=
  if 0 ≤ i ∧ i < count then
    if key i < x then
      if c.ocount > 0 then (.ok, c.oindex)
      else if dir = .down then (.ago, i)
      else rangeTailLoop key count x (i + 1) .up c
    else if key i > x then
      if c.ocount > 0 then (.ok, c.oindex)
      else if dir = .up then (.ago, i - 1)
      else rangeTailLoop key count x (i - 1) .down c
    else if dir = .down then (.ok, i)
    else rangeTailLoop key count x (i + 1) .up ⟨i, c.ocount + 1⟩
  else if c.ocount > 0 then (.ok, c.oindex)
  else if i < 0 then (.headNone, c.oindex)
  else (.tailNone, c.oindex)
termination_by measure count i dir
decreasing_by
  all_goals (cases dir <;> simp_all [measure] <;> omega)

/-- `_fmap_cmp_range_tail` (workers/sisdb/sisdb_fmap_ctrl.c:512-574). -/
def rangeTail (key : Int → Nat) (count : Int) (hint : Int) (x : Nat) : Find × Int :=
  rangeTailLoop key count x hint .none ⟨-1, 0⟩

/-- First index of the selection, from the outcome of the head search (the first switch of
`sisdb_fmap_cmp_range`, workers/sisdb/sisdb_fmap_ctrl.c:594-663); `none`: the call returns -1. -/
def headIdx (count : Int) (ifprev : Bool) (r : Find × Int) : Option Int :=
  match r.1 with
  | .headNone => some 0
  | .tailNone => if ifprev then some (count - 1) else none
  | .ago => some (if ifprev then r.2 else min (r.2 + 1) (count - 1))
  | .ok => some r.2

/-- `sisdb_fmap_cmp_range` (workers/sisdb/sisdb_fmap_ctrl.c:594-663).  `hintOf` yields the result of `goto` for each of
the two searches.  `start`/`stop` are `int64` arguments; the values searched for are unsigned (`msec_t`). -/
def cmpRange (key : Int → Nat) (count : Int) (hintOf : Nat → Int) (start stop : Int) (ifprev : Bool) : Int × Cmp :=
  let fail : Int × Cmp := (-1, ⟨-1, 0⟩)
  if count < 1 then fail
  else
    let start' : Nat := if start ≤ -1 then key (max 0 (count + start)) else start.toNat
    let stop' : Nat := if stop ≤ -1 then key (count - 1) else if stop = 0 then start' else stop.toNat
    match headIdx count ifprev (rangeHead key count (hintOf start') start') with
    | none => fail
    | some h =>
      let tail := rangeTail key count (hintOf stop') stop'
      match tail.1 with
      | .headNone => fail
      | t =>
        let ti := if t = .tailNone then count - 1 else tail.2
        if h < 0 ∨ ti < 0 ∨ h > ti then fail
        else (h, ⟨h, ti - h + 1⟩)

end Sis.Fmap
