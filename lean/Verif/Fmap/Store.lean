import Verif.Fmap.Search
/-
Model of the in-memory units of `workers/sisdb/sisdb_fmap*.c`: reading, updating and deleting records of a series and
maintaining its per-period index.

Records are an abstract type `α`; a table (`Table`) says how the code looks at a record: its main index field, its
unique fields and the period its main index belongs to.  Loading of blocks from disk (`sisdb_fmap_cxt_read_data`) is
modelled in `Verif/Fmap/Load.lean`; the operations here are the part after that call.
-/
namespace Sis.Fmap

/-- What the code reads from a record: `sis_dynamic_db_get_mindex` (src/core/sis_dynamic.c:319-326), the bytes of the
unique fields compared by `memcmp` (workers/sisdb/sisdb_fmap_write.c:283-292), and `sisdb_fmap_unit_get_start`
(workers/sisdb/sisdb_fmap_ctrl.c:150-160) followed by the year rule of `sisdb_fmap_unit_add_idx`
(workers/sisdb/sisdb_fmap_write.c:9). -/
structure Table (α : Type) where
  ts : α → Nat
  uniq : α → List Nat
  sign : Nat → Int

/-- `s_sisdb_fmap_idx` (workers/sisdb/sisdb_fmap.h:37-47). -/
structure Fidx where
  isign : Int
  start : Int
  count : Int
  moved : Bool
  writed : Bool
deriving DecidableEq, Repr

/-- `s_sisdb_fmap_unit` (workers/sisdb/sisdb_fmap.h:50-71), the members used for time series. -/
structure Unit (α : Type) where
  recs : List α
  fidxs : List Fidx
  start : Nat
  stop : Nat
  step : Nat

/-- Any implementation of `sisdb_fmap_unit_goto` (workers/sisdb/sisdb_fmap_ctrl.c:183-209) that returns -1 for an empty
list and a position of the list otherwise: the value depends on floating point division of the cached bounds. -/
structure Goto where
  f : Nat → Nat → Nat → Int → Nat → Int
  empty : ∀ a b c n x, n < 1 → f a b c n x = -1
  inside : ∀ a b c n x, 1 ≤ n → 0 ≤ f a b c n x ∧ f a b c n x < n

/-- The interpolation of the code is such a `Goto` (workers/sisdb/sisdb_fmap_ctrl.c:183-209). -/
def Goto.interp : Goto where
  f := goto
  empty := by intro a b c n x h; unfold goto; rw [if_pos h]
  inside := by
    intro a b c n x h
    unfold goto
    rw [if_neg (by omega)]
    split
    · omega
    · split
      · omega
      · have h0 : (0 : Int) ≤ (((x - a) / c : Nat) : Int) := Int.natCast_nonneg _
        simp only
        generalize (((x - a) / c : Nat) : Int) = q at h0
        split
        · split <;> omega
        · split <;> omega

variable {α : Type}

/-- `sisdb_fmap_unit_get_mindex` (workers/sisdb/sisdb_fmap_ctrl.c:144-149): 0 outside the list
(src/core/sis_dynamic.c:319-326). -/
def keyOf (ts : α → Nat) (l : List α) (i : Int) : Nat :=
  if i < 0 then 0 else match l[i.toNat]? with
    | some r => ts r
    | none => 0

/-- `sis_struct_list_insert` (src/core/sis_list.c:130-149). -/
def slInsert (l : List α) (i : Int) (r : α) : List α :=
  if (l.length : Int) < 1 ∨ i > (l.length : Int) - 1 then l ++ [r]
  else l.take i.toNat ++ r :: l.drop i.toNat

/-- The index returned by `sis_struct_list_insert` (src/core/sis_list.c:130-149). -/
def slInsertPos (l : List α) (i : Int) : Int :=
  if (l.length : Int) < 1 ∨ i > (l.length : Int) - 1 then l.length else max i 0

/-- `sis_struct_list_update` (src/core/sis_list.c:120-129). -/
def slUpdate (l : List α) (i : Int) (r : α) : List α :=
  if 0 ≤ i ∧ i < l.length then l.set i.toNat r else l

/-- `sis_struct_list_delete` (src/core/sis_list.c:362-380). -/
def slDelete (l : List α) (start count : Int) : List α :=
  if start < 0 ∨ count < 1 ∨ start + count > l.length then l
  else l.take start.toNat ++ l.drop (start + count).toNat

/-- `sisdb_fmap_unit_reidx` (workers/sisdb/sisdb_fmap_ctrl.c:129-143).  Simplification: `step` is the integer quotient,
which is what the C division of two unsigned integers yields before it is stored in the double. -/
def Unit.reidx (T : Table α) (u : Unit α) : Unit α :=
  let a := keyOf T.ts u.recs 0
  let b := keyOf T.ts u.recs ((u.recs.length : Int) - 1)
  { u with start := a, stop := b, step := if u.recs.length > 0 then (b - a) / u.recs.length else 0 }

/-- The position `sisdb_fmap_unit_goto` (workers/sisdb/sisdb_fmap_ctrl.c:183-209) computes from the cached bounds. -/
def Unit.hint (g : Goto) (u : Unit α) (x : Nat) : Int := g.f u.start u.stop u.step u.recs.length x

/-! ### the per-period index -/

/-- The loop of `sisdb_fmap_unit_add_idx` (workers/sisdb/sisdb_fmap_write.c:8-62) once the period is found: every later
entry moves by one. -/
def shiftIdx (l : List Fidx) : List Fidx := l.map fun f => { f with start := f.start + 1 }

/-- The loop of `sisdb_fmap_unit_add_idx` (workers/sisdb/sisdb_fmap_write.c:8-62) on the entries from position `i` on;
`cnt` is the running sum of counts.  Returns the new entries and `startidx`.  After an insertion `i` is increased twice
(lines 43 and 17), so the entry that followed the insertion point keeps its `start`. -/
def addIdxLoop (isign : Int) : List Fidx → Int → Int → List Fidx × Int
  | [], i, cnt => ([⟨isign, cnt, 1, false, true⟩], i)
  | f :: rest, i, cnt =>
    if isign = f.isign then ({ f with count := f.count + 1, moved := false, writed := true } :: shiftIdx rest, i)
    else if isign < f.isign then (⟨isign, cnt, 1, false, true⟩ :: f :: shiftIdx rest, i)
    else
      let r := addIdxLoop isign rest (i + 1) (cnt + f.count)
      (f :: r.1, r.2)

/-- The start of the scan in `add_idx` and `set_idx` (workers/sisdb/sisdb_fmap_write.c:11,68). -/
def scanFrom (startidx : Int) (n : Nat) : Nat := if startidx < 0 ∨ startidx ≥ n then 0 else startidx.toNat

/-- `sisdb_fmap_unit_add_idx` (workers/sisdb/sisdb_fmap_write.c:8-62): count one more record of period `isign`. -/
def addIdx (fs : List Fidx) (startidx isign : Int) : List Fidx × Int :=
  let s := scanFrom startidx fs.length
  let r := addIdxLoop isign (fs.drop s) s 0
  (fs.take s ++ r.1, r.2)

/-- The loop of `sisdb_fmap_unit_set_idx` (workers/sisdb/sisdb_fmap_write.c:64-91). -/
def setIdxLoop (isign : Int) (startidx : Int) : List Fidx → Int → List Fidx × Int
  | [], _ => ([], startidx)
  | f :: rest, i =>
    if isign = f.isign then ({ f with moved := false, writed := true } :: rest, i)
    else
      let r := setIdxLoop isign startidx rest (i + 1)
      (f :: r.1, r.2)

/-- `sisdb_fmap_unit_set_idx` (workers/sisdb/sisdb_fmap_write.c:64-91): mark the period as written. -/
def setIdx (fs : List Fidx) (startidx isign : Int) : List Fidx × Int :=
  if fs.length = 0 then ([⟨isign, 0, 1, false, true⟩], 0)
  else
    let s := scanFrom startidx fs.length
    let r := setIdxLoop isign startidx (fs.drop s) s
    (fs.take s ++ r.1, r.2)

/-- `sisdb_fmap_unit_del_idx` (workers/sisdb/sisdb_fmap_write.c:93-132): `index` records are skipped, then `count`
records are removed from the counts; `nums` is the number removed so far.  In the last branch line 119 has already
reduced `fidx->count` when line 120 computes the amount to subtract from `count`. -/
def delIdxLoop : List Fidx → Int → Int → Int → List Fidx
  | [], _, _, _ => []
  | f :: rest, index, count, nums =>
    if index = 0 ∧ count = 0 then { f with start := f.start - nums } :: delIdxLoop rest index count nums
    else if index ≥ f.count then f :: delIdxLoop rest (index - f.count) count nums
    else if f.count - index ≥ count then
      let f' := { f with count := f.count - count }
      mark f' :: delIdxLoop rest 0 0 (nums + count)
    else
      let f' := { f with count := f.count - (f.count - index) }
      mark f' :: delIdxLoop rest 0 (count - (f'.count - index)) (nums + (f.count - index))
where
  /-- lines 123-128 -/
  mark (f : Fidx) : Fidx :=
    if f.count = 0 then { f with start := 0, moved := true, writed := true } else { f with writed := true }

/-- `sisdb_fmap_unit_del_idx` (workers/sisdb/sisdb_fmap_write.c:93-132). -/
def delIdx (fs : List Fidx) (index count : Int) : List Fidx := delIdxLoop fs index count 0

/-- `sisdb_fmap_unit_move_idx` (workers/sisdb/sisdb_fmap_write.c:135-146). -/
def moveIdx (fs : List Fidx) : List Fidx :=
  fs.map fun f => { f with start := 0, count := 0, moved := true, writed := true }

/-! ### queries and deletes -/

/-- The conditions of a query: exact timestamp with a backward offset, or a range (`cmd_->cmpmode`) (workers/sisdb/sisdb_fmap.h:147). -/
inductive Query
  | whereTs (t : Nat) (offset : Int)
  | range (start stop : Int) (ifprev : Bool)

/-- The selection step of `sisdb_fmap_cxt_tsdb_read` (workers/sisdb/sisdb_fmap_read.c:9-48, lines 14-27). -/
def select (T : Table α) (g : Goto) (u : Unit α) : Query → Int × Cmp
  | .whereTs t offset => cmpWhere (keyOf T.ts u.recs) u.recs.length (u.hint g t) t offset
  | .range a b p => cmpRange (keyOf T.ts u.recs) u.recs.length (u.hint g) a b p

/-- `sisdb_fmap_cxt_tsdb_read` (workers/sisdb/sisdb_fmap_read.c:9-48) without callback: the returned count and the
records in `imem`/`isize`. -/
def tsdbRead (T : Table α) (g : Goto) (u : Unit α) (q : Query) : Int × List α :=
  let r := select T g u q
  if r.1 < 0 then (0, [])
  else if r.2.ocount > 0 ∧ r.2.oindex ≥ 0 then
    (r.2.ocount, (u.recs.drop r.2.oindex.toNat).take r.2.ocount.toNat)
  else (r.2.ocount, [])

/-- The conditions a delete passes on: no offset and no `ifprev` (workers/sisdb/sisdb_fmap_write.c:158-171). -/
def Query.forDel : Query → Query
  | .whereTs t _ => .whereTs t 0
  | .range a b _ => .range a b false

/-- `sisdb_fmap_cxt_tsdb_del` (workers/sisdb/sisdb_fmap_write.c:153-186): delete ignores offset and `ifprev`. -/
def tsdbDel (T : Table α) (g : Goto) (u : Unit α) (q : Query) : Int × Unit α :=
  let r := select T g u q.forDel
  if r.1 < 0 then (0, u)
  else if r.2.ocount > 0 ∧ r.2.oindex ≥ 0 then
    (r.2.ocount, Unit.reidx T { u with
      fidxs := delIdx u.fidxs r.2.oindex r.2.ocount
      recs := slDelete u.recs r.2.oindex r.2.ocount })
  else (r.2.ocount, u)

/-- `sisdb_fmap_cxt_tsdb_remove` (workers/sisdb/sisdb_fmap_write.c:189-199). -/
def tsdbRemove (u : Unit α) : Unit α := { u with fidxs := moveIdx u.fidxs, recs := [] }

/-! ### updates -/

/-- One round of the loop of `sisdb_fmap_cxt_mindex_update` (workers/sisdb/sisdb_fmap_write.c:344-397), without the
index: the new list and the new `tail_idx`.  Line 375 reads the record at `oindex` from a buffer declared one record
long, so `find_idx` is 0 unless `oindex` is 0 (src/core/sis_dynamic.c:319-326). -/
def mindexOne (ts : α → Nat) (l : List α) (tail : Nat) (hint : Int) (r : α) : List α × Nat :=
  let curr := ts r
  if curr ≥ tail then (l ++ [r], curr)
  else
    let oindex := findTail (keyOf ts l) l.length hint curr
    if oindex ≥ l.length then (l ++ [r], curr)
    else if oindex < 0 then (slInsert l 0 r, tail)
    else
      let find : Nat := if oindex = 0 then keyOf ts l 0 else 0
      if find = curr then
        if oindex + 1 ≥ l.length then (l ++ [r], curr) else (slInsert l (oindex + 1) r, tail)
      else (slInsert l oindex r, tail)

/-- The loop of `sisdb_fmap_cxt_mindex_update` (workers/sisdb/sisdb_fmap_write.c:344-397); the cached bounds are those
of before the batch until it ends. -/
def mindexLoop (T : Table α) (g : Goto) (u : Unit α) (tail : Nat) (sidx : Int) : List α → Unit α
  | [] => u
  | r :: rest =>
    let p := mindexOne T.ts u.recs tail (u.hint g (T.ts r)) r
    let ix := addIdx u.fidxs sidx (T.sign (T.ts r))
    mindexLoop T g { u with recs := p.1, fidxs := ix.1 } p.2 ix.2 rest

/-- `sisdb_fmap_cxt_mindex_update` (workers/sisdb/sisdb_fmap_write.c:344-397). -/
def mindexUpdate (T : Table α) (g : Goto) (u : Unit α) (batch : List α) : Unit α :=
  mindexLoop T g u (keyOf T.ts u.recs ((u.recs.length : Int) - 1)) (-1) batch

/-- `_fmap_cxt_vlist_add` (workers/sisdb/sisdb_fmap_write.c:203-223). -/
def vlistAdd (l : List α) (r : α) (index : Int) : List α :=
  if index < 0 then slInsert l 0 r
  else if index ≥ l.length then l ++ [r]
  else slInsert l index r

/-- The loop of `_fmap_unit_solely_update` (workers/sisdb/sisdb_fmap_write.c:256-305) from position `i` downwards;
the flag is `true` when a record was added. -/
def solelyLoop (T : Table α) (l : List α) (r : α) (index : Int) : Int → List α × Bool
  | i =>
    if 0 ≤ i then
      match l[i.toNat]? with
      | none => (vlistAdd l r (index + 1), true)
      | some v =>
        if T.ts v < T.ts r then (vlistAdd l r index, true)
        else if T.uniq r = T.uniq v then (slUpdate l i r, false)
        else solelyLoop T l r index (i - 1)
    else (vlistAdd l r (index + 1), true)
termination_by i => (i + 1).toNat
decreasing_by omega

/-- `_fmap_unit_solely_update` (workers/sisdb/sisdb_fmap_write.c:256-305). -/
def solelyOne (T : Table α) (l : List α) (r : α) (index : Int) : List α × Bool :=
  if index < 0 then (vlistAdd l r (-1), true)
  else solelyLoop T l r index (min index ((l.length : Int) - 1))

/-- `sisdb_fmap_cxt_solely_update` (workers/sisdb/sisdb_fmap_write.c:307-341) for a table with a main index field. -/
def solelyUpdate (T : Table α) (g : Goto) (u : Unit α) (sidx : Int) : List α → Unit α
  | [] => u
  | r :: rest =>
    let x := T.ts r
    let oindex := findTail (keyOf T.ts u.recs) u.recs.length (u.hint g x) x
    let o := solelyOne T u.recs r oindex
    let ix := if o.2 then addIdx u.fidxs sidx (T.sign x) else setIdx u.fidxs sidx (T.sign x)
    solelyUpdate T g { u with recs := o.1, fidxs := ix.1 } ix.2 rest

/-- `_fmap_unit_solely_update_noidx` (workers/sisdb/sisdb_fmap_write.c:225-255): the last record with the same unique
fields is replaced, otherwise the record is appended.  The search runs on the reversed list. -/
def solelyNoidx (T : Table α) (l : List α) (r : α) : List α × Bool :=
  match l.reverse.findIdx? (fun v => decide (T.uniq r = T.uniq v)) with
  | some k => (l.set (l.length - 1 - k) r, false)
  | none => (l ++ [r], true)

/-- The time-series branch of `sisdb_fmap_cxt_update` (workers/sisdb/sisdb_fmap.c:397-515, lines 478-510) after the
blocks of the batch were loaded; `uniqFields` tells whether the table has unique fields.  Simplification: the batch is
given as records, so the size check is always passed. -/
def sdbUpdate (T : Table α) (uniqFields : Bool) (g : Goto) (u : Unit α) (batch : List α) : Unit α :=
  if u.recs.length < 1 then Unit.reidx T { u with recs := u.recs ++ batch }
  else if uniqFields then Unit.reidx T (solelyUpdate T g u (-1) batch)
  else Unit.reidx T (mindexUpdate T g u batch)

/-! ### series without time -/

/-- `_fmap_calc_nots_count` (workers/sisdb/sisdb_fmap.c:11-30).  `cmd_->start` is unsigned (`msec_t`,
workers/sisdb/sisdb_fmap.h:150), so the first test is never true and `*start_` keeps the 0 it was given by the caller;
`none`: the function returns 0. -/
def notsCount (cmdStart : Nat) (cmdCount : Int) (inums : Int) : Option (Int × Int) :=
  let start : Int := if (cmdStart : Int) < 0 then max (inums + cmdStart) 0 else 0
  if start ≥ inums then none
  else if start + cmdCount > inums then some (start, inums - start)
  else some (start, cmdCount)

/-- The `NON` branch of `sisdb_fmap_cxt_read` (workers/sisdb/sisdb_fmap.c:305-395) without callback: the records in
`imem`/`isize`.  `start` is the signed value the client sent; it is stored in an unsigned 64 bit field. -/
def nonRead (l : List α) (start : Int) (count : Int) : List α :=
  match notsCount (start % 2 ^ 64).toNat count l.length with
  | none => []
  | some (s, c) => (l.drop s.toNat).take c.toNat

/-- The `NON` branch of `sisdb_fmap_cxt_del` (workers/sisdb/sisdb_fmap.c:518-586). -/
def nonDel (l : List α) (start : Int) (count : Int) : List α :=
  match notsCount (start % 2 ^ 64).toNat count l.length with
  | none => l
  | some (s, c) => if c > 0 then slDelete l s c else l

/-- The `NON` branch of `sisdb_fmap_cxt_update` (workers/sisdb/sisdb_fmap.c:397-515, lines 452-477); table without main
index field. -/
def nonUpdate (T : Table α) (uniqFields : Bool) (l : List α) (batch : List α) : List α :=
  if l.length < 1 ∨ uniqFields = false then l ++ batch
  else batch.foldl (fun l r => (solelyNoidx T l r).1) l

/-! ### saving -/

/-- What `_disk_save_fmap_sdb` (workers/sisdb/sisdb_fmap_write.c:399-429) asks the disk writer to do. -/
inductive SaveOp (α : Type)
  | remove (isign : Int)
  | write (recs : List α)
deriving DecidableEq

/-- `_disk_save_fmap_sdb` (workers/sisdb/sisdb_fmap_write.c:399-429). -/
def saveSdb (u : Unit α) : List (SaveOp α) :=
  u.fidxs.flatMap fun f =>
    if f.writed = false then []
    else if f.moved then [.remove f.isign]
    else if u.recs.length > 0 then [.write u.recs] else []

end Sis.Fmap
