import Verif.Fmap.Store
/-
Model of the lazy loading of blocks from disk in `workers/sisdb/sisdb_fmap_read.c`.
-/
namespace Sis.Fmap

variable {α : Type}

/-- The calendar as the loader uses it: the period after a period (`open_year++`, or `sis_time_get_offset_day`,
src/core/sis_time.c:222-227), and the main index value a period starts at
(workers/sisdb/sisdb_fmap_read.c:52-111, lines 54-64 and 80-81).  The calendar functions of the C library are not
modelled: any function that moves forward. -/
structure Calendar where
  next : Int → Int
  lower : Int → Nat
  adv : ∀ p, p < next p
  /-- `scale` is `SIS_SDB_SCALE_YEAR`. -/
  year : Bool
  /-- today's period, used when a series has no index entries -/
  today : Int

/-- `sis_struct_list_inserts` (src/core/sis_list.c:150-169). -/
def slInserts (l : List α) (i : Int) (b : List α) : List α :=
  if (l.length : Int) < 1 ∨ i > (l.length : Int) - 1 then l ++ b
  else l.take i.toNat ++ (b ++ l.drop i.toNat)

/-- The shift of the entries behind the one loaded (workers/sisdb/sisdb_fmap_read.c:52-111, lines 84-91). -/
def shiftLoaded (count : Int) (f : Fidx) : Fidx :=
  if f.count > 0 ∧ f.start ≥ 0 then { f with start := f.start + count } else f

/-- `_fmap_cxt_getdata_from_disk` (workers/sisdb/sisdb_fmap_read.c:52-111): load the block of entry `f` that has `pre`
before and `post` behind it. `disk p` is what the reader returns for the key in period `p`. -/
def loadOne (T : Table α) (g : Goto) (C : Calendar) (disk : Int → Option (List α)) (u : Unit α) (pre : List Fidx) (f : Fidx)
    (post : List Fidx) : Unit α :=
  let f0 := { f with count := 0, start := 0 }
  match disk f.isign with
  | none => { u with fidxs := pre ++ f0 :: post }
  | some b =>
    if b.length > 0 then
      let oindex := findHead (keyOf T.ts u.recs) u.recs.length (u.hint g (C.lower f.isign)) (C.lower f.isign)
      let post' := post.map (shiftLoaded b.length)
      if oindex ≥ u.recs.length then
        Unit.reidx T { u with
          fidxs := pre ++ { f with count := b.length, start := u.recs.length } :: post'
          recs := u.recs ++ b }
      else
        let oindex := if oindex < 0 then 0 else oindex
        Unit.reidx T { u with
          fidxs := pre ++ { f with count := b.length, start := oindex } :: post'
          recs := slInserts u.recs oindex b }
    else Unit.reidx T { u with fidxs := pre ++ f0 :: post }

/-- `_fmap_cxt_getdata_year` and `_fmap_cxt_getdata_date` (workers/sisdb/sisdb_fmap_read.c:113-185): walk the periods from
`op` to `stop` and the entries together.  `pre` are the entries passed, `post` those ahead; the walk over positions of
the C code is a walk over the list here. -/
def getData (T : Table α) (g : Goto) (C : Calendar) (disk : Int → Option (List α)) (op stop : Int) (u : Unit α) (index : Nat) (n : Nat) : Unit α :=
  if op ≤ stop ∧ index < n then
    match u.fidxs[index]? with
    | none => u
    | some f =>
      if op = f.isign then
        let u := if f.start = -1 then loadOne T g C disk u (u.fidxs.take index) f (u.fidxs.drop (index + 1)) else u
        getData T g C disk (C.next op) stop u (index + 1) n
      else if op < f.isign then getData T g C disk (C.next op) stop u index n
      else getData T g C disk op stop u (index + 1) n
  else u
termination_by (stop + 1 - op).toNat + (n - index)
decreasing_by
  · have := C.adv op; omega
  · have := C.adv op; omega
  · omega

/-- Conversion of a 64 bit value to `int` (workers/sisdb/sisdb_fmap_read.c:186-211). -/
def toInt32 (x : Int) : Int := (x + 2 ^ 31) % 2 ^ 32 - 2 ^ 31

/-- `_fmap_cxt_get_head_sign` (workers/sisdb/sisdb_fmap_read.c:186-198). -/
def headSign (C : Calendar) (u : Unit α) : Int := (u.fidxs.head?.map Fidx.isign).getD C.today

/-- `_fmap_cxt_get_tail_sign` (workers/sisdb/sisdb_fmap_read.c:199-211). -/
def tailSign (C : Calendar) (u : Unit α) : Int := (u.fidxs.getLast?.map Fidx.isign).getD C.today

/-- The time-series branch of `sisdb_fmap_cxt_read_data` (workers/sisdb/sisdb_fmap_read.c:215-345): which periods a query
with these bounds loads.  Timestamps are converted to periods only when both bounds are positive. -/
def loadBounds (T : Table α) (C : Calendar) (u : Unit α) (start stop : Int) : Int × Int :=
  if start ≤ 0 ∨ stop ≤ 0 then
    let s := if start ≤ 0 then (if C.year ∧ start < 0 then tailSign C u else headSign C u) else toInt32 start
    let e := if stop = 0 then s else if stop < 0 then tailSign C u else toInt32 stop
    (s, e)
  else (T.sign start.toNat, T.sign stop.toNat)

/-- `sisdb_fmap_cxt_read_data` (workers/sisdb/sisdb_fmap_read.c:215-345) on a time series. -/
def readData (T : Table α) (g : Goto) (C : Calendar) (disk : Int → Option (List α)) (u : Unit α) (start stop : Int) : Unit α :=
  let b := loadBounds T C u start stop
  getData T g C disk b.1 b.2 u 0 u.fidxs.length

/-- The bounds a query passes to the loader: `stop` is 0 for an exact match (workers/sisdb/sisdb_io.c:23-75). -/
def Query.bounds : Query → Int × Int
  | .whereTs t _ => (t, 0)
  | .range a b _ => (a, b)

/-- `sisdb_fmap_cxt_read` (workers/sisdb/sisdb_fmap.c:305-394) on a time series: load, then answer. -/
def lazyRead (T : Table α) (g : Goto) (C : Calendar) (disk : Int → Option (List α)) (u : Unit α) (q : Query) : (Int × List α) × Unit α :=
  let u := readData T g C disk u q.bounds.1 q.bounds.2
  (tsdbRead T g u q, u)

/-- The unit made for a series found on disk: `_fmap_cxt_new_of_map` (workers/sisdb/sisdb_fmap.c:77-113); for each entry of
the map on disk its period and whether it is active. -/
def Unit.ofMap (entries : List (Int × Bool)) : Unit α :=
  ⟨[], entries.map fun e => ⟨e.1, if e.2 then -1 else 0, 0, !e.2, false⟩, 0, 0, 0⟩

end Sis.Fmap
