import Verif.Merge.Merge
import Verif.Sdb.Writer
/-
Model of the subscription to one key of one table of a database of tables on disk, `sis_disk_reader_sub_sdb`
(src/core/disk/sis_disk_read.c:1014-1055): the files of the range are looked for as for reading the key, the blocks they
have of it go one by one into the merge of `Sis.Mrg`, and the client is told what comes out of it.

Simplified: all blocks are read at once, while the program reads a block when the one before was told; the name of a table
is the one its file has first, while the program takes that of its last definition, which differs in case only.  Times of
the range are in milliseconds and not 0, as for `Sis.Sdb.getRows`.

Not modelled: lists of keys or tables and `*`, `sis_disk_reader_unsub` while records are told, and styles of time that no
table on disk can have for its times.
-/
namespace Sis.Mrg
open Sis.Time (Style Env)
open Sis.Sdb (Lib Disk Uid Ctl Node openRd shortName multiple readSdb getTab)
open Sis.Dyn (Db getN)

/-- One file looked at: `sis_disk_reader_filters` for one key and one table (src/core/disk/sis_disk_read.c:357-377), with
`sis_disk_reader_sub_push`; the inner `none` when the file is not there or has no entry. -/
def partIn (lib : Lib) (d : Disk) (k s : Bytes) (u : Uid) : Option (Option (Ctl × Node)) :=
  (openRd lib d u).map fun c => c.bind fun c => (getN c.idx (shortName k (some s))).map fun n => (c, n)

/-- The files of the years `y` to `y + n - 1` (src/core/disk/sis_disk_read.c:414-447). -/
def partYears (lib : Lib) (d : Disk) (k s : Bytes) : Nat → Nat → Option (List (Ctl × Node))
  | 0, _ => some []
  | n + 1, y => (partIn lib d k s (.year y)).bind fun a => (partYears lib d k s n (y + 1)).map fun l => a.toList ++ l

/-- The files of the days from `day` to `stop` (src/core/disk/sis_disk_read.c:454-484), at most `n` of them. -/
def partDays (lib : Lib) (v : Env) (d : Disk) (k s : Bytes) (stop : Nat) : Nat → Nat → Option (List (Ctl × Node))
  | 0, _ => some []
  | n + 1, day =>
    if day ≤ stop then
      (partIn lib d k s (.date day)).bind fun a => (Time.nextWorkDay v day 1).bind fun day =>
        (partDays lib v d k s stop n day).map fun l => a.toList ++ l
    else some []

/-- `sis_disk_reader_make_sdb` with `_disk_reader_make_sdb_from_file` (src/core/disk/sis_disk_read.c:411-531): the files that
have the key and the table, and their entries. -/
def parts (lib : Lib) (v : Env) (d : Disk) (k s : Bytes) (lo hi : Nat) : Option (List (Ctl × Node)) :=
  (partIn lib d k s .nots).bind fun a =>
    match a with
    | some p => some [p]
    | none =>
      (Time.getIdate v (Time.time_t (lo / 1000))).bind fun a => (Time.getIdate v (Time.time_t (hi / 1000))).bind fun b =>
        (partYears lib d k s (b / 10000 + 1 - a / 10000) (a / 10000)).bind fun ys =>
          if ys ≠ [] then some ys else partDays lib v d k s b (b + 1 - a) a

/-- `sis_str_divide` at a dot (src/core/sis_str.c:177-208). -/
def divide (s : Bytes) : Bytes × Bytes := (s.takeWhile (· ≠ 46), (s.dropWhile (· ≠ 46)).drop 1)

/-- The whole records of a block, as `sis_subdb_cxt_push_sdbs` takes them (src/core/sis_db.c:350-368). -/
def itemsOf (db : Db) (m : Bytes) : Option (List Item) :=
  if db.size = 0 then none
  else (List.range (m.length / db.size)).mapM fun i =>
    (Dyn.getTime db i m).map fun t => ⟨t, (m.drop (i * db.size)).take db.size⟩

/-- The style of the time field of a table (src/core/sis_db.c:302-305). -/
def styleIn (db : Db) : Option (Option Style) :=
  match db.time with
  | none => some none
  | some a => (Dyn.unit db a).bind fun f => (Dyn.timeStyle f.style).map some

/-- The blocks of an entry (src/core/disk/sis_disk_read.c:946-952). -/
def blocksOf (lib : Lib) (p : Ctl × Node) : Option (List Bytes) :=
  p.2.units.mapM fun u => (readSdb lib p.1.body u.offset u.size).map (·.2)

/-- The client of the reader is told the start, the records and the end (src/core/disk/sis_disk_read.c:893-977). -/
def reported : Out → Bool
  | .keyStop _ _ => false
  | _ => true

/-- `_disk_reader_sub_work` (src/core/disk/sis_disk_read.c:979-1012) with `cb_key_stop`
(src/core/disk/sis_disk_read.c:920-960), for at most so many rounds of the merge: what the client is told, and whether the
call returns.  The table is as the first file has it last. -/
def play (lib : Lib) (v : Env) (key : Bytes × Bytes) (n : Nat) (p : Ctl × Node) (ps : List (Ctl × Node)) : Option (List Out × Bool) :=
  p.2.sname.bind fun sn => (getTab p.1.sd sn).bind fun t => t.1.2.getLast?.bind fun db => (styleIn db).bind fun st =>
    (blocksOf lib p).bind fun bs => match bs with
      | [] => none
      | b :: bs =>
        (ps.mapM (blocksOf lib)).bind fun rest => (itemsOf db b).bind fun xs => ((bs ++ rest.flatten).mapM (itemsOf db)).bind fun more =>
          (push v (setTab {} t.1.1 st) key.1 key.2 xs).bind fun c =>
            (start v n { c := c, more := more.map fun m => (key, m) }).map fun r => (r.1.out.filter reported, r.2)

/-- `sis_disk_reader_sub_sdb` (src/core/disk/sis_disk_read.c:1014-1055) for one key and one table, by a reader that is open
and not at work. -/
def subOne (lib : Lib) (v : Env) (d : Disk) (k s : Bytes) (lo hi n : Nat) : Option (List Out × Bool) :=
  if multiple k || multiple s then none
  else (parts lib v d k s lo hi).bind fun ps => match ps with
    | [] => some ([], true)
    | p :: ps => play lib v (divide (shortName k (some s))) n p ps

end Sis.Mrg
