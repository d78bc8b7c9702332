import Verif.Zip.IncrSpec
/-
What the theorems about stepwise compression say, apart from the model of the code.
-/
namespace Sis.Zip
open Sis

/-- What can be done between start and stop: a bag of records of a key and a table, the end of a block (with or without forgetting the
records before), more keys. -/
inductive Op where
  | step (k s : Int) (src : Bytes)
  | restart (init : Bool)
  | addKey (n : Nat)
deriving DecidableEq, Repr

/-- One operation of a history: what it returned, the blocks it handed on and `sis_incrzip_getsize` afterwards. -/
structure Ev where
  op : Op
  ret : Int
  blocks : List Bytes
  size : Nat
deriving DecidableEq, Repr

/-- An operation on a compressor; the end of a block returns nothing, more keys hand on nothing. -/
def does (z : Z) : Op → Option (Int × List Bytes × Z)
  | .step k s src => step z k s src
  | .restart init => (restart z init).map fun (bs, z) => (0, bs, z)
  | .addKey n => (addKey z n).map fun (r, z) => (r, [], z)

/-- A history of operations from one state to another. -/
inductive Run : Z → List Ev → Z → Prop
  | nil {z : Z} : Run z [] z
  | cons {z z' z'' : Z} {op : Op} {n : Int} {bs : List Bytes} {evs : List Ev} : does z op = some (n, bs, z') → Run z' evs z'' → Run z (⟨op, n, bs, getSize z'⟩ :: evs) z''

/-- The records of a table in some bytes. -/
def recsOf (dbs : List Dyn.Db) (s : Nat) (src : Bytes) : List Bytes := match dbs[s]? with
  | none => []
  | some db => pieces db.size src

/-- The records of the bags that were accepted, which is when a positive number is returned. -/
def sent (dbs : List Dyn.Db) : List Ev → List Rec
  | [] => []
  | ⟨.step k s src, n, _, _⟩ :: evs => (if 0 < n then (recsOf dbs s.toNat src).map fun r => (k.toNat, s.toNat, r) else []) ++ sent dbs evs
  | _ :: evs => sent dbs evs

/-- What the last record of each key and table is. -/
abbrev Last := Nat → Nat → Option Bytes

/-- The last records after a bag of records. -/
def Last.after (p : Last) (k s : Nat) (rs : List Bytes) : Last := fun k' s' => if k' = k ∧ s' = s then (rs.getLast?.or (p k s)) else p k' s'

/-- A bag of records that can follow: the first bag of a key and a table has at most one record, each other record can follow the one before. -/
def Fits (dbs : List Dyn.Db) (p : Last) (k s : Nat) (rs : List Bytes) : Prop :=
  ∀ db, dbs[s]? = some db → (p k s = none → rs.length ≤ 1 ∧ Sound db rs) ∧ ∀ a, p k s = some a → Linked db a rs

/-- Each bag of a history can follow those before. -/
def Flow (dbs : List Dyn.Db) : Last → List Ev → Prop
  | _, [] => True
  | p, ⟨.step k s src, n, _, _⟩ :: evs =>
    if 0 < n then Fits dbs p k.toNat s.toNat (recsOf dbs s.toNat src) ∧ Flow dbs (p.after k.toNat s.toNat (recsOf dbs s.toNat src)) evs
    else Flow dbs p evs
  | p, ⟨.restart init, _, _, _⟩ :: evs => Flow dbs (if init then fun _ _ => none else p) evs
  | p, ⟨.addKey _, _, _, _⟩ :: evs => Flow dbs p evs

/-- Blocks handed to a decompressor one after the other. -/
def feed (d : Z) : List Bytes → Option (List Rec × Z)
  | [] => some ([], d)
  | b :: bs => (unStep d b).bind fun (_, rs, d) => (feed d bs).map fun (rs', d) => (rs ++ rs', d)

/-- The same keys and tables in the same order, with records that hold the same. -/
def SameRecs (dbs : List Dyn.Db) (a b : List Rec) : Prop :=
  a.length = b.length ∧ ∀ (i k s : Nat) (r : Bytes), b[i]? = some (k, s, r) → ∃ r', a[i]? = some (k, s, r') ∧ ∀ db, dbs[s]? = some db → r'.length = db.size ∧ SameRec db r' r

end Sis.Zip
