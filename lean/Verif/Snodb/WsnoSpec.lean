import Verif.Snodb.Wsno
import Verif.Zip.StepSpec
import Verif.Sdb.WriterSpec
import Verif.Sno.SnoSpec
/-
Specification: which records belong into the file of a day, and what a file is that holds them.
-/
namespace Sis.Wsno
open Sis
open Sis.Sdb (Tab fold KeyName)
open Sis.Zip (Plain bitsOf pieces Opens Follows SameRec)

/-- A table whose records a packet can hold: numbers and texts, not more than 16 KB with 264 bytes more, and not too many fields. -/
structure Fit (db : Dyn.Db) : Prop where
  plain : Plain db
  pos : 0 < db.size
  small : db.size + 264 ≤ 16384
  bits : bitsOf db ≤ 8 * db.size + 1958

/-- The text `K` names the keys `ks`, the text `T` the tables `ts`, without repetitions, and the last record of each key and table fits into memory. -/
structure Dict (e : Env) (ks : List Bytes) (ts : List Tab) (K T : Bytes) : Prop where
  keys : K = List.intercalate [44] ks
  names : ∀ k ∈ ks, KeyName k
  apart : ks.Pairwise fun a b => fold a ≠ fold b
  some : ks ≠ []
  tabs : e.tabs T = ts
  tapart : ts.Pairwise fun a b => fold a.name ≠ fold b.name
  tsome : ts ≠ []
  fits : ∀ t ∈ ts, Fit t.db
  room : ks.length * (ts.map fun t => t.db.size + 1).sum < 2 ^ 32
  few : ks.length < 2 ^ 31

/-- The records in what comes: those of keys and tables that there are; bytes behind the last whole record are not records. -/
def recs (nk : Nat) (ts : List Tab) (ins : List In) : List Zip.Rec :=
  ins.flatMap fun
    | .record k s d =>
      match ts[s.toNat]? with
      | none => []
      | some t => if k < nk then (pieces t.db.size d).map fun r => (k.toNat, s.toNat, r) else []
    | .idle => []

/-- What may come: numbers that are not negative, less than 1 GB at once. -/
def Proper : In → Prop
  | .record k s d => 0 ≤ k ∧ 0 ≤ s ∧ d.length < 2 ^ 30
  | .idle => True

/-- Records that can be compressed: no text is empty, no number of 8 bytes is 2^63 or changes by it from one record of a key and table to the next. -/
def Tame (ts : List Tab) (rs : List Zip.Rec) : Prop :=
  (∀ k s r t, (k, s, r) ∈ rs → ts[s]? = some t → Opens t.db r) ∧
  ∀ a b c k s x y t, rs = a ++ (k, s, x) :: b ++ (k, s, y) :: c → (∀ r ∈ b, ¬ (r.1 = k ∧ r.2.1 = s)) → ts[s]? = some t → Follows t.db x y

/-- These are the records, in order, under the names of their keys and tables, with the same number or text in each element of each field. -/
def Stored (ks : List Bytes) (ts : List Tab) (rs : List Zip.Rec) (ps : List Sno.Rec) : Prop :=
  ps.length = rs.length ∧ ∀ (i k s : Nat) (r : Bytes), rs[i]? = some (k, s, r) →
    ∃ n t r', ks[k]? = some n ∧ ts[s]? = some t ∧ ps[i]? = some ⟨n, t.name, r'⟩ ∧ r'.length = t.db.size ∧ SameRec t.db r' r

/-- A file with these keys, tables and records: what is done with its writer. -/
def fileOf (ks : List Bytes) (ts : List Tab) (ps : List Sno.Rec) : List Sno.Act :=
  [.keys ks, .tabs ts, .start] ++ ps.map (fun r => .put r.key r.tab r.data) ++ [.stop]

/-- `p` are the first packets of a run of the compressor on `ins`, all of them if it went to its end. -/
def Logged (e : Env) (K T : Bytes) (ins : List In) (p : List Bytes) : Prop :=
  ∃ i0 bs i last, zipOpen e K T = some i0 ∧ zipRun i0 ins = some (bs, i) ∧ zipStop i = some last ∧ p <+: bs ++ last

/-- The first `n` records are what these packets hold: all if these are all packets, and all that came before a pause if the packets up to
that pause are among them. -/
structure Kept (e : Env) (K T : Bytes) (nk : Nat) (ts : List Tab) (ins : List In) (p : List Bytes) (n : Nat) : Prop where
  le : n ≤ (recs nk ts ins).length
  all : ∀ i0 bs i last, zipOpen e K T = some i0 → zipRun i0 ins = some (bs, i) → zipStop i = some last → p = bs ++ last → n = (recs nk ts ins).length
  pause : ∀ pre post i0 b1 i1, ins = pre ++ In.idle :: post → zipOpen e K T = some i0 → zipRun i0 (pre ++ [.idle]) = some (b1, i1) → b1 <+: p → (recs nk ts pre).length ≤ n

end Sis.Wsno
