import Verif.Sdb.WriterSpec
import Verif.Sdb.MergeSpec
/- What calls of a writer must keep to so that nothing undefined happens. -/
namespace Sis.Sdb
open Sis
open Sis.Dyn (Db)

/-- The current definition of every table, by its folded name, after a call. -/
def defsAfter (defs : Bytes → Option Db) : Cmd → Bytes → Option Db
  | .tabs ts => ts.foldl (fun defs t n => if n = fold t.name then some t.db else defs n) defs
  | _ => defs

/-- Definitions are of tables that are known; records for a table that is defined are a good block of its current definition, for
a key that need not be declared.  Records for other tables are ignored.  Keys may be any bytes that can be a name, and marks of
data may be removed. -/
def Safe (v : Time.Env) (P : Db → Prop) (defs : Bytes → Option Db) : Cmd → Prop
  | .tabs ts => ∀ t ∈ ts, TabName t.name ∧ P t.db
  | .one k d => KeyName k ∧ d.length < 2 ^ 31
  | .mul k l => KeyName k ∧ l.length < 2 ^ 31 ∧ ∀ d ∈ l, d.length < 2 ^ 31
  | .rows k s d => KeyName k ∧ TabName s ∧ ∀ db, defs (fold s) = some db → BlockOk v db d
  | .keys _ => True
  | .remove _ _ _ _ => True

end Sis.Sdb
