import Verif.Dict.Scan
import Verif.Dict.DictTheorems
/-
What is meant by going through a dictionary by a cursor while it is used: calls of `scan`, each with the cursor the one before
returned, the first with 0, and in between whatever a client does.
-/
namespace Sis.Dict

variable {K V : Type}

/-- What a client does with a dictionary: the calls of a map, and asking for the smallest table. -/
inductive Use (K V : Type)
  | op (o : Op K V)
  | resize

/-- The calls that change what a dictionary holds. -/
def opsOf : List (Use K V) → List (Op K V)
  | [] => []
  | .op o :: us => o :: opsOf us
  | .resize :: us => opsOf us

/-- The dictionary after what a client did. -/
def use (ty : Ty K) : Dict K V → List (Use K V) → Option (Dict K V)
  | d, [] => some d
  | d, .op o :: us => (step ty d o).bind fun r => use ty r.1 us
  | d, .resize :: us => use ty (resize d).1 us

/-- A call for each element of the list, with what the client does after it: the dictionary at the end, the last cursor, and
the entries each call told. -/
def scans (ty : Ty K) : Dict K V → BitVec 64 → List (List (Use K V)) → Option (Dict K V × BitVec 64 × List (List (K × V)))
  | d, v, [] => some (d, v, [])
  | d, v, us :: gs => (scan d v).bind fun r => (use ty d us).bind fun d => (scans ty d r.1 gs).map fun s => (s.1, s.2.1, r.2 :: s.2.2)

/-- The value of a key after what a client did. -/
def valueOf (ty : Ty K) (us : List (Use K V)) (k : K) : Option V := answer ty.same (opsOf us).reverse k

end Sis.Dict
