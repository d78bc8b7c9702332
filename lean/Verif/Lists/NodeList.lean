import Verif.Lists.StructList
/-
Model of the paged list `s_sis_node_list` (src/core/sis_list.c:528-668): a list of record arrays of `nc` slots each, filled
one after the other and emptied from the front.  The array of node pointers is taken as a list (it is the pointer array of
`Verif.Lists.PointerList`).
-/
namespace Sis.NL
open Sis.SL (SList intMax)

/-- `s_sis_node_list` (src/core/sis_list.h:374-380). -/
structure NList (α : Type) where
  nodes : List (SList α)
  nc : Nat
  len : Nat
  count : Nat
  nouse : Int

variable {α : Type}

/-- `sis_struct_list_create` followed by `sis_struct_list_set_size` (src/core/sis_list.c:11-24 and 227-237). -/
def newNode (nc len : Nat) : Option (SList α) :=
  if len < 1 then none else if nc * len < intMax then some ⟨List.replicate nc none, 0, 0, len⟩ else none

/-- `sis_node_list_create` (src/core/sis_list.c:528-542). -/
def create (nc len : Nat) : Option (NList α) := do
  some ⟨[← newNode nc len], nc, len, 0, 0⟩

/-- `sis_node_list_clear` (src/core/sis_list.c:549-559): `none` is the use of the NULL first node. -/
def clear (s : NList α) : Option (NList α) :=
  match s.nodes with
  | [] => none
  | n :: _ => some { s with nodes := [SL.clear n], count := 0, nouse := 0 }

/-- The choice of the node in `sis_node_list_push` (src/core/sis_list.c:561-577): the last node, or a new one when there is
no room in it. -/
def pushNodes (nc len : Nat) (x : α) : List (SList α) → Option (List (SList α))
  | [] => do
    let n ← newNode nc len
    let (n, _) ← SL.push n x
    some [n]
  | [n] =>
    if n.start + n.count ≥ nc then do
      let m ← newNode nc len
      let (m, _) ← SL.push m x
      some [n, m]
    else do
      let (n, _) ← SL.push n x
      some [n]
  | n :: m :: ns => (pushNodes nc len x (m :: ns)).map (n :: ·)

/-- `sis_node_list_push` (src/core/sis_list.c:561-577); `sis_node_list_empty` (src/core/sis_list.c:607-625) is the same with
a record of zeros. -/
def push (s : NList α) (x : α) : Option (NList α × Int) := do
  let ns ← pushNodes s.nc s.len x s.nodes
  some ({ s with nodes := ns, count := s.count + 1 }, s.count)

/-- `sis_node_list_get` (src/core/sis_list.c:580-606). -/
def get (s : NList α) (i : Int) : Option (Option α) :=
  if i < 0 ∨ i > (s.count : Int) - 1 then some none
  else if s.nc = 0 then none
  else
    let offset := i + s.nouse
    let nodeidx := offset.tdiv s.nc
    let rest := (s.nc : Int) - s.nouse.tmod s.nc
    if nodeidx < 0 then some none
    else match s.nodes[nodeidx.toNat]? with
    | none => some none
    | some n => if rest = 0 then none else SL.get n (i.tmod rest)

/-- The loop of `sis_node_list_pop` that deletes the empty nodes in front (src/core/sis_list.c:631-645): the nodes left and
`nouse`. -/
def dropEmpty (nc : Nat) : List (SList α) → Int → List (SList α) × Int
  | [], u => ([], u)
  | n :: ns, u => if n.count = 0 then dropEmpty nc ns (u - nc) else (n :: ns, u)

/-- `sis_node_list_pop` (src/core/sis_list.c:627-663): when every node was empty the last one, just freed, is used
(`none`). -/
def pop (s : NList α) : Option (NList α × Option α) :=
  match dropEmpty s.nc s.nodes s.nouse with
  | ([], u) => if s.nodes = [] then some ({ s with nouse := u }, none) else none
  | (n :: ns, u) => do
    let (n, r) ← SL.pop n
    match r with
    | some x => some ({ s with nodes := n :: ns, count := s.count - 1, nouse := u + 1 }, some x)
    | none => some ({ s with nodes := n :: ns, nouse := u }, none)

/-- `sis_node_list_getsize` (src/core/sis_list.c:665-668). -/
def size (s : NList α) : Nat := s.count

end Sis.NL
