/-
Model of the linked list, src/core/sis_nodelist.c, with its nodes in memory.

Memory is a map from addresses to nodes; an address without a node is not allocated, and reading, writing or freeing it is
undefined behaviour, `none`.  The address a new node gets is a parameter of each call: `sis_malloc` may return any address that
is not in use.  `sis_malloc` does not fail.  Lists are numbered; all share the memory.  The method that frees a value is set
and its calls are recorded; the methods that copy and compare are the client's.  The number of nodes is not cut to 32 bits.
-/
namespace Sis.Link

variable {V : Type}

/-- `s_sis_list_node` (src/core/sis_nodelist.h:7-11). -/
structure Node (V : Type) where
  prev : Option Nat
  next : Option Nat
  value : V
deriving DecidableEq

/-- `s_sis_list` (src/core/sis_nodelist.h:18-25), as `sis_list_create` (src/core/sis_nodelist.c:10-22) makes it. -/
structure Lst where
  head : Option Nat := none
  tail : Option Nat := none
  len : Nat := 0
deriving DecidableEq

abbrev Heap (V : Type) := Nat → Option (Node V)

/-- Memory and the lists. -/
structure St (V : Type) where
  heap : Heap V
  ls : Nat → Lst

/-- No list has an element (src/core/sis_nodelist.c:10-22). -/
def St.new : St V := ⟨fun _ => none, fun _ => {}⟩

/-- A map changed at one place; used for writes to memory. -/
def put {α : Type} (f : Nat → α) (i : Nat) (x : α) : Nat → α := fun j => if j = i then x else f j

/-- `node->prev = p` (src/core/sis_nodelist.c:81, 153, 175, 390-391, 402). -/
def setPrev (h : Heap V) (a : Nat) (p : Option Nat) : Option (Heap V) := (h a).map fun n => put h a (some { n with prev := p })

/-- `node->next = n` (src/core/sis_nodelist.c:112, 149, 167, 388, 392, 407). -/
def setNext (h : Heap V) (a : Nat) (p : Option Nat) : Option (Heap V) := (h a).map fun n => put h a (some { n with next := p })

/-- `if (node) node->prev = p`. (src/core/sis_nodelist.c:151-154, 173-176, 400-403) -/
def linkPrev (h : Heap V) (a p : Option Nat) : Option (Heap V) :=
  match a with
  | none => some h
  | some a => setPrev h a p

/-- `if (node) node->next = n`. (src/core/sis_nodelist.c:147-150, 165-168, 405-408) -/
def linkNext (h : Heap V) (a n : Option Nat) : Option (Heap V) :=
  match a with
  | none => some h
  | some a => setNext h a n

/-- `sis_list_add_node_head` (src/core/sis_nodelist.c:64-87). -/
def addHead (st : St V) (i a : Nat) (v : V) : Option (St V) :=
  let l := st.ls i
  if l.len = 0 then some ⟨put st.heap a (some ⟨none, none, v⟩), put st.ls i ⟨some a, some a, l.len + 1⟩⟩
  else l.head.bind fun x => (setPrev (put st.heap a (some ⟨none, l.head, v⟩)) x (some a)).map fun h =>
    ⟨h, put st.ls i { l with head := some a, len := l.len + 1 }⟩

/-- `sis_list_push` (src/core/sis_nodelist.c:95-118). -/
def push (st : St V) (i a : Nat) (v : V) : Option (St V) :=
  let l := st.ls i
  if l.len = 0 then some ⟨put st.heap a (some ⟨none, none, v⟩), put st.ls i ⟨some a, some a, l.len + 1⟩⟩
  else l.tail.bind fun x => (setNext (put st.heap a (some ⟨l.tail, none, v⟩)) x (some a)).map fun h =>
    ⟨h, put st.ls i { l with tail := some a, len := l.len + 1 }⟩

/-- `sis_list_insert_node` (src/core/sis_nodelist.c:120-157). -/
def insert (st : St V) (i x a : Nat) (v : V) (after : Bool) : Option (St V) :=
  let l := st.ls i
  (st.heap x).bind fun old =>
    let node : Node V := if after then ⟨some x, old.next, v⟩ else ⟨old.prev, some x, v⟩
    let l := if after then (if l.tail = some x then { l with tail := some a } else l) else (if l.head = some x then { l with head := some a } else l)
    (linkNext (put st.heap a (some node)) node.prev (some a)).bind fun h => (linkPrev h node.next (some a)).map fun h =>
      ⟨h, put st.ls i { l with len := l.len + 1 }⟩

/-- `sis_list_delete` (src/core/sis_nodelist.c:163-187); the value is handed to the method that frees it. -/
def delete (st : St V) (i x : Nat) : Option (St V × List V) :=
  let l := st.ls i
  (st.heap x).bind fun node =>
    let l := if node.prev.isSome then l else { l with head := node.next }
    let l := if node.next.isSome then l else { l with tail := node.prev }
    (linkNext st.heap node.prev node.next).bind fun h => (linkPrev h node.next node.prev).map fun h =>
      (⟨put h x none, put st.ls i { l with len := l.len - 1 }⟩, [node.value])

/-- The loop of `sis_list_clear` (src/core/sis_nodelist.c:32-39). -/
def clearLoop : Heap V → Nat → Option Nat → Option (Heap V × List V)
  | h, 0, _ => some (h, [])
  | h, n + 1, c => c.bind fun a => (h a).bind fun nd => (clearLoop (put h a none) n nd.next).map fun r => (r.1, nd.value :: r.2)

/-- `sis_list_clear` (src/core/sis_nodelist.c:25-42); what `sis_list_destroy` (src/core/sis_nodelist.c:53-57) does with the nodes. -/
def clear (st : St V) (i : Nat) : Option (St V × List V) :=
  (clearLoop st.heap (st.ls i).len (st.ls i).head).map fun r => (⟨r.1, put st.ls i {}⟩, r.2)

/-- The loops of `sis_list_get` (src/core/sis_nodelist.c:359-362, 368-371), by `next` or by `prev`. -/
def walk (h : Heap V) (fwd : Bool) : Nat → Option Nat → Option (Option Nat)
  | 0, n => some n
  | _ + 1, none => some none
  | k + 1, some a => (h a).bind fun nd => walk h fwd k (if fwd then nd.next else nd.prev)

/-- `sis_list_get` (src/core/sis_nodelist.c:352-374); the smallest number cannot be negated. -/
def get (st : St V) (i : Nat) (index : Int) : Option (Option Nat) :=
  if index < 0 then if index ≤ -2 ^ 63 then none else walk st.heap false (-index - 1).toNat (st.ls i).tail
  else walk st.heap true index.toNat (st.ls i).head

/-- The loop of `sis_list_search_key` (src/core/sis_nodelist.c:327-343), `n` bounding the passes. -/
def searchLoop (h : Heap V) (p : V → Bool) : Nat → Option Nat → Option (Option Nat)
  | 0, _ => none
  | _ + 1, none => some none
  | n + 1, some a => (h a).bind fun nd => if p nd.value then some (some a) else searchLoop h p n nd.next

/-- `sis_list_search_key` (src/core/sis_nodelist.c:321-345). -/
def search (st : St V) (i : Nat) (p : V → Bool) : Option (Option Nat) := searchLoop st.heap p ((st.ls i).len + 1) (st.ls i).head

/-- The loop a client writes with `sis_list_next_iter` (src/core/sis_nodelist.c:246-262) and `sis_list_delete` of the node it got,
for values that shall not be kept: the nodes with their values that it got, and the values freed. -/
def sweepLoop (i : Nat) (fwd : Bool) (keep : V → Bool) : Nat → St V → Option Nat → Option (St V × List (Nat × V) × List V)
  | 0, _, _ => none
  | _ + 1, st, none => some (st, [], [])
  | n + 1, st, some a => (st.heap a).bind fun nd =>
    (if keep nd.value then some (st, []) else delete st i a).bind fun r =>
      (sweepLoop i fwd keep n r.1 (if fwd then nd.next else nd.prev)).map fun s => (s.1, (a, nd.value) :: s.2.1, r.2 ++ s.2.2)

/-- That loop with an iterator from `sis_list_get_iter` (src/core/sis_nodelist.c:193-211). -/
def sweep (st : St V) (i : Nat) (fwd : Bool) (keep : V → Bool) : Option (St V × List (Nat × V) × List V) :=
  sweepLoop i fwd keep ((st.ls i).len + 1) st (if fwd then (st.ls i).head else (st.ls i).tail)

/-- `sis_list_rotate` (src/core/sis_nodelist.c:377-394). -/
def rotate (st : St V) (i : Nat) : Option (St V) :=
  let l := st.ls i
  if l.len ≤ 1 then some st
  else l.tail.bind fun t => (st.heap t).bind fun nd => nd.prev.bind fun t' => (setNext st.heap t' none).bind fun h =>
    l.head.bind fun x => (setPrev h x (some t)).bind fun h => (setPrev h t none).bind fun h => (setNext h t (some x)).map fun h =>
      ⟨h, put st.ls i { l with tail := some t', head := some t }⟩

/-- `sis_list_join` (src/core/sis_nodelist.c:398-423); the lists may be the same. -/
def join (st : St V) (i j : Nat) : Option (St V) :=
  (linkPrev st.heap (st.ls j).head (st.ls i).tail).bind fun h => (linkNext h (st.ls i).tail (st.ls j).head).map fun h =>
    let l := st.ls i
    let o := st.ls j
    let l := if l.tail.isSome then l else { l with head := o.head }
    let ls := put st.ls i { l with tail := if o.tail.isSome then o.tail else l.tail, len := l.len + o.len }
    ⟨h, put ls j {}⟩

/-- The loop of `sis_list_dup` (src/core/sis_nodelist.c:285-308), `n` bounding the passes, `as` the addresses `sis_malloc` returns;
the copy of a value is not null. -/
def dupLoop (j : Nat) (copy : V → V) : Nat → St V → Option Nat → List Nat → Option (St V)
  | 0, _, _, _ => none
  | _ + 1, st, none, _ => some st
  | _ + 1, _, some _, [] => none
  | n + 1, st, some a, b :: as => (st.heap a).bind fun nd => (push st j b (copy nd.value)).bind fun st => dupLoop j copy n st nd.next as

/-- `sis_list_dup` (src/core/sis_nodelist.c:272-310) of list `i`, list `j` being the one that is created. -/
def dup (st : St V) (i j : Nat) (copy : V → V) (as : List Nat) : Option (St V) := dupLoop j copy ((st.ls i).len + 1) st (st.ls i).head as

end Sis.Link
