/-
Model of the dictionary `s_sis_dict` (src/core/sis_dict.c), a hash table with chaining and incremental rehashing.

Keys are compared by `same` and hashed by `hash`.  A chain is the list of its entries, first entry first.  Reading a table
outside its size is undefined (`none`); memory never runs out.  Entries carry key and value; with a value destructor the values
it is called on are reported.  The shortcut `key == he->key` before comparing keys is left out: equal pointers are equal keys.
-/
namespace Sis.Dict

/-- The functions of `s_sis_dict_type` (src/core/sis_dict.h:28-35) used on keys. -/
structure Ty (K : Type) where
  same : K → K → Bool
  hash : K → Nat

/-- `s_sis_dictht` (src/core/sis_dict.h:39-44): `size` is the length of the table, `sizemask` is `size - 1`. -/
structure HT (K V : Type) where
  table : List (List (K × V))
  used : Nat

/-- `s_sis_dict` (src/core/sis_dict.h:46-52): `ridx` is `rehashidx`, `none` for -1. -/
structure Dict (K V : Type) where
  h0 : HT K V
  h1 : HT K V
  ridx : Option Nat
  iters : Nat

variable {K V : Type}

/-- `_dict_reset` (src/core/sis_dict.c:239-245). -/
def HT.reset : HT K V := ⟨[], 0⟩

/-- `sis_dict_create` with `_dict_init` (src/core/sis_dict.c:248-268). -/
def create : Dict K V := ⟨HT.reset, HT.reset, none, 0⟩

/-- `hash & sizemask` (src/core/sis_dict.c:1143). -/
def HT.slot (ty : Ty K) (t : HT K V) (k : K) : Nat := ty.hash k &&& (t.table.length - 1)

/-- The doubling loop of `_dict_next_power` (src/core/sis_dict.c:1119-1123), `n` bounding the passes. -/
def nextPowerN : Nat → Nat → Nat → Nat
  | 0, i, _ => i
  | n + 1, i, size => if i ≥ size then i else nextPowerN n (i * 2) size

/-- `_dict_next_power` (src/core/sis_dict.c:1114-1124); `size` doublings are always enough. -/
def nextPower (size : Nat) : Nat := if size ≥ 2 ^ 63 - 1 then 2 ^ 63 else nextPowerN size 4 size

/-- `sis_dict_expand` (src/core/sis_dict.c:284-314); the flag is `true` for SIS_DICT_OK. -/
def expand (d : Dict K V) (size : Nat) : Dict K V × Bool :=
  if d.ridx.isSome ∨ d.h0.used > size then (d, false)
  else
    let realsize := nextPower size
    if realsize = d.h0.table.length then (d, false)
    else
      let n : HT K V := ⟨List.replicate realsize [], 0⟩
      if d.h0.table = [] then ({ d with h0 := n }, true)
      else ({ d with h1 := n, ridx := some 0 }, true)

/-- Moving one entry into the new table (src/core/sis_dict.c:344-351). -/
def moveEntry (ty : Ty K) (t : HT K V) (e : K × V) : Option (HT K V) := do
  let i := t.slot ty e.1
  let c ← t.table[i]?
  some ⟨t.table.set i (e :: c), t.used + 1⟩

/-- Moving a chain (src/core/sis_dict.c:341-352). -/
def moveChain (ty : Ty K) (t : HT K V) : List (K × V) → Option (HT K V)
  | [] => some t
  | e :: c => do moveChain ty (← moveEntry ty t e) c

/-- Passing over the empty chains (src/core/sis_dict.c:335-338): `v` is `empty_visits`; the place reached, what is left of
`empty_visits`, and whether the function returns here. -/
def skip (t : List (List (K × V))) : Nat → Nat → Option (Nat × Nat × Bool)
  | 0, _ => none
  | v + 1, r =>
    match t[r]? with
    | none => none
    | some [] => if v = 0 then some (r + 1, 0, true) else skip t v (r + 1)
    | some _ => some (r, v + 1, false)

/-- The main loop of `sis_dict_rehash` (src/core/sis_dict.c:329-355): `true` when the function returned inside it. -/
def rehashLoop (ty : Ty K) : Nat → Nat → Nat → Dict K V → Option (Dict K V × Bool)
  | 0, _, _, d => some (d, false)
  | n + 1, v, r, d =>
    if d.h0.used = 0 then some (d, false)
    else do
      let (r', v', stop) ← skip d.h0.table v r
      if stop then some ({ d with ridx := some r' }, true)
      else do
        let c ← d.h0.table[r']?
        let t ← moveChain ty d.h1 c
        rehashLoop ty n v' (r' + 1) { d with h0 := ⟨d.h0.table.set r' [], d.h0.used - c.length⟩, h1 := t, ridx := some (r' + 1) }

/-- `sis_dict_rehash` (src/core/sis_dict.c:325-368). -/
def rehash (ty : Ty K) (d : Dict K V) (n : Nat) : Option (Dict K V) :=
  match d.ridx with
  | none => some d
  | some r => do
    let (d, stop) ← rehashLoop ty n (n * 10) r d
    if stop then some d
    else if d.h0.used = 0 then some { d with h0 := d.h1, h1 := HT.reset, ridx := none }
    else some d

/-- `_dict_rehash_step` (src/core/sis_dict.c:378-380), as it is called everywhere: only while rehashing. -/
def rehashStep (ty : Ty K) (d : Dict K V) : Option (Dict K V) := if d.iters = 0 then rehash ty d 1 else some d

/-- The chain a key belongs to in a table; `none`: outside the table (src/core/sis_dict.c:1143-1145). -/
def chain (ty : Ty K) (t : HT K V) (k : K) : Option (List (K × V)) := t.table[t.slot ty k]?

/-- The walk along a chain (for instance src/core/sis_dict.c:627-632). -/
def inChain (ty : Ty K) (k : K) (c : List (K × V)) : Option (K × V) := c.find? fun e => ty.same k e.1

/-- `sis_dict_find` (src/core/sis_dict.c:617-636): the dictionary after the rehashing step and the entry found. -/
def find (ty : Ty K) (d : Dict K V) (k : K) : Option (Dict K V × Option (K × V)) :=
  if d.h0.used + d.h1.used = 0 then some (d, none)
  else do
    let d ← rehashStep ty d
    match inChain ty k (← chain ty d.h0 k) with
    | some e => some (d, some e)
    | none =>
      if d.ridx.isNone then some (d, none)
      else some (d, inChain ty k (← chain ty d.h1 k))

/-- `_dict_expand_if_needed` (src/core/sis_dict.c:1092-1111); resizing is always enabled (nothing calls
`sis_dict_disable_resize`). -/
def expandIfNeeded (d : Dict K V) : Dict K V × Bool :=
  if d.ridx.isSome then (d, true)
  else if d.h0.table.length = 0 then expand d 4
  else if d.h0.used ≥ d.h0.table.length then expand d (d.h0.used * 2)
  else (d, true)

/-- Where `_dict_key_index` found the key (src/core/sis_dict.c:1133-1156). -/
inductive Where
  | failed
  | inH0
  | inH1
  | absent

/-- `_dict_key_index` (src/core/sis_dict.c:1133-1156). -/
def keyIndex (ty : Ty K) (d : Dict K V) (k : K) : Option (Dict K V × Where) :=
  let (d, ok) := expandIfNeeded d
  if !ok then some (d, .failed)
  else do
    match inChain ty k (← chain ty d.h0 k) with
    | some _ => some (d, .inH0)
    | none =>
      if d.ridx.isNone then some (d, .absent)
      else match inChain ty k (← chain ty d.h1 k) with
        | some _ => some (d, .inH1)
        | none => some (d, .absent)

/-- Putting a new entry in front of its chain (src/core/sis_dict.c:427-435). -/
def pushEntry (ty : Ty K) (t : HT K V) (k : K) (v : V) : Option (HT K V) := moveEntry ty t (k, v)

/-- Overwriting the value of the first entry of a chain that has the key; the old value (src/core/sis_dict.c:443-464). -/
def setInChain (ty : Ty K) (k : K) (v : V) : List (K × V) → List (K × V) × Option V
  | [] => ([], none)
  | e :: c =>
    if ty.same k e.1 then ((e.1, v) :: c, some e.2)
    else
      let (c, o) := setInChain ty k v c
      (e :: c, o)

/-- Overwriting the value of an entry of a table (src/core/sis_dict.c:443-464). -/
def setIn (ty : Ty K) (t : HT K V) (k : K) (v : V) : Option (HT K V × Option V) := do
  let c ← chain ty t k
  let (c, o) := setInChain ty k v c
  some (⟨t.table.set (t.slot ty k) c, t.used⟩, o)

/-- `sis_dict_replace` (src/core/sis_dict.c:443-464) with `sis_dict_add_raw` (src/core/sis_dict.c:410-436), and
`sis_dict_set_int` (src/core/sis_dict.c:465-476): whether the key is new, and the value replaced.  `none`: the entry pointer of a
failed expansion is used. -/
def set (ty : Ty K) (d : Dict K V) (k : K) (v : V) : Option (Dict K V × Bool × Option V) := do
  let d ← rehashStep ty d
  let (d, w) ← keyIndex ty d k
  match w with
  | .failed => none
  | .inH0 =>
    let (t, o) ← setIn ty d.h0 k v
    some ({ d with h0 := t }, false, o)
  | .inH1 =>
    let (t, o) ← setIn ty d.h1 k v
    some ({ d with h1 := t }, false, o)
  | .absent =>
    if d.ridx.isSome then do
      let t ← pushEntry ty d.h1 k v
      some ({ d with h1 := t }, true, none)
    else do
      let t ← pushEntry ty d.h0 k v
      some ({ d with h0 := t }, true, none)

/-- Unlinking the first entry of a chain that has the key; its value (src/core/sis_dict.c:515-538). -/
def delInChain (ty : Ty K) (k : K) : List (K × V) → List (K × V) × Option V
  | [] => ([], none)
  | e :: c =>
    if ty.same k e.1 then (c, some e.2)
    else
      let (c, o) := delInChain ty k c
      (e :: c, o)

/-- One pass of the loop of `_dict_generic_delete` over the tables (src/core/sis_dict.c:515-538). -/
def delIn (ty : Ty K) (t : HT K V) (k : K) : Option (HT K V × Option V) := do
  let c ← chain ty t k
  match delInChain ty k c with
  | (c, some v) => some (⟨t.table.set (t.slot ty k) c, t.used - 1⟩, some v)
  | (_, none) => some (t, none)

/-- `sis_dict_delete` (src/core/sis_dict.c:544-546) with `_dict_generic_delete` (src/core/sis_dict.c:505-540); the value of
the entry deleted. -/
def delete (ty : Ty K) (d : Dict K V) (k : K) : Option (Dict K V × Option V) :=
  if d.h0.used = 0 ∧ d.h1.used = 0 then some (d, none)
  else do
    let d ← rehashStep ty d
    let (t, o) ← delIn ty d.h0 k
    if o.isSome then some ({ d with h0 := t }, o)
    else if d.ridx.isNone then some (d, none)
    else do
      let (t, o) ← delIn ty d.h1 k
      some ({ d with h1 := t }, o)

/-- The loop of `_dict_clear` (src/core/sis_dict.c:587-601): it stops when the number of entries is used up; the values
freed. -/
def clearLoop : List (List (K × V)) → Nat → List V
  | [], _ => []
  | c :: t, used => if used > 0 then c.map (·.2) ++ clearLoop t (used - c.length) else []

/-- `sis_dict_empty` (src/core/sis_dict.c:1158-1163); the values freed. -/
def empty (d : Dict K V) : Dict K V × List V := (create, clearLoop d.h0.table d.h0.used ++ clearLoop d.h1.table d.h1.used)

/-- `sis_dict_getsize` (src/core/sis_dict.h:131). -/
def size (d : Dict K V) : Nat := d.h0.used + d.h1.used

/-- `s_sis_dict_iter` (src/core/sis_dict.h:58-65): `second` is `table`, `index` is `none` for -1, `cur` tells whether `entry` is
set, and `nxt` is the entry `nextEntry` points at, known by its key.  All iterators in use are made by `sis_dict_get_iter`, so
`safe` is 1. -/
structure Iter (K : Type) where
  second : Bool
  index : Option Nat
  cur : Bool
  nxt : Option K

/-- `sis_dict_get_iter` (src/core/sis_dict.c:683-701). -/
def getIter : Iter K := ⟨false, none, false, none⟩

/-- The part of a chain that starts at the entry with the given key (src/core/sis_dict.c:703-736). -/
def suffixIn (ty : Ty K) (k : K) (c : List (K × V)) : List (K × V) := c.dropWhile fun e => !ty.same k e.1

/-- What `nextEntry` points at: the entry with this key and the ones behind it in its chain; `none` when the entry is gone, the
pointer then dangles (src/core/sis_dict.c:703-736). -/
def follow (ty : Ty K) (d : Dict K V) (k : K) : Option (List (K × V)) :=
  ((d.h0.table ++ d.h1.table).map (suffixIn ty k)).find? fun s => s ≠ []

/-- The first call counts the iterator (src/core/sis_dict.c:708-713). -/
def countIter (d : Dict K V) (it : Iter K) : Dict K V :=
  if it.index.isNone ∧ it.second = false then { d with iters := (d.iters + 1) % 2 ^ 64 } else d

/-- `iter->index++` (src/core/sis_dict.c:714). -/
def Iter.advance (it : Iter K) : Nat :=
  match it.index with
  | none => 0
  | some i => i + 1

/-- `sis_dict_next` (src/core/sis_dict.c:703-736), `n` bounding the passes of its loop; the entry returned, if any. -/
def nextN (ty : Ty K) : Nat → Dict K V → Iter K → Option (Dict K V × Iter K × Option (K × V))
  | 0, _, _ => none
  | n + 1, d, it =>
    if it.cur then
      match it.nxt with
      | none => nextN ty n d { it with cur := false }
      | some k =>
        match follow ty d k with
        | some (e :: s) => some (d, { it with nxt := s.head?.map (·.1) }, some e)
        | _ => none
    else
      let d := countIter d it
      let i := it.advance
      let t := if it.second then d.h1 else d.h0
      if i ≥ t.table.length ∧ ¬(d.ridx.isSome ∧ it.second = false) then
        some (d, { it with index := some i }, none)
      else
        let second := if i ≥ t.table.length then true else it.second
        let j := if i ≥ t.table.length then 0 else i
        let t := if i ≥ t.table.length then d.h1 else t
        match t.table[j]? with
        | none => none
        | some [] => nextN ty n d { it with index := some j, second := second }
        | some (e :: s) => some (d, ⟨second, some j, true, s.head?.map (·.1)⟩, some e)

/-- `sis_dict_next` (src/core/sis_dict.c:703-736): each pass goes to the next chain, or leaves one. -/
def next (ty : Ty K) (d : Dict K V) (it : Iter K) : Option (Dict K V × Iter K × Option (K × V)) :=
  nextN ty (d.h0.table.length + d.h1.table.length + 3) d it

/-- `sis_dict_iter_free` (src/core/sis_dict.c:738-747). -/
def iterFree (d : Dict K V) (it : Iter K) : Dict K V :=
  if it.index.isNone ∧ it.second = false then d else { d with iters := (d.iters + (2 ^ 64 - 1)) % 2 ^ 64 }

end Sis.Dict
