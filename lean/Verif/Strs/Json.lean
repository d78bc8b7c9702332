import Verif.Strs.Num
/-
Model of the JSON reader and writer (src/core/sis_json.{h,c}), used for configuration files, for text messages on the
network and for the arguments of most commands.

A `char *` into the text is the list of the bytes from it up to the terminating zero; the null pointer is `none`.
Memory allocation always succeeds.  The reader is recursive in C, with the stack as its only limit; the stack is not
modelled.
-/
namespace Sis.Json
open Sis Num

/-- The `type` of a node (src/core/sis_json.h:9-16); `SIS_JSON_ROOT` is never assigned by the code. -/
inductive Ty where
  | null | int | bool | double | string | array | object
deriving DecidableEq, Repr

/-- `s_sis_json_node` (src/core/sis_json.h:18-26): the `next` chain of the children is a list; `prev` and `father`
follow from it. -/
inductive Node where
  | mk (ty : Ty) (key : Option Bytes) (value : Option Bytes) (child : List Node)
deriving Repr

/-- Its type (src/core/sis_json.h:18-26). -/
def Node.ty : Node → Ty | .mk t _ _ _ => t
/-- Its name (src/core/sis_json.h:18-26). -/
def Node.key : Node → Option Bytes | .mk _ k _ _ => k
/-- Its text (src/core/sis_json.h:18-26). -/
def Node.value : Node → Option Bytes | .mk _ _ v _ => v
/-- Its children (src/core/sis_json.h:18-26). -/
def Node.child : Node → List Node | .mk _ _ _ c => c

mutual
/-- Equality of documents, for concrete checks (of nodes, src/core/sis_json.h:18-26). -/
def Node.beq : Node → Node → Bool
  | .mk t k v c, .mk t' k' v' c' => t == t' && k == k' && v == v' && Node.beqList c c'
/-- Equality of lists of documents, for concrete checks (of nodes, src/core/sis_json.h:18-26). -/
def Node.beqList : List Node → List Node → Bool
  | [], [] => true
  | a :: as, b :: bs => Node.beq a b && Node.beqList as bs
  | _, _ => false
end

instance : BEq Node := ⟨Node.beq⟩

/-- `sis_json_create_node` (src/core/sis_json.c:951-957). -/
def newNode : Node := .mk .null none none []

/-! ### Reading -/

/-- `skip` (src/core/sis_json.c:11-18). -/
def skip (s : Bytes) : Bytes := s.dropWhile (· ≤ 0x20)

/-- `skip` on a pointer that may be null (src/core/sis_json.c:11-18). -/
def skipP (s : Option Bytes) : Option Bytes := s.map skip

/-- `sis_strdup(p, len)` (src/core/sis_str.c:111-126): a length of zero stands for the whole string. -/
def strdup (p : Bytes) (len : Nat) : Bytes := if len = 0 then p else p.take len

/-- The loop of `_sis_parse_string` looking for the closing quote (src/core/sis_json.c:158-171).  `ago` is the byte
before the pointer.  The result is the length and the text from the closing quote on. -/
def scanStr (ago : UInt8) : Bytes → Option (Nat × Bytes)
  | [] => none
  | c :: r => if c ≠ 34 ∨ ago = 92 then (scanStr c r).map fun (n, t) => (n + 1, t) else some (0, c :: r)

/-- `_sis_replace_string` (src/core/sis_json.c:128-149): every `\"` becomes `"`. -/
def replaceStr : Bytes → Bytes
  | [] => []
  | [c] => [c]
  | c :: d :: r => if c = 92 ∧ d = 34 then 34 :: replaceStr r else c :: replaceStr (d :: r)

/-- The characters of a number, `strchr("-.0123456789e", c) && c` (src/core/sis_json.c:243). -/
def numCh (c : UInt8) : Bool := c == 45 || c == 46 || isDigit c || c == 101

/-- `isfloat` of `_sis_parse_number` (src/core/sis_json.c:242-251): a point followed by a digit. -/
def isFloat : Bytes → Bool
  | c :: d :: r => (c == 46 && isDigit d) || isFloat (d :: r)
  | _ => false

/-- `_sis_parse_number` (src/core/sis_json.c:236-264). -/
def parseNumber (n : Node) (s : Bytes) : Option Bytes × Node :=
  let t := s.takeWhile numCh
  (some (s.dropWhile numCh), .mk (if isFloat t then .double else .int) n.key (some (strdup s t.length)) n.child)

/-- The characters `_sis_parse_info` runs over (src/core/sis_json.c:228). -/
def infoCh (c : UInt8) : Bool := c != 44 && c != 32

/-- `_sis_parse_info` (src/core/sis_json.c:222-235). -/
def parseInfo (ty : Ty) (n : Node) (s : Bytes) : Option Bytes × Node :=
  let t := s.takeWhile infoCh
  (some (s.dropWhile infoCh), .mk ty n.key (some (strdup s t.length)) n.child)

/-- What a parsing function leaves: the pointer it returns, the node, and whether `handle->error` is set (not null) (src/core/sis_json.c:128-389). -/
structure Out where
  ptr : Option Bytes
  node : Node
  err : Bool

/-- Where a key ends: at a colon or a comma (src/core/sis_json.c:178-186). -/
def keyEnd (s : Bytes) : Bytes := s.dropWhile fun c => c != 58 && c != 44

/-- `_sis_parse_value` on something that is neither a string, an array nor an object
(src/core/sis_json.c:368-371 and 380-388). -/
def parseScalar (n : Node) (s : Bytes) (err : Bool) : Out :=
  if (at0 s == 45 || isDigit (at0 s)) && s != [] then let r := parseNumber n s; ⟨r.1, r.2, err⟩
  else if ncaseEq 5 1 s [102, 97, 108, 115, 101] || ncaseEq 4 1 s [116, 114, 117, 101] then
    let r := parseInfo .bool n s; ⟨r.1, r.2, err⟩
  else if ncaseEq 3 1 s [78, 97, 78] then let r := parseInfo .double n s; ⟨r.1, r.2, err⟩
  else ⟨none, n, err⟩

mutual
/-- `_sis_parse_value` (src/core/sis_json.c:356-389) with `_sis_parse_string` (src/core/sis_json.c:151-207),
`_sis_parse_array` (src/core/sis_json.c:267-312) and `_sis_parse_object` (src/core/sis_json.c:314-355) up to their
loops.  The first argument bounds the recursion; `none` is the bound reached, which `load_total` excludes. -/
def parseValue : Nat → Node → Bytes → Bool → Option Out
  | 0, _, _, _ => none
  | fuel + 1, n, s, err =>
    match s with
    | 34 :: t =>
      match scanStr 34 t with
      | none => some ⟨none, n, true⟩
      | some (len, q) =>
        let out := strdup t len
        match n.key with
        | none =>
          let n1 := Node.mk n.ty (some out) n.value n.child
          match keyEnd q.tail with
          | [] => some ⟨none, n1, true⟩
          | 58 :: r => (parseValue fuel n1 (skip r) err).map fun o => ⟨skipP o.ptr, o.node, o.err⟩
          | r => some ⟨some r, .mk .null (some out) none n.child, err⟩
        | some k => some ⟨some q.tail, .mk .string (some k) (some (replaceStr (out.take len))) n.child, err⟩
    | 91 :: t =>
      let v := skip t
      if at0 v = 93 then some ⟨some v.tail, .mk .array n.key n.value n.child, err⟩
      else (arrayLoop fuel 0 [] newNode v err).map fun (p, c, e) => ⟨p, .mk .array n.key n.value c, e⟩
    | 123 :: t =>
      let v := skip t
      if at0 v = 125 then some ⟨some v.tail, .mk .object n.key n.value n.child, err⟩
      else (objectLoop fuel [] newNode v err).map fun (p, c, e) => ⟨p, .mk .object n.key n.value c, e⟩
    | s => some (parseScalar n s err)

/-- The loop of `_sis_parse_array` (src/core/sis_json.c:286-311): `done` are the children before the current one.
The result is the returned pointer, all children, and the error flag. -/
def arrayLoop : Nat → Nat → List Node → Node → Bytes → Bool → Option (Option Bytes × List Node × Bool)
  | 0, _, _, _, _, _ => none
  | fuel + 1, idx, done, cur, s, err =>
    if s = [] then some (none, done ++ [cur], err)
    else
      match parseValue fuel (.mk cur.ty (some (llutoa idx 32)) cur.value cur.child) (skip s) err with
      | none => none
      | some o =>
        match skipP o.ptr with
        | none => some (none, done ++ [o.node], false)
        | some [] => some (none, done ++ [o.node], true)
        | some (93 :: r) => some (some r, done ++ [o.node], o.err)
        | some (44 :: r) => arrayLoop fuel (idx + 1) (done ++ [o.node]) newNode r o.err
        | some r => arrayLoop fuel (idx + 1) done o.node r o.err

/-- The loop of `_sis_parse_object` (src/core/sis_json.c:332-354). -/
def objectLoop : Nat → List Node → Node → Bytes → Bool → Option (Option Bytes × List Node × Bool)
  | 0, _, _, _, _ => none
  | fuel + 1, done, cur, s, err =>
    if s = [] then some (none, done ++ [cur], err)
    else
      match parseValue fuel cur (skip s) err with
      | none => none
      | some o =>
        match skipP o.ptr with
        | none => some (none, done ++ [o.node], false)
        | some [] => some (none, done ++ [o.node], true)
        | some (125 :: r) => some (some r, done ++ [o.node], o.err)
        | some (44 :: r) => objectLoop fuel (done ++ [o.node]) newNode r o.err
        | some r => objectLoop fuel done o.node r o.err
end

/-- The text as a C string: up to the first zero (src/core/sis_json.c:465-492). -/
def cstrOf (s : Bytes) : Bytes := s.takeWhile (· != 0)

/-- Enough for every text (`load_total`) (recursion of src/core/sis_json.c:356-389). -/
def fuelFor (s : Bytes) : Nat := 2 * s.length + 3

/-- `_sis_json_parse` (src/core/sis_json.c:391-406) on a C string; outer `none`: recursion bound reached (never),
inner `none`: the text is refused. -/
def parse (s : Bytes) : Option (Option Node) :=
  (parseValue (fuelFor s) newNode (skip s) false).map fun o => if o.err then none else some o.node

/-- `sis_json_load` (src/core/sis_json.c:465-492). -/
def load (content : Bytes) : Option (Option Node) :=
  if content.length = 0 then some none else parse (cstrOf content)

/-! ### Writing -/

/-- The two lower hexadecimal digits written by `sprintf(ptr2, "u%04x", token)` (src/core/sis_json.c:1094). -/
def hexDigit (n : Nat) : UInt8 := if n < 10 then UInt8.ofNat (48 + n) else UInt8.ofNat (87 + n)

/-- One character of `_sis_json_to_string` (src/core/sis_json.c:1060-1098). -/
def escCh (c : UInt8) : Bytes :=
  if c ≥ 0x20 ∧ c ≠ 34 ∧ c ≠ 92 then [c]
  else if c = 92 then [92, 92]
  else if c = 34 then [92, 34]
  else if c = 8 then [92, 98]
  else if c = 12 then [92, 102]
  else if c = 10 then [92, 110]
  else if c = 13 then [92, 114]
  else if c = 9 then [92, 116]
  else [92, 117, 48, 48, hexDigit (c.toNat / 16), hexDigit (c.toNat % 16)]

/-- `_sis_json_to_string` (src/core/sis_json.c:1026-1103) on a C string; the null pointer gives the empty text,
without quotes. -/
def toStr : Option Bytes → Bytes
  | none => []
  | some v => 34 :: (v.flatMap escCh ++ [34])

/-- What `_sis_json_to_string` allocates for a C string (src/core/sis_json.c:1037-1051). -/
def strAlloc (v : Bytes) : Nat :=
  (v.map fun c => if c = 34 ∨ c = 92 ∨ c = 8 ∨ c = 12 ∨ c = 10 ∨ c = 13 ∨ c = 9 then 2 else if c < 0x20 then 6 else 1).sum + 3

/-- `depth` tabs (src/core/sis_json.c:1193-1219). -/
def tabs (depth : Nat) : Bytes := List.replicate depth 9

/-- One element of `_sis_json_to_array` as it is copied to the output (src/core/sis_json.c:1193-1219).  `nest`: the
first child is itself an array; `last`: no comma after it. -/
def arrItem (fmt nest last : Bool) (depth : Nat) (e : Bytes) : Bytes :=
  (if fmt && nest then tabs depth else []) ++ e ++ (if last then [] else 44 :: (if fmt then [32] else []))
    ++ (if fmt && nest then [10] else [])

/-- All elements (same lines). -/
def arrBody (fmt nest : Bool) (depth : Nat) : List Bytes → Bytes
  | [] => []
  | [e] => arrItem fmt nest true depth e
  | e :: es => arrItem fmt nest false depth e ++ arrBody fmt nest depth es

/-- The text of `_sis_json_to_array` (src/core/sis_json.c:1186-1230) for the texts of at least one child, `depth`
already incremented. -/
def arrText (fmt nest : Bool) (depth : Nat) (es : List Bytes) : Bytes :=
  91 :: ((if fmt && nest then [10] else []) ++ arrBody fmt nest depth es
    ++ (if fmt && nest then tabs (depth - 1) else []) ++ [93])

/-- One member of `_sis_json_to_object` (src/core/sis_json.c:1344-1378): name and text of the value, if there is one. -/
def objItem (fmt last : Bool) (depth : Nat) (e : Bytes × Option Bytes) : Bytes :=
  (if fmt then tabs depth else []) ++ e.1
    ++ (match e.2 with | none => [] | some t => 58 :: ((if fmt then [9] else []) ++ t))
    ++ (if last then [] else [44]) ++ (if fmt then [10] else [])

/-- All members (same lines). -/
def objBody (fmt : Bool) (depth : Nat) : List (Bytes × Option Bytes) → Bytes
  | [] => []
  | [e] => objItem fmt true depth e
  | e :: es => objItem fmt false depth e ++ objBody fmt depth es

/-- The text of `_sis_json_to_object` (src/core/sis_json.c:1338-1392) for at least one member, `depth` already
incremented. -/
def objText (fmt : Bool) (depth : Nat) (es : List (Bytes × Option Bytes)) : Bytes :=
  123 :: ((if fmt then [10] else []) ++ objBody fmt depth es ++ (if fmt then tabs (depth - 1) else []) ++ [125])

/-- `node_->child->type==SIS_JSON_ARRAY` (src/core/sis_json.c:1190). -/
def nested : List Node → Bool
  | c :: _ => c.ty == .array
  | [] => false

/-- `mapM` on options, structurally: the texts of all elements, or nothing if one has none
(`fail` of src/core/sis_json.c:1146-1184). -/
def allSome : List (Option Bytes) → Option (List Bytes)
  | [] => some []
  | none :: _ => none
  | some a :: r => (allSome r).map (a :: ·)

mutual
/-- `_sis_json_to_value` (src/core/sis_json.c:1395-1426) with `_sis_json_to_array` (1105-1231) and
`_sis_json_to_object` (1233-1393); `none` is the null pointer.  `sis_strdup` of an empty or missing number text
gives that text (src/core/sis_json.c:1011-1018); a missing one is the null pointer. -/
def toValue (fmt : Bool) (depth : Nat) : Node → Option Bytes
  | .mk ty _ value child =>
    match ty with
    | .null => none
    | .int => value
    | .bool => value
    | .double => value
    | .string => some (toStr value)
    | .array =>
      if child.isEmpty then some [91, 93]
      else (allSome (toValues fmt (depth + 1) child)).map
        (arrText fmt (nested child) (depth + 1))
    | .object =>
      if child.isEmpty then some [123, 125]
      else some (objText fmt (depth + 1) (toMembers fmt (depth + 1) child))
/-- The texts of all elements (src/core/sis_json.c:1146-1159). -/
def toValues (fmt : Bool) (depth : Nat) : List Node → List (Option Bytes)
  | [] => []
  | c :: cs => toValue fmt depth c :: toValues fmt depth cs
/-- The names and texts of all members (src/core/sis_json.c:1277-1307). -/
def toMembers (fmt : Bool) (depth : Nat) : List Node → List (Bytes × Option Bytes)
  | [] => []
  | .mk ty key value child :: cs =>
    (toStr key, toValue fmt depth (.mk ty key value child)) :: toMembers fmt depth cs
end

/-- `sis_json_output` (src/core/sis_json.c:1432-1442). -/
def output (n : Node) : Option Bytes := toValue true 0 n

/-- `sis_json_output_zip` (src/core/sis_json.c:1443-1451). -/
def outputZip (n : Node) : Option Bytes := toValue false 0 n

/-- What `sis_json_save` (src/core/sis_json.c:494-511) puts into the file: the formatted text and a carriage return
(`buffer[len]` is the terminating zero, so it is never one already). -/
def saveFile (n : Node) : Option Bytes := (output n).map (· ++ [13])

/-- What `_sis_json_to_array` allocates (src/core/sis_json.c:1109 and 1141-1165), `depth` already incremented. -/
def arrAlloc (fmt : Bool) (depth : Nat) (es : List Bytes) : Nat :=
  5 + (if fmt then depth else 0) + (es.map fun e => e.length + 2 + (if fmt then 2 + depth else 0)).sum

/-- What `_sis_json_to_object` allocates (src/core/sis_json.c:1237 and 1278-1313), `depth` already incremented. -/
def objAlloc (fmt : Bool) (depth : Nat) (es : List (Bytes × Option Bytes)) : Nat :=
  7 + (if fmt then depth else 0) +
    (es.map fun e => e.1.length + 1 + (match e.2 with | none => 0 | some t => t.length + 1) + (if fmt then 2 + depth else 0)).sum

/-! ### Members -/

/-- `sis_json_cmp_child_node` (src/core/sis_json.c:1587-1599): the place of the first child whose key is the given one
without regard to case. -/
def cmpChild (cs : List Node) (key : Bytes) : Option Nat :=
  cs.findIdx? fun c => match c.key with | none => false | some k => caseEq k key

/-- `sis_strncpy(key, 128, path, len)` (src/os/linux/os_str.h:43-58). -/
def pathKey (path : Bytes) (len : Nat) : Bytes := path.take (min len 127)

/-- `sis_json_find_node` (src/core/sis_json.c:1600-1618) with `sis_str_split` (src/core/sis_str.c:140-150); the fuel is
the length of the path, which shrinks with every step. -/
def findNode : Nat → Node → Bytes → Option Node
  | 0, _, _ => none
  | fuel + 1, n, path =>
    let head := path.takeWhile (· != 46)
    match path.dropWhile (· != 46) with
    | _ :: r =>
      if head.length ≠ 0 then
        match (cmpChild n.child (pathKey path head.length)).bind (n.child[·]?) with
        | none => none
        | some c => findNode fuel c r
      else (cmpChild n.child path).bind (n.child[·]?)
    | [] => (cmpChild n.child path).bind (n.child[·]?)

/-- `sis_json_get_int` (src/core/sis_json.c:1477-1485). -/
def getInt (n : Node) (path : Bytes) (dflt : Int) : Int :=
  match (findNode (path.length + 1) n path).bind Node.value with
  | some v => atoll v
  | none => dflt

/-- `sis_json_get_str` (src/core/sis_json.c:1504-1512). -/
def getStr (n : Node) (path : Bytes) : Option Bytes := (findNode (path.length + 1) n path).bind Node.value

/-- Replace the value, or append a child: the common shape of `sis_json_object_set_int`
(src/core/sis_json.c:703-717, 690-702) and `sis_json_object_set_string` (src/core/sis_json.c:813-826, 800-812).  The
type of a child that is already there stays what it was. -/
def setMember (n : Node) (key : Bytes) (ty : Ty) (v : Option Bytes) : Node :=
  match cmpChild n.child key with
  | none => .mk n.ty n.key n.value (n.child ++ [.mk ty (some key) v []])
  | some i => .mk n.ty n.key n.value (n.child.modify i fun c => .mk c.ty c.key v c.child)

/-- `sis_json_object_set_int` (src/core/sis_json.c:703-717); `none`: undefined behaviour (`lldtoa`). -/
def setInt (n : Node) (key : Bytes) (v : Int) : Option Node :=
  (lldtoa v 32).map fun t => setMember n key .int (some t)

/-- `sis_json_object_set_string` (src/core/sis_json.c:813-826) with a value that is not NULL; a length of zero stands
for the whole string. -/
def setString (n : Node) (key : Bytes) (v : Bytes) (len : Nat) : Node :=
  setMember n key .string (some (cstrOf (strdup v len)))

mutual
/-- `sis_json_object_merge` (src/core/sis_json.c:568-595): what the children of `src` become. -/
def merge : Node → List Node → List Node
  | .mk _ _ _ son, src => mergeList son src
/-- The loop over the children of the second document (same lines). -/
def mergeList : List Node → List Node → List Node
  | [], src => src
  | .mk t k v c :: cs, src =>
    mergeList cs
      (match k.bind (cmpChild src) with
      | none => src ++ [.mk t k v c]
      | some i =>
        if t = .object then src.modify i fun x => .mk x.ty x.key x.value (merge (.mk t k v c) x.child)
        else src.eraseIdx i ++ [.mk t k v c])
end

end Sis.Json
