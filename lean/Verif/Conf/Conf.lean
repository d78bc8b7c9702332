import Verif.Strs.Json
/-
Model of the reader of configuration files (src/core/sis_conf.{h,c}): the file a server is started with, the files it includes, the
definitions of tables and workers given as text, and the scripts that are run when a server is started for the first time.

Texts are as in the model of JSON, without zero bytes.  What is counted for messages of errors only (`err_lines`, `err_msg`) is left
out, and so is memory that is never given back: the value of a node that is read twice, and nodes that are lost.
-/
namespace Sis.Conf
open Sis Num
open Sis.Json (Node Ty newNode skipP isFloat Out)

/-- `_sis_conf_skip` (src/core/sis_conf.c:8-28): blanks and comments; `note` tells that a comment has begun, in place of the
recursion. -/
def skipTo : Bool → Bytes → Bytes
  | _, [] => []
  | true, c :: s => if c = 10 ∨ c = 13 then skipTo false s else skipTo true s
  | false, c :: s => if c ≤ 0x20 then skipTo false s else if c = 35 then skipTo true s else c :: s

/-- `_sis_conf_skip` (src/core/sis_conf.c:8-28). -/
def skip (s : Bytes) : Bytes := skipTo false s

/-- What a text without quotes goes on with: no blank, no comment (src/core/sis_conf.c:42-71). -/
def wordCh (c : UInt8) : Bool := !(decide (c ≤ 0x20) || c == 35)

/-- Where a value ends besides: a comma or a bracket (src/core/sis_conf.c:54-68). -/
def sepCh (c : UInt8) : Bool := c == 44 || c == 93 || c == 125

/-- The result of a parsing function: where it stopped, the node, and `err_no` (src/core/sis_conf.c:30-384). -/
structure Res where
  ptr : Option Bytes
  node : Node
  err : Nat

/-- `_sis_parse_string` (src/core/sis_conf.c:34-84). -/
def parseString (n : Node) (s : Bytes) (err : Nat) : Res :=
  let t := if at0 s = 34 then s.tail.takeWhile fun c => wordCh c && c != 34 else s.takeWhile fun c => wordCh c && !sepCh c
  let r := if at0 s = 34 then (s.tail.dropWhile fun c => wordCh c && c != 34) else s.dropWhile fun c => wordCh c && !sepCh c
  let r := if at0 s = 34 then ((if at0 r = 34 then r.tail else r).dropWhile fun c => wordCh c && !sepCh c) else r
  if t = [] then ⟨none, n, 5⟩ else ⟨some r, .mk .string n.key (some t) n.child, err⟩

/-- The characters of a number (src/core/sis_conf.c:93). -/
def numCh (c : UInt8) : Bool := c == 45 || c == 46 || isDigit c

/-- `_sis_parse_number` (src/core/sis_conf.c:86-114). -/
def parseNumber (n : Node) (s : Bytes) (err : Nat) : Res :=
  ⟨some (s.dropWhile numCh), .mk (if isFloat (s.takeWhile numCh) then .double else .int) n.key (some (s.takeWhile numCh)) n.child, err⟩

/-- `_sis_parse_key` (src/core/sis_conf.c:341-384): the pointer, the key, and `err_no`.  At the end of the text the pointer is moved
behind the terminating zero.  `slack` tells that there is another zero, as behind a file (src/core/sis_file.c:31); without it
what is read next is not part of the text: `none`. -/
def parseKey (slack : Bool) (s : Bytes) (err : Nat) : Option (Option Bytes × Option Bytes × Nat) :=
  let k := s.takeWhile fun c => decide (0x20 < c) && c != 58
  if k = [] then some (none, none, 1)
  else
    match (s.dropWhile fun c => decide (0x20 < c) && c != 58).dropWhile fun c => decide (0x20 ≤ c) && c != 58 with
    | [] => if slack then some (some [], some k, err) else none
    | 58 :: r => some (some r, some k, err)
    | _ => some (none, some k, 2)

/-- A text that begins with `include`: `sis_strcase_match` (src/core/sis_str.c:18-40). -/
def isInclude (s : Bytes) : Bool := (s.take 7).map lower == [105, 110, 99, 108, 117, 100, 101]

/-- A node with a key, if there is one (src/core/sis_conf.c:361). -/
def setKey (n : Node) (k : Option Bytes) : Node := .mk n.ty (k.or n.key) n.value n.child

/-- A key and its value, read with `value` (src/core/sis_conf.c:204-205): where it stopped, the node, and `err_no`. -/
def member (slack : Bool) (value : Node → Bytes → Nat → Option Res) (n : Node) (s : Bytes) (err : Nat) : Option (Option Bytes × List Node × Nat) :=
  (parseKey slack s err).bind fun p =>
    match p.1.map skip with
    | none => some (none, [setKey n p.2.1], p.2.2)
    | some v => (value (setKey n p.2.1) v p.2.2).map fun o => (o.ptr, [o.node], o.err)

/-- The files, and the directory of the first one (`path` of `s_sis_conf_handle`, src/core/sis_conf.h:17-24). -/
structure Env where
  files : Bytes → Option Bytes
  path : Bytes

/-- `sis_file_read_to_sds` (src/core/sis_file.c:16-35): an empty file is none. -/
def fileText (v : Env) (fn : Bytes) : Option Bytes := (v.files fn).bind fun b => if b = [] then none else some b

mutual
/-- `_sis_parse_value` (src/core/sis_conf.c:239-264) with `_sis_parse_array` (src/core/sis_conf.c:116-179) and `_sis_parse_object`
(src/core/sis_conf.c:180-238) up to their loops.  The first argument bounds the recursion, which has no end if a file includes
itself; `none`: the bound is reached, or something outside the text is read. -/
def parseValue (v : Env) (slack : Bool) : Nat → Node → Bytes → Nat → Option Res
  | 0, _, _, _ => none
  | fuel + 1, n, s, err =>
    if s ≠ [] ∧ (at0 s = 45 ∨ isDigit (at0 s) = true) then some (parseNumber n s err)
    else
      match s with
      | 91 :: t =>
        if n.key = none then some ⟨none, n, 1⟩
        else if at0 (skip t) = 93 then some ⟨some (skip t).tail, .mk .array n.key n.value n.child, err⟩
        else (arrayLoop v slack fuel 0 [] newNode (skip t) err).map fun p => ⟨p.1, .mk .array n.key n.value p.2.1, p.2.2⟩
      | 123 :: t =>
        if at0 (skip t) = 125 then some ⟨some (skip t).tail, .mk .object n.key n.value n.child, err⟩
        else (objectLoop v slack fuel [] newNode (skip t) err).map fun p => ⟨p.1, .mk .object n.key n.value p.2.1, p.2.2⟩
      | s => some (parseString n s err)
termination_by structural n => n

/-- The loop of `_sis_parse_array` (src/core/sis_conf.c:135-178): `done` are the children before the current one.  The result is the
returned pointer, all children, and `err_no`. -/
def arrayLoop (v : Env) (slack : Bool) : Nat → Nat → List Node → Node → Bytes → Nat → Option (Option Bytes × List Node × Nat)
  | 0, _, _, _, _, _ => none
  | fuel + 1, idx, done, cur, s, err =>
    if s = [] then some (none, done ++ [cur], err)
    else if isInclude (skip s) then some (none, done ++ [cur], 2)
    else
      match parseValue v slack fuel (setKey cur (some (llutoa idx 32))) (skip s) err with
      | none => none
      | some o =>
        match o.ptr.map skip with
        | none => some (none, done ++ [o.node], 2)
        | some [] => some (none, done ++ [o.node], 2)
        | some (93 :: r) => some (some r, done ++ [o.node], o.err)
        | some (44 :: r) => arrayLoop v slack fuel (idx + 1) (done ++ [o.node]) newNode r o.err
        | some r => arrayLoop v slack fuel (idx + 1) done o.node r o.err
termination_by structural n => n

/-- The loop of `_sis_parse_object` (src/core/sis_conf.c:192-237). -/
def objectLoop (v : Env) (slack : Bool) : Nat → List Node → Node → Bytes → Nat → Option (Option Bytes × List Node × Nat)
  | 0, _, _, _, _ => none
  | fuel + 1, done, cur, s, err =>
    if s = [] then some (none, done ++ [cur], err)
    else
      match (if isInclude (skip s) then parseInclude v fuel cur (skip s) err else member slack (parseValue v slack fuel) cur (skip s) err) with
      | none => none
      | some (p, ns, e) =>
        match p.map skip with
        | none => some (none, done ++ ns, 2)
        | some [] => some (none, done ++ ns, 2)
        | some (125 :: r) => some (some r, done ++ ns, e)
        | some (44 :: r) => objectLoop v slack fuel (done ++ ns) newNode r e
        | some r => objectLoop v slack fuel (done ++ ns.dropLast) (ns.getLast?.getD newNode) r e
termination_by structural n => n

/-- `_sis_parse_include` (src/core/sis_conf.c:266-339): where it stopped, the node it was given and those chained behind it, and
`err_no`. -/
def parseInclude (v : Env) : Nat → Node → Bytes → Nat → Option (Option Bytes × List Node × Nat)
  | 0, _, _, _ => none
  | fuel + 1, cur, s, err =>
    match fileText v ((v.path ++ (skip (s.drop 7)).takeWhile fun c => wordCh c && !sepCh c).take 1023) with
    | none => some (none, [cur], 10)
    | some b =>
      match includeLoop v fuel [] cur (skip b) err with
      | none => none
      | some (ns, e) =>
        if e ≠ 0 then some (none, ns, 11) else some (some ((skip (s.drop 7)).dropWhile fun c => wordCh c && !sepCh c), ns, e)
termination_by structural n => n

/-- The loop of `_sis_parse_include` (src/core/sis_conf.c:301-322).  Behind an include in an included file the next node is chained to
the first one of that file, so that its others are lost. -/
def includeLoop (v : Env) : Nat → List Node → Node → Bytes → Nat → Option (List Node × Nat)
  | 0, _, _, _, _ => none
  | fuel + 1, done, cur, s, err =>
    if s = [] then some (done ++ [cur], err)
    else
      match (if isInclude (skip s) then parseInclude v fuel cur (skip s) err else member true (parseValue v true fuel) cur (skip s) err) with
      | none => none
      | some (p, ns, e) =>
        match p.map skip with
        | none => some (done ++ ns, e)
        | some [] => some (done ++ ns, e)
        | some r => includeLoop v fuel (done ++ ns.take 1) newNode r e
termination_by structural n => n
end

/-- The loop of `_sis_conf_parse` (src/core/sis_conf.c:401-430): the children of the root, and `err_no`. -/
def topLoop (v : Env) : Nat → List Node → Bytes → Nat → Option (List Node × Nat)
  | 0, _, _, _ => none
  | fuel + 1, done, s, err =>
    if s = [] then some (done, err)
    else
      match (if isInclude (skip s) then parseInclude v fuel newNode (skip s) err else member true (parseValue v true fuel) newNode (skip s) err) with
      | none => none
      | some (p, ns, e) =>
        match p.map skip with
        | none => some (done ++ ns, e)
        | some r => topLoop v fuel (done ++ ns) r e

/-- `sis_conf_open` (src/core/sis_conf.c:443-478) with `_sis_conf_parse` (src/core/sis_conf.c:386-437): the children of the root;
inner `none`: the file is refused. -/
def openFile (v : Env) (fuel : Nat) (fn : Bytes) : Option (Option (List Node)) :=
  match fileText v fn with
  | none => some none
  | some b => (topLoop v fuel [] (skip b) 0).map fun p => if p.2 ≠ 0 then none else some p.1

/-- `sis_conf_load` (src/core/sis_conf.c:527-546): the node of the handle; errors are not looked at. -/
def load (v : Env) (fuel : Nat) (content : Bytes) : Option (Option Node) :=
  if at0 (skip content) = 123 then (parseValue v false fuel newNode (skip content) 0).map fun o => some o.node else some none

/-! ### Scripts -/

/-- `sis_conf_get_match_sign` (src/core/sis_conf.c:566-620): `note` and `sign` are its variables; how many bytes up to the bracket
that closes the first one, 0 if there is none. -/
def matchSign : Bool → Nat → Bytes → Nat
  | _, _, [] => 0
  | note, sign, c :: s =>
    let next (note : Bool) (sign : Nat) : Nat := if matchSign note sign s = 0 then 0 else matchSign note sign s + 1
    if note then next (!(c == 10 || c == 13)) sign
    else if c = 35 then next true sign
    else if c = 123 then next false (sign + 1)
    else if sign ≠ 0 ∧ c = 125 then if sign = 1 then 1 else next false (sign - 1)
    else next false sign

/-- The inner loop of `sis_conf_sub` (src/core/sis_conf.c:646-659) on what is in memory: the texts of which each is read and given
to the callback, and what is left.  The first argument bounds the loop; each time at least a byte is taken. -/
def takeAll : Nat → Bytes → List Bytes × Bytes
  | 0, m => ([], m)
  | fuel + 1, m =>
    if matchSign false 0 m = 0 then ([], m)
    else (m.take (matchSign false 0 m) :: (takeAll fuel (m.drop (matchSign false 0 m))).1, (takeAll fuel (m.drop (matchSign false 0 m))).2)

/-- `sis_conf_sub` (src/core/sis_conf.c:628-664) on a file that is read in these pieces, none of which is empty: the texts, in their
order.  The memory behind it is the queue of C03. -/
def texts : Bytes → List Bytes → List Bytes
  | _, [] => []
  | m, c :: cs => (takeAll (m ++ c).length (m ++ c)).1 ++ texts (takeAll (m ++ c).length (m ++ c)).2 cs

/-- The calls of the callback: the node of each text (src/core/sis_conf.c:650-656). -/
def sub (v : Env) (fuel : Nat) (chunks : List Bytes) : Option (List (Option Node)) := (texts [] chunks).mapM (load v fuel)

end Sis.Conf
