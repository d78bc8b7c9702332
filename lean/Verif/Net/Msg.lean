import Verif.Strs.JsonTheorems
import Verif.Memory.SsizeTheorems
/-
Model of the messages between clients and server: encoding and decoding (src/core/net/sis_net.node.c:883-1185) and the
copy that is made for broadcasting (src/core/net/sis_net.msg.c:248-289).

Modelled are the fields that travel.  Not modelled: client number, reference count, mode, the raw packet, the maps for
extensions (never sent).  A message is shorter than 2^31 bytes.
-/
namespace Sis.Msg
open Sis Num Json

/-- `s_sis_net_switch` (src/core/net/sis_net.msg.h:50-59). -/
structure Sw where
  sno : Bool := false
  service : Bool := false
  cmd : Bool := false
  subject : Bool := false
  tag : Bool := false
  info : Bool := false
  more : Bool := false
  mark : Bool := false
deriving DecidableEq, Repr

/-- The switches as they lie in memory: bit fields from the lowest bit on (src/core/net/sis_net.msg.h:50-59). -/
def Sw.toByte (s : Sw) : UInt8 :=
  UInt8.ofNat (s.sno.toNat + 2 * s.service.toNat + 4 * s.cmd.toNat + 8 * s.subject.toNat + 16 * s.tag.toNat
    + 32 * s.info.toNat + 64 * s.more.toNat + 128 * s.mark.toNat)

/-- A byte read as switches (same lines). -/
def Sw.ofByte (b : UInt8) : Sw :=
  ⟨b.toNat.testBit 0, b.toNat.testBit 1, b.toNat.testBit 2, b.toNat.testBit 3, b.toNat.testBit 4, b.toNat.testBit 5,
    b.toNat.testBit 6, b.toNat.testBit 7⟩

/-- `s_sis_net_message` (src/core/net/sis_net.msg.h:93-128), the fields that travel.  `bytes` is
`format == SIS_NET_FORMAT_BYTES`; null pointers are `none`. -/
structure Msg where
  name : Option Bytes := none
  bytes : Bool := false
  sw : Sw := {}
  sno : Int := 0
  service : Option Bytes := none
  cmd : Option Bytes := none
  subject : Option Bytes := none
  tag : Int := 0
  info : Option Bytes := none
  argvs : Option (List Bytes) := none
deriving DecidableEq, Repr

/-- `tag == SIS_NET_TAG_CHARS || tag == SIS_NET_TAG_BYTES` (src/core/net/sis_net.node.c:906 and 992). -/
def isList (tag : Int) : Bool := tag == 5 || tag == 7

/-- Conversion of a 64-bit integer to `int` (src/core/net/sis_net.node.c:1101-1115). -/
def toInt32 (v : Int) : Int := (v + 2147483648) % 4294967296 - 2147483648

/-- Conversion of a 64-bit integer to `int8` (src/core/net/sis_net.node.c:1138-1160). -/
def toInt8 (v : Int) : Int := (v + 128) % 256 - 128

/-! ### Encoding -/

/-- `sis_json_object_set_string(node, key, s, SIS_SDS_SIZE(s))` (src/core/sis_json.c:813-826, src/core/sis_sds.h:204)
if the switch is on; a null pointer gives a member without value. -/
def setStr (on : Bool) (key : Bytes) (s : Option Bytes) (n : Node) : Node :=
  if on then
    match s with
    | some v => setString n key v v.length
    | none => setMember n key .string none
  else n

/-- `sis_json_object_set_int(node, key, v)` (src/core/sis_json.c:703-717) if the switch is on. -/
def setNum (on : Bool) (key : Bytes) (v : Int) (n : Node) : Option Node :=
  if on then setInt n key v else some n

/-- The members' names (src/core/net/sis_net.node.c:888-929). -/
def kSno : Bytes := [115, 110, 111]
/-- `"service"` (src/core/net/sis_net.node.c:892). -/
def kService : Bytes := [115, 101, 114, 118, 105, 99, 101]
/-- `"cmd"` (src/core/net/sis_net.node.c:896). -/
def kCmd : Bytes := [99, 109, 100]
/-- `"subject"` (src/core/net/sis_net.node.c:900). -/
def kSubject : Bytes := [115, 117, 98, 106, 101, 99, 116]
/-- `"tag"` (src/core/net/sis_net.node.c:904). -/
def kTag : Bytes := [116, 97, 103]
/-- `"info"` (src/core/net/sis_net.node.c:927). -/
def kInfo : Bytes := [105, 110, 102, 111]
/-- `"infos"` (src/core/net/sis_net.node.c:920). -/
def kInfos : Bytes := [105, 110, 102, 111, 115]
/-- `"more"` (src/core/net/sis_net.node.c:1062). -/
def kMore : Bytes := [109, 111, 114, 101]

/-- The document of `_net_encoded_chars` (src/core/net/sis_net.node.c:885-930); `none`: undefined behaviour of
`lldtoa`. -/
def charsNode (m : Msg) : Option Node :=
  (setNum m.sw.sno kSno m.sno (.mk .object none none [])).bind fun n =>
  (setNum m.sw.tag kTag m.tag (setStr m.sw.subject kSubject m.subject
    (setStr m.sw.cmd kCmd m.cmd (setStr m.sw.service kService m.service n)))).map fun n =>
  if isList m.tag then
    match m.argvs with
    | some _ => n
    | none => setString n kInfos [91, 91, 93, 93] 4
  else setStr m.sw.info kInfo m.info n

/-- `_net_encoded_chars` (src/core/net/sis_net.node.c:883-945). -/
def encChars (m : Msg) : Option Bytes := (charsNode m).bind outputZip

/-- `sis_net_str_set_memory` (src/core/net/sis_net.node.c:939-950). -/
def putStr (on : Bool) (s : Option Bytes) : Bytes :=
  if on then
    match s with
    | some v => catSsize v.length ++ v
    | none => catSsize 0
  else []

/-- `sis_net_int_set_memory` (src/core/net/sis_net.node.c:951-970): the number arrives as an `int`. -/
def putInt (on : Bool) (v : Int) : Bytes :=
  if on then
    if toInt32 v ≠ 0 then
      let t := (lldtoa (toInt32 v) 32).getD []
      catSsize t.length ++ t
    else catSsize 0
  else []

/-- The list of `sis_net_encoded_normal` (src/core/net/sis_net.node.c:992-1007). -/
def putList : Option (List Bytes) → Bytes
  | some l => catSsize l.length ++ l.flatMap fun v => catSsize v.length ++ v
  | none => catSsize 0

/-- The binary part of `sis_net_encoded_normal` (src/core/net/sis_net.node.c:985-1013). -/
def encBytes (m : Msg) : Bytes :=
  { m.sw with mark := true }.toByte :: (putInt m.sw.sno m.sno ++ putStr m.sw.service m.service ++ putStr m.sw.cmd m.cmd
    ++ putStr m.sw.subject m.subject ++ putInt m.sw.tag m.tag
    ++ if isList m.tag then putList m.argvs else putStr m.sw.info m.info)

/-- `sis_net_encoded_normal` (src/core/net/sis_net.node.c:972-1015); `none`: undefined behaviour. -/
def encode (m : Msg) : Option Bytes :=
  let head := m.name.getD [] ++ [58]
  if m.bytes then some (head ++ encBytes m) else (encChars m).map (head ++ ·)

/-! ### Decoding -/

/-- `sis_str_pos` (src/core/sis_str.c:356-371) looking for a colon; `strchr` also finds the terminating zero. -/
def strPos : Bytes → Option Nat
  | [] => none
  | c :: r =>
    if c = 123 ∨ c = 125 ∨ c = 91 ∨ c = 93 ∨ c = 0 then none
    else if c = 58 then some 0
    else (strPos r).map (· + 1)

/-- `_sis_json_node_get_sds` (src/core/net/sis_net.node.c:1018-1040). -/
def jsonSds (cs : List Node) (key : Bytes) : Option Bytes :=
  match (cmpChild cs key).bind (cs[·]?) with
  | none => none
  | some c =>
    match c.ty with
    | .string => some (c.value.getD [])
    | .array => some ((outputZip c).getD [])
    | .object => some ((outputZip c).getD [])
    | _ => none

/-- `sis_json_to_netmsg` (src/core/net/sis_net.node.c:1041-1070) on a message that was just cleared. -/
def ofJson (name : Option Bytes) (n : Node) : Msg :=
  let service := jsonSds n.child kService
  let cmd := jsonSds n.child kCmd
  let subject := jsonSds n.child kSubject
  let info := jsonSds n.child kInfo
  { name := name, bytes := false,
    sw := { sno := (cmpChild n.child kSno).isSome, service := service.isSome, cmd := cmd.isSome,
            subject := subject.isSome, tag := (cmpChild n.child kTag).isSome, info := info.isSome,
            more := (cmpChild n.child kMore).isSome },
    sno := if (cmpChild n.child kSno).isSome then getInt n kSno 0 else 0,
    service := service, cmd := cmd, subject := subject,
    tag := if (cmpChild n.child kTag).isSome then toInt8 (getInt n kTag 0) else 0,
    info := info }

/-- `sis_net_memory_get_sds` (src/core/net/sis_net.node.c:1087-1100); `none`: bytes behind the message are read. -/
def getSds (on : Bool) (s : Bytes) : Option (Option Bytes × Bytes) :=
  if on then
    (getSsize s).bind fun (size, r) =>
      if size > 0 then (takeBytes size r).map fun (v, r) => (some v, r) else some (none, r)
  else some (none, s)

/-- `sis_net_memory_get_int` (src/core/net/sis_net.node.c:1101-1115): at most 31 bytes are copied; `none`: bytes behind
the message are read.  Lengths so large that adding them to the offset wraps around are not modelled. -/
def getNum (on : Bool) (s : Bytes) : Option (Int × Bytes) :=
  if on then
    (getSsize s).bind fun (size, r) =>
      if size > 0 then (takeBytes (min 31 size) r).map fun (v, _) => (atoll (cstrOf v), r.drop size) else some (0, r)
  else some (0, s)

/-- The binary part of `sis_net_decoded_normal` (src/core/net/sis_net.node.c:1138-1160), from the switches on. -/
def decBytes (name : Option Bytes) (b : UInt8) (r : Bytes) : Option Msg :=
  let sw := Sw.ofByte b
  (getNum sw.sno r).bind fun (sno, r) =>
  (getSds sw.service r).bind fun (service, r) =>
  (getSds sw.cmd r).bind fun (cmd, r) =>
  (getSds sw.subject r).bind fun (subject, r) =>
  (getNum sw.tag r).bind fun (tag, r) =>
  (if isList (toInt8 tag) then some (none, r) else getSds sw.info r).map fun (info, _) =>
  { name := name, bytes := true, sw := sw, sno := sno, service := service, cmd := cmd, subject := subject,
    tag := toInt8 tag, info := info }

/-- `sis_net_decoded_normal` (src/core/net/sis_net.node.c:1114-1185).  Outer `none`: bytes behind the message are read;
inner `none`: the message is refused. -/
def decode (s : Bytes) : Option (Option Msg) :=
  match strPos (s.take 128) with
  | none => some none
  | some cur =>
    let name := if cur > 0 then some (s.take cur) else none
    match s.drop (cur + 1) with
    | [] => none
    | b :: r =>
      if (Sw.ofByte b).mark then (decBytes name b r).map some
      else (load (b :: r)).map fun n => n.map (ofJson name)

/-! ### Relaying -/

/-- `sis_net_message_relay` (src/core/net/sis_net.msg.c:248-289) into a fresh message.  The list is copied only if the
one-bit switch is 5 or 7, which it never is. -/
def relay (m : Msg) (name service cmd subject : Option Bytes) : Msg :=
  { name := name, service := service, cmd := cmd, subject := subject, sno := m.sno, tag := m.tag, info := m.info,
    sw := { service := service.isSome, cmd := cmd.isSome, subject := subject.isSome, sno := m.sw.sno, tag := m.sw.tag,
            info := m.info.isSome } }

end Sis.Msg
