import Verif.Net.ShaSpec
/-
Specification: what RFC 6455 (sections 1.3 and 4) and RFC 7230 (section 3) say of the opening handshake.
-/
namespace Sis.HandSpec
open Sis

/-- A text. -/
def text (s : String) : Bytes := s.toUTF8.toList

/-- A header: its name and its value. -/
structure Header where
  name : Bytes
  value : Bytes
deriving DecidableEq

/-- The line of a header, without its end. -/
def line (h : Header) : Bytes := h.name ++ text ": " ++ h.value

/-- The head of a request or of an answer: the first line, the headers and an empty line. -/
def head (first : Bytes) (hs : List Header) : Bytes :=
  first ++ text "\r\n" ++ hs.flatMap (fun h => line h ++ text "\r\n") ++ text "\r\n"

/-- No line holds the end of a line or a zero byte. -/
def Plain (first : Bytes) (hs : List Header) : Prop :=
  ∀ l ∈ first :: hs.map line, ∀ c ∈ l, c ≠ 0 ∧ c ≠ 10 ∧ c ≠ 13

/-- A request to open a websocket with this key: 24 signs of Base64 in a header of the name that the RFC gives it; this name does not
stand in a line before. -/
structure Request (first : Bytes) (hs : List Header) (key : Bytes) : Prop where
  plain : Plain first hs
  signs : ∀ c ∈ key, c ∈ ShaSpec.alphabet ∨ c = 61
  length : key.length = 24
  header : ∃ a b, hs = a ++ [⟨text "Sec-WebSocket-Key", key⟩] ++ b ∧ ∀ l ∈ first :: a.map line, ¬ text "Sec-WebSocket-Key" <:+: l

/-- The answer (section 4.2.2): the digest of the key and of the fixed text. -/
def answer (key : Bytes) : Bytes :=
  head (text "HTTP/1.1 101 Switching Protocols") [⟨text "Upgrade", text "websocket"⟩, ⟨text "Connection", text "Upgrade"⟩,
    ⟨text "Sec-WebSocket-Accept", ShaSpec.base64 (ShaSpec.sha1 (key ++ text "258EAFA5-E914-47DA-95CA-C5AB0DC85B11"))⟩]

end Sis.HandSpec
