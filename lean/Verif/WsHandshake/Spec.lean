/-
Specification of the opening handshake after RFC 6455, sections 4.1 and 4.2, and RFC 7230 for the syntax of tokens and lists.
-/
namespace Cio.WsHandshake.Rfc6455

abbrev Bytes := List UInt8

/-- Split at commas. -/
def splitCommas : Bytes → List Bytes
  | [] => [[]]
  | b :: s => if b = 44 then [] :: splitCommas s else
    match splitCommas s with
    | [] => [[b]]
    | w :: ws => (b :: w) :: ws

def ows (b : UInt8) : Bool := b = 32 || b = 9

/-- Without the white space around it. -/
def trim (w : Bytes) : Bytes := ((w.dropWhile ows).reverse.dropWhile ows).reverse

/-- The entries of a comma separated list. -/
def entries (v : Bytes) : List Bytes := (splitCommas v).map trim

/-- `tchar`, RFC 7230, section 3.2.6: letters, digits and `!#$%&'*+-.^_`|~`. -/
def tchar (b : UInt8) : Bool :=
  (48 ≤ b && b ≤ 57) || (65 ≤ b && b ≤ 90) || (97 ≤ b && b ≤ 122) ||
  [33, 35, 36, 37, 38, 39, 42, 43, 45, 46, 94, 95, 96, 124, 126].contains b

/-- `token`. -/
def IsToken (t : Bytes) : Prop := t ≠ [] ∧ ∀ b ∈ t, tchar b = true

instance (t : Bytes) : Decidable (IsToken t) := by unfold IsToken; infer_instance

/-- The agreed subprotocol, as its index in the list of the server: the first entry of the client's list that the server supports, if all entries
before it are tokens. -/
def choose (supported : List Bytes) : List Bytes → Option Nat
  | [] => none
  | t :: ts => if IsToken t then (if t ∈ supported then some (supported.idxOf t) else choose supported ts) else none

/-- Header names are compared ignoring the case of ASCII letters. -/
def lowerByte (b : UInt8) : UInt8 := if 65 ≤ b ∧ b ≤ 90 then b + 32 else b
def SameName (a b : Bytes) : Prop := a.map lowerByte = b.map lowerByte
instance (a b : Bytes) : Decidable (SameName a b) := by unfold SameName; infer_instance

/-- The values of all fields of that name, in their order. -/
def valuesOf (name : Bytes) (fields : List (Bytes × Bytes)) : List Bytes :=
  (fields.filter (fun f => decide (SameName f.1 name))).map Prod.snd

def ascii (s : String) : Bytes := s.toList.map (fun c => c.toNat.toUInt8)

/-- The key the server has to answer: that of the last field. -/
def keyOf (fields : List (Bytes × Bytes)) : Bytes := (valuesOf (ascii "Sec-WebSocket-Key") fields).getLastD []

/-- The conditions on the header fields of the handshake, RFC 6455, section 4.1 (9, 7, 10): a key (24 characters: base64 of 16 bytes), version 13,
and subprotocols that can be agreed upon.  The key must not begin with a NUL byte (which no field value contains, RFC 7230, section 3.2). -/
structure FieldsOk (supported : Option (List Bytes)) (fields : List (Bytes × Bytes)) : Prop where
  key : valuesOf (ascii "Sec-WebSocket-Key") fields ≠ [] ∧ ∀ v ∈ valuesOf (ascii "Sec-WebSocket-Key") fields, v.length = 24
  start : (keyOf fields).head? ≠ some 0
  version : valuesOf (ascii "Sec-WebSocket-Version") fields ≠ [] ∧ ∀ v ∈ valuesOf (ascii "Sec-WebSocket-Version") fields, v = ascii "13"
  protocol : ∀ v ∈ valuesOf (ascii "Sec-WebSocket-Protocol") fields, ∃ names i, supported = some names ∧ choose names (entries v) = some i

/-- The subprotocol agreed upon (if one was asked for): that of the last field. -/
def protocolOf (supported : Option (List Bytes)) (fields : List (Bytes × Bytes)) : Option Bytes :=
  match (valuesOf (ascii "Sec-WebSocket-Protocol") fields).getLast?, supported with
  | some v, some names => (choose names (entries v)).bind (names[·]?)
  | _, _ => none

/-- Section 1.3. -/
def GUID : Bytes := ascii "258EAFA5-E914-47DA-95CA-C5AB0DC85B11"

end Cio.WsHandshake.Rfc6455
