import Verif.HttpResponse.Model
import Verif.Sha1.Model
import Verif.Base64.Model
/-
Model of /repo/lib/src/websocket_location_handler.c: the opening handshake of a WebSocket.
-/
namespace Cio.WsHandshake
open HttpResponse (Bytes str Elem strElem)

/-- `enum header_field`, websocket_location_handler.c 51-56. -/
inductive Field where
  | unknown | key | version | protocol
deriving DecidableEq

/-- `enum cio_http_cb_return`, http_location_handler.h 68-72. -/
inductive Ret where
  | skipBody | success | error
deriving DecidableEq

/-- `enum protocol_find_ret`, websocket_location_handler.c 58-62. -/
inductive Find where
  | found | notFound | error
deriving DecidableEq

/-- `struct cio_websocket_location_handler`, websocket_location_handler.h 51-78.  The names of the subprotocols are given without their
terminating NUL; `chosen = none` is the value -1 (fewer than 2^31 subprotocols are assumed). -/
structure Handler where
  subprotocols : Option (List Bytes)
  current : Field
  requested : Bool
  versionOk : Bool
  chosen : Option Nat
  key : Bytes

/-- `WS_GUID`, websocket_location_handler.c 66-69. -/
def WS_GUID : Bytes := str "258EAFA5-E914-47DA-95CA-C5AB0DC85B11"

/-- `cio_websocket_location_handler_init`, websocket_location_handler.c 406-440; `garbage` is the uninitialised rest of the key. -/
def init (subprotocols : Option (List Bytes)) (garbage : Bytes) : Handler :=
  { subprotocols := subprotocols, current := .unknown, requested := false, versionOk := false, chosen := none, key := 0 :: garbage }

/-- `save_websocket_key`, websocket_location_handler.c 64-78: the two `memcpy`s overwrite the whole array of 60 bytes. -/
def saveKey (h : Handler) (at_ : Bytes) : Handler × Ret :=
  if at_.length = 24 then ({ h with key := at_ ++ WS_GUID }, .success) else (h, .error)

/-- `check_websocket_version`, websocket_location_handler.c 80-89. -/
def checkVersion (h : Handler) (at_ : Bytes) : Handler × Ret :=
  if at_.length = 2 ∧ at_ = str "13" then ({ h with versionOk := true }, .success) else (h, .error)

/-- The loop of `find_requested_sub_protocol`, websocket_location_handler.c 93-100, from index `i` on. -/
def findFrom (name : Bytes) : Nat → List Bytes → Option Nat
  | _, [] => none
  | i, s :: ss => if s.length = name.length ∧ s = name then some i else findFrom name (i + 1) ss

/-- `find_requested_sub_protocol`, websocket_location_handler.c 91-103. -/
def findRequested (h : Handler) (name : Bytes) : Handler × Bool :=
  match findFrom name 0 (h.subprotocols.getD []) with
  | some i => ({ h with chosen := some i }, true)
  | none => (h, false)

/-- `find_delimiter`, websocket_location_handler.c 105-114: the offset of the first comma. -/
def findDelimiter : Bytes → Option Nat
  | [] => none
  | b :: s => if b = 44 then some 0 else (findDelimiter s).map (· + 1)

/-- `is_white_space`, websocket_location_handler.c 116-123. -/
def isWhiteSpace (b : UInt8) : Bool := b == 32 || b == 9

/-- `strip_leading_whitespace`, websocket_location_handler.c 125-134: what is left, `none` for NULL. -/
def stripLeading : Bytes → Option Bytes
  | [] => none
  | b :: s => if !isWhiteSpace b then some (b :: s) else stripLeading s

/-- `strip_trailing_whitespace`, websocket_location_handler.c 136-143: the new length; `none` is a read before the start of the string. -/
def stripTrailing (s : Bytes) : Nat → Option Nat
  | 0 => none
  | n + 1 => match s[n]? with
    | none => none
    | some b => if isWhiteSpace b then stripTrailing s n else some (n + 1)

/-- `is_visible_character`, websocket_location_handler.c 145-148.  Characters of 128 and above are outside of the range whether `char` is signed
or not. -/
def isVisible (b : UInt8) : Bool := 33 ≤ b && b ≤ 126

/-- `is_delimiter`, websocket_location_handler.c 150-172. -/
def isDelimiter (b : UInt8) : Bool :=
  b == 34 || b == 40 || b == 41 || b == 47 || b == 58 || b == 59 || b == 60 || b == 61 || b == 62 || b == 63 || b == 64 || b == 91 || b == 92 ||
  b == 93 || b == 123 || b == 125

/-- `has_illegal_characters`, websocket_location_handler.c 174-187. -/
def hasIllegal : Bytes → Bool
  | [] => false
  | b :: s => if !isVisible b then true else if isDelimiter b then true else hasIllegal s

/-- `handle_word`, websocket_location_handler.c 189-208; `none` is undefined behaviour. -/
def handleWord (h : Handler) (s : Bytes) : Option (Handler × Find) :=
  match stripLeading s with
  | none => some (h, .error)
  | some start =>
    match stripTrailing start start.length with
    | none => none
    | some len =>
      let word := start.take len
      if hasIllegal word then some (h, .error)
      else match findRequested h word with
        | (h, true) => some (h, .found)
        | (h, false) => some (h, .notFound)

/-- The loop of `check_websocket_protocol`, websocket_location_handler.c 218-240.  `fuel` bounds the number of iterations, `none` is undefined
behaviour or an endless loop. -/
def checkLoop : Nat → Handler → Bytes → Option (Handler × Ret)
  | 0, _, _ => none
  | fuel + 1, h, s =>
    let fin := findDelimiter s
    let wordLen := fin.getD s.length
    match handleWord h (s.take wordLen) with
    | none => none
    | some (h, .found) => some (h, .success)
    | some (h, .error) => some (h, .error)
    | some (h, .notFound) => if fin.isSome then checkLoop fuel h (s.drop (wordLen + 1)) else some (h, .error)

/-- `check_websocket_protocol`, websocket_location_handler.c 210-241. -/
def checkProtocol (h : Handler) (at_ : Bytes) : Option (Handler × Ret) :=
  if h.subprotocols = none then some (h, .success) else checkLoop (at_.length + 1) h at_

/-- A byte as `strncasecmp` (string.c of the Linux platform, in the C locale) looks at it. -/
def lower (b : UInt8) : UInt8 := if 65 ≤ b ∧ b ≤ 90 then b + 32 else b

/-- `(sizeof(X) - 1 == length) && (cio_strncasecmp(at, X, length) == 0)`. -/
def sameName (at_ name : Bytes) : Bool := name.length == at_.length && at_.map lower == name.map lower

/-- `handle_field_name`, websocket_location_handler.c 243-260. -/
def fieldName (h : Handler) (at_ : Bytes) : Handler :=
  if sameName at_ (str "Sec-WebSocket-Key") then { h with current := .key }
  else if sameName at_ (str "Sec-WebSocket-Version") then { h with current := .version }
  else if sameName at_ (str "Sec-WebSocket-Protocol") then { h with current := .protocol }
  else h

/-- `handle_field_value`, websocket_location_handler.c 262-290. -/
def fieldValue (h : Handler) (at_ : Bytes) : Option (Handler × Ret) :=
  let r := match h.current with
    | .key => some (saveKey h at_)
    | .version => some (checkVersion h at_)
    | .protocol => checkProtocol { h with requested := true } at_
    | .unknown => some (h, .success)
  r.map (fun x => ({ x.1 with current := .unknown }, x.2))

/-- The header fields of a request in their order: the parser reports the name and then the value of each (the HTTP server hands it complete
lines), and stops at an error. -/
def fieldsLoop : Handler → List (Bytes × Bytes) → Option (Handler × Ret)
  | h, [] => some (h, .success)
  | h, (n, v) :: fs =>
    match fieldValue (fieldName h n) v with
    | none => none
    | some (h, .success) => fieldsLoop h fs
    | some (h, r) => some (h, r)

/-- `check_http_version`, websocket_location_handler.c 292-303. -/
def checkHttpVersion (major minor : Nat) : Bool :=
  if major > 1 then true else if major = 1 ∧ minor ≥ 1 then true else false

/-- What the parser knows of a request. -/
structure Request where
  major : Nat
  minor : Nat
  /-- `http_method == CIO_HTTP_GET`. -/
  isGet : Bool
  /-- `parser.upgrade`: the request has an `Upgrade` field and `Connection: upgrade`. -/
  upgrade : Bool
  fields : List (Bytes × Bytes)

/-- A character as the byte stored in memory. -/
def byte (c : Char) : UInt8 := c.toNat.toUInt8

/-- The value of the accept header, websocket_location_handler.c 325-334: the contents of `accept_value`.  `ctx` is the uninitialised SHA-1
context on the stack; `none` is undefined behaviour. -/
def acceptValue (ctx : Sha1.Ctx) (key : Bytes) : Option Bytes := do
  let (_, ctx) ← Sha1.input (Sha1.reset ctx) (key.take 60)
  let (_, digest, _) ← Sha1.result ctx
  let digest ← digest
  let text ← Base64.encode digest
  return text.map byte ++ [13, 10]

/-- The header lines queued by `send_upgrade_response`, websocket_location_handler.c 336-355. -/
def upgradeElems (h : Handler) (accept : Bytes) : Option (List Elem) :=
  let first := [strElem (str "Upgrade: websocket\r\nSec-WebSocket-Accept: "), { mem := accept, len := 30 }]
  match h.chosen with
  | none => some first
  | some i => match (h.subprotocols.getD [])[i]? with
    | none => none
    | some p => some (first ++ [strElem (str "Sec-Websocket-Protocol: "), strElem p, strElem HttpResponse.CRLF])

/-- What becomes of a request. -/
inductive Outcome where
  /-- The callbacks reported an error: the server answers 400. -/
  | refused
  /-- 101 was sent: the chain handed to the stream. -/
  | upgraded (h : Handler) (o : HttpResponse.Outcome)

/-- `handle_headers_complete` and `send_upgrade_response`, websocket_location_handler.c 323-391. -/
def headersComplete (ctx : Sha1.Ctx) (s : HttpResponse.Server) (c : HttpResponse.Client) (h : Handler) (r : Request) (armed : Bool) (flushErr : Err) :
    Option Outcome :=
  if !checkHttpVersion r.major r.minor then some .refused
  else if !r.isGet then some .refused
  else if !r.upgrade then some .refused
  else if h.requested ∧ h.chosen = none then some .refused
  else if !h.versionOk then some .refused
  else if h.key.head? = some 0 then some .refused
  else do
    let accept ← acceptValue ctx h.key
    let elems ← upgradeElems h accept
    let c := elems.foldl HttpResponse.addResponseHeader c
    let o := HttpResponse.writeResponse s c .switchingProtocols none armed flushErr
    if o.err ≠ SUCCESS then return .refused else return .upgraded h o

/-- A whole request for a WebSocket location with the given subprotocols, on a client `c` whose response has not been started. -/
def handshake (subprotocols : Option (List Bytes)) (garbage : Bytes) (ctx : Sha1.Ctx) (s : HttpResponse.Server) (c : HttpResponse.Client)
    (r : Request) (armed : Bool) (flushErr : Err) : Option Outcome :=
  match fieldsLoop (init subprotocols garbage) r.fields with
  | none => none
  | some (h, .success) => headersComplete ctx s c h r armed flushErr
  | some (_, _) => some .refused

end Cio.WsHandshake
