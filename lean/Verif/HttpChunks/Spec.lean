import Verif.HttpChunks.Model
/-
Requests and their bytes.
-/
namespace Cio.HttpChunks

/-- How the end of the body is found. -/
inductive Framing where
  /-- no Content-Length field and no body -/
  | none
  /-- a Content-Length field and that many bytes -/
  | length (body : Bytes)
  /-- chunked transfer encoding, the encoded bytes -/
  | chunked (b : UInt8) (body : Bytes)
  /-- a request for another protocol, accepted by the handler: `on_headers_complete` returns early (http_server.c 377-382) and `on_message_complete`
  leaves `finish_func` alone (424) -/
  | upgrade
deriving DecidableEq

/-- The bytes behind the header. -/
def Framing.bytes : Framing → Bytes
  | .none => []
  | .length body => body
  | .chunked b body => b :: body
  | .upgrade => []

/-- A request: the method with the blank behind it, the URL, the version with the blank before it, the header lines. -/
structure Req where
  method : Bytes
  url : Bytes
  version : Bytes
  headers : List Bytes
  framing : Framing
deriving DecidableEq

def plain (l : Bytes) : List Mark := l.map fun b => { byte := b }

/-- The last byte of a body reports the end of the message. -/
def bodyMarks : Bytes → List Mark
  | [] => []
  | [b] => [{ byte := b, evs := [.message] }]
  | b :: l => { byte := b } :: bodyMarks l

def crlf : List Mark := plain [13, 10]

def lineMarks (r : Req) : List Mark := plain r.method ++ r.url.map (fun b => { byte := b, url := true }) ++ plain r.version ++ crlf

def headerMarks (h : Bytes) : List Mark := plain h ++ crlf

/-- What the parser reports at the end of the header. -/
def headerEvents : Framing → List Ev
  | .none => [.headers none, .message]
  | .length [] => [.headers (some 0), .message]
  | .length body => [.headers (some body.length)]
  | .chunked _ _ => [.headers none]
  | .upgrade => []

/-- The empty line behind the header. -/
def blankMarks (f : Framing) : List Mark := [{ byte := 13 }, { byte := 10, evs := headerEvents f }]

def framingMarks : Framing → List Mark
  | .none => []
  | .length body => bodyMarks body
  | .chunked b body => bodyMarks (b :: body)
  | .upgrade => []

def restMarks (hs : List Bytes) (f : Framing) : List Mark := hs.flatMap headerMarks ++ blankMarks f ++ framingMarks f

/-- The marked bytes of a request. -/
def reqMarks (r : Req) : List Mark := lineMarks r ++ restMarks r.headers r.framing

/-- The bytes of a request as they are sent. -/
def Req.bytes (r : Req) : Bytes :=
  r.method ++ r.url ++ r.version ++ [13, 10] ++ r.headers.flatMap (· ++ [13, 10]) ++ [13, 10] ++
    r.framing.bytes

/-- Lines do not contain CR; header lines are not empty. -/
def Req.Ok (r : Req) : Prop :=
  13 ∉ r.method ∧ 13 ∉ r.url ∧ 13 ∉ r.version ∧ ∀ h ∈ r.headers, 13 ∉ h ∧ h ≠ []

/-- The request says how long its body is. -/
def Req.HasLength (r : Req) : Prop := ∃ body, r.framing = .length body

/-- The bytes of a request with the request line, the header lines and the empty line each in one piece; the body cut anywhere. -/
def Pieces (r : Req) (l : List Bytes) : Prop :=
  ∃ body : List Bytes, l = (r.method ++ r.url ++ r.version ++ [13, 10]) :: r.headers.map (· ++ [13, 10]) ++ [[13, 10]] ++ body ∧
    body.flatten = r.framing.bytes ∧ ∀ p ∈ body, p ≠ []

/-- The same for a list of requests. -/
inductive AllPieces : List Req → List Bytes → Prop where
  | nil : AllPieces [] []
  | cons {r rs l ls} : Pieces r l → AllPieces rs ls → AllPieces (r :: rs) (l ++ ls)

end Cio.HttpChunks
