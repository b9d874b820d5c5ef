import Verif.Common
/-
Model of how /repo/lib/src/http_server.c puts together a response: `write_response` and the functions it calls, and the preparation of the
keep-alive header in `cio_http_server_init`.
-/
namespace Cio.HttpResponse

abbrev Bytes := List UInt8

/-- A string literal of the source. -/
def str (s : String) : Bytes := s.toList.map (fun c => c.toNat.toUInt8)

/-- `CIO_CRLF`, http_server.c 59. -/
def CRLF : Bytes := str "\r\n"

/-- An element of a write buffer: the memory object its `data` points into (from there on) and its `length` (write_buffer.h 59-79).  That rings
of such elements behave as sequences is C10. -/
structure Elem where
  mem : Bytes
  len : Nat

/-- The bytes a chain of elements stands for; `none` if an element reaches past the end of its memory (undefined behaviour). -/
def wire : List Elem → Option Bytes
  | [] => some []
  | e :: es => if e.len ≤ e.mem.length then (wire es).map (fun w => e.mem.take e.len ++ w) else none

/-- `cio_write_buffer_get_total_size`, write_buffer.h 298-301: a `size_t`. -/
def totalSize (es : List Elem) : Nat := (es.map Elem.len).sum % 2 ^ 64

/-- The decimal digits `%zu` and `%u` produce. -/
def dec (n : Nat) : Bytes :=
  if n < 10 then [48 + n.toUInt8] else dec (n / 10) ++ [48 + (n % 10).toUInt8]

/-- `snprintf(buf, n, ...)` where `text` is the complete output: returns the length of `text`, stores at most `n - 1` bytes and a NUL. -/
def snprintf (buf : Bytes) (n : Nat) (text : Bytes) : Nat × Bytes :=
  (text.length, if n = 0 then buf else text.take (n - 1) ++ 0 :: buf.drop (min text.length (n - 1) + 1))

/-- `enum cio_http_status_code`, http_status_code.h 45-52.  `other` stands for an integer outside of the enumeration. -/
inductive Status where
  | switchingProtocols | ok | badRequest | notFound | timeout | internalServerError
  | other (n : Nat)
deriving DecidableEq

/-- `get_response_statusline`, http_server.c 195-211, lines 59-60, 65.  `version` is `CIO_VERSION`, which the build system fills in. -/
def statusLine (version : Bytes) : Status → Bytes
  | .switchingProtocols => str "HTTP/1.1 101 Switching Protocols\r\nServer: cio http/" ++ version ++ CRLF
  | .ok => str "HTTP/1.1 200 OK\r\nServer: cio http/" ++ version ++ CRLF
  | .badRequest => str "HTTP/1.1 400 Bad Request\r\nServer: cio http/" ++ version ++ CRLF
  | .notFound => str "HTTP/1.1 404 Not Found\r\nServer: cio http/" ++ version ++ CRLF
  | .timeout => str "HTTP/1.1 408 Request Timeout\r\nServer: cio http/" ++ version ++ CRLF
  | _ => str "HTTP/1.1 500 Internal Server Error\r\nServer: cio http/" ++ version ++ CRLF

/-- A string literal as a write buffer element: `cio_write_buffer_const_element_init(…, s, strlen(s))`. -/
def strElem (s : Bytes) : Elem := { mem := s ++ [0], len := s.length }

/-- The part of `struct cio_http_server` used here, http_server.h 84-110. -/
structure Server where
  version : Bytes
  /-- The text in `keepalive_header` before its NUL. -/
  keepaliveHeader : Bytes

/-- The part of `struct cio_http_client` used here, http_client.h 70-95 and 190-220. -/
structure Client where
  responseWbh : List Elem
  contentLengthBuffer : Bytes
  shouldKeepalive : Bool
  closeImmediately : Bool
  responseFired : Bool
  responseWritten : Bool

/-- `add_response_header`, http_server.c 213-216. -/
def addResponseHeader (c : Client) (e : Elem) : Client := { c with responseWbh := c.responseWbh ++ [e] }

/-- `start_response_header`, http_server.c 218-238. -/
def startResponseHeader (s : Server) (c : Client) (st : Status) : Client :=
  let c := { c with responseWbh := strElem (statusLine s.version st) :: c.responseWbh }
  if st ≠ .switchingProtocols then
    if c.shouldKeepalive && !c.closeImmediately then
      addResponseHeader (addResponseHeader c (strElem s.keepaliveHeader)) (strElem (str "Connection: keep-alive\r\n"))
    else addResponseHeader c (strElem (str "Connection: close\r\n"))
  else addResponseHeader c (strElem (str "Connection: Upgrade\r\n"))

/-- `end_response_header`, http_server.c 240-244. -/
def endResponseHeader (c : Client) : Client := addResponseHeader c (strElem CRLF)

/-- What a call of `write_response` leads to: the value returned, the client afterwards and the chain handed to the buffered stream, if any;
`closed` if the connection is closed (or marked to be closed) instead. -/
structure Outcome where
  err : Err
  client : Client
  sent : Option (List Elem)
  closed : Bool

/-- `sizeof(content_length_buffer)`, http_client.h 68 and 92. -/
def CONTENT_LENGTH_BUFFER_LENGTH : Nat := 30

/-- Lines 262-268 of `write_response`: the `Content-Length` header is printed into its buffer and appended to the chain. -/
def addContentLength (c : Client) (n : Nat) : Client :=
  let (written, buf) := snprintf c.contentLengthBuffer (CONTENT_LENGTH_BUFFER_LENGTH - 1) (str "Content-Length: " ++ dec n ++ CRLF)
  addResponseHeader { c with contentLengthBuffer := buf } { mem := buf, len := written }

/-- `write_response`, http_server.c 251-289.  `armed` tells whether arming the response timer succeeded, `flushErr` is what
`cio_buffered_stream_write` returns. -/
def writeResponse (s : Server) (c : Client) (st : Status) (body : Option (List Elem)) (armed : Bool) (flushErr : Err) : Outcome :=
  if c.responseWritten then { err := OPERATION_NOT_PERMITTED, client := c, sent := none, closed := false }
  else
    let c := { c with responseFired := true }
    let contentLength := match body with | some b => totalSize b | none => 0
    let old := c.responseWbh
    let c := addContentLength c contentLength
    let c := if st = .badRequest ∨ st = .timeout ∨ st = .internalServerError then { c with closeImmediately := true } else c
    if !armed then { err := SUCCESS, client := { c with responseWbh := old }, sent := none, closed := true }
    else
      let c := endResponseHeader (startResponseHeader s c st)
      let c := match body with | some b => { c with responseWbh := c.responseWbh ++ b } | none => c
      { err := flushErr, client := { c with responseWritten := true }, sent := some c.responseWbh, closed := false }

/-- `response_written`, http_server.c 186-191, after a response has been written successfully: the connection is closed (or marked) if this is
true and goes on with the next request otherwise. -/
def closesAfterwards (c : Client) : Bool := c.closeImmediately || !c.shouldKeepalive

/-- `on_headers_complete`, http_server.c 357-362; `keep` is what `http_should_keep_alive` says of the request.  The second component tells
whether the connection is marked to be closed. -/
def onHeadersComplete (c : Client) (keep : Bool) : Client × Bool :=
  let c := { c with shouldKeepalive := keep }
  (c, !c.shouldKeepalive && c.responseFired)

/-- `handle_accept`, http_server.c 657-674: a new connection. -/
def newClient (garbage : Bytes) : Client :=
  { responseWbh := [], contentLengthBuffer := garbage, shouldKeepalive := true, closeImmediately := false, responseFired := false,
    responseWritten := false }

/-- `CIO_KEEPALIVE_TIMEOUT_HEADER_MAX_LENGTH`, http_server.h. -/
def KEEPALIVE_MAX_LENGTH : Nat := 33

/-- The keep-alive header prepared by `cio_http_server_init`, http_server.c 757-761; `none` is the refusal with `CIO_NO_BUFFER_SPACE`. -/
def initKeepalive (readHeaderTimeoutNs : Nat) : Option Bytes :=
  let keepAlive := (readHeaderTimeoutNs / 1000000000) % 2 ^ 32
  let text := str "Keep-Alive: timeout=" ++ dec keepAlive ++ CRLF
  let (ret, buf) := snprintf (List.replicate KEEPALIVE_MAX_LENGTH 0) KEEPALIVE_MAX_LENGTH text
  if ret ≥ KEEPALIVE_MAX_LENGTH - 1 then none else some (buf.takeWhile (· ≠ 0))

end Cio.HttpResponse
