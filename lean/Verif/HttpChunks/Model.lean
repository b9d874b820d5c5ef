/-
How the bytes of a connection are cut into calls of the HTTP parser: `parse`, `finish_*` and `on_headers_complete` of http_server.c.

The parser (a library that is not part of this code base) is modelled by what it reports: the stream is a list of bytes, each with the callbacks the
parser makes when it has consumed it (`Mark`).  Responses are written at once, so that `restart_read_request` goes on at the end of each message; what else
the callbacks do is modelled in `HttpLife`.  The bytes available to a call are arbitrary.
-/
namespace Cio.HttpChunks

abbrev Bytes := List UInt8

/-- Callbacks of the parser that concern the cutting. -/
inductive Ev where
  /-- `on_headers_complete` with `parser->content_length`; `none`: no Content-Length field, the parser says ULLONG_MAX -/
  | headers (length : Option Nat)
  /-- `on_message_complete` -/
  | message
deriving DecidableEq, Repr

/-- A byte of the stream. -/
structure Mark where
  byte : UInt8
  /-- it belongs to a URL -/
  url : Bool := false
  /-- the callbacks made when it has been consumed -/
  evs : List Ev := []
deriving DecidableEq, Repr

/-- `finish_func`, http_server.c 352, 417, 617-634, 136. -/
inductive Finish where
  | requestLine | headerLine | bytes | restart
deriving DecidableEq, Repr

/-- SIZE_MAX. -/
def sizeMax : Nat := 2 ^ 64 - 1

structure State where
  /-- the stream from the read pointer on, arrived or not -/
  rest : List Mark
  /-- `remaining_content_length` -/
  remaining : Nat := 0
  finish : Finish := .requestLine
  /-- the chunks given to `http_parser_execute`, the latest first -/
  fed : List (List Mark) := []

/-- The number of bytes up to the end of the first CR LF; `cio_buffered_stream_read_until`. -/
def lineEnd : List Mark → Option Nat
  | a :: b :: l => if a.byte = 13 ∧ b.byte = 10 then some 2 else (lineEnd (b :: l)).map (· + 1)
  | _ => none

/-- The number of bytes given to the handler `parse` if `avail` bytes are in the buffer; `none`: the read goes on. -/
def readResult (s : State) (avail : Nat) : Option Nat :=
  match s.finish with
  | .bytes => if 1 ≤ avail then some avail else none
  | _ => lineEnd (s.rest.take avail)

/-- The callbacks, http_server.c 355-395 and 420-446. -/
def callback (s : State) : Ev → State
  | .headers cl =>
    if cl.getD sizeMax > 0 then { s with finish := .bytes, remaining := cl.getD sizeMax } else s
  | .message => { s with finish := .restart }

/-- `http_parser_execute` on a chunk. -/
def execute (s : State) (chunk : List Mark) : State := (chunk.flatMap (·.evs)).foldl callback s

/-- `client->http_private.finish_func(client)`, http_server.c 614. -/
def runFinish (s : State) : State :=
  match s.finish with
  | .requestLine => { s with finish := .headerLine }
  | .headerLine => s
  | .bytes => s
  | .restart => { s with finish := .requestLine }

/-- `parse`, http_server.c 563-615, for a read that succeeded with `num` bytes while `avail` bytes are in the buffer. -/
def parse (s : State) (avail num : Nat) : State :=
  let n := if s.remaining > 0 then min avail s.remaining else num
  let s' := if s.remaining > 0 then { s with remaining := s.remaining - n } else s
  runFinish (execute { s' with fed := s.rest.take n :: s.fed, rest := s.rest.drop n } (s.rest.take n))

/-- One read is answered. -/
def Step (s s' : State) : Prop := ∃ avail num, avail ≤ s.rest.length ∧ readResult s avail = some num ∧ s' = parse s avail num

/-- Histories of a connection. -/
inductive Reach (s : State) : State → Prop where
  | refl : Reach s s
  | step {s' s''} : Reach s s' → Step s' s'' → Reach s s''

end Cio.HttpChunks
