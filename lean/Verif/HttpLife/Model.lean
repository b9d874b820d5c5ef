import Verif.Common
/-
Model of the life of one HTTP connection, /repo/lib/src/http_server.c (lines 83-193, 251-289, 337-556, 563-734): reading requests, calling the
location handler, responding, the two timers, keep-alive, and closing.

C functions that call user code, and `handle_server_error`, which is mutually recursive with `write_response`, are cut: what is still to be done is an
`Item` on an explicit stack.  One `Choice` is consumed per step: what happens next (the event, the next callback of http_parser, what user code does)
and what the operating system answers in that step.

Simplifications:
* http_parser (not in the repository) is replaced by the order of callbacks it documents: url, header fields, headers complete, body parts and trailer
  fields, message complete, and then the next message; it may stop with an error at any time.  How many of these happen in one call of
  `http_parser_execute` is not restricted (see HttpChunks for the bytes it is given).  This includes the call at the end of the stream: it is given no bytes
  as a rule, but those left in the buffer if `remaining_content_length` is not 0 (574-578), which it may be wrongly (see HttpChunks);
* the contents of requests and responses are not modelled (see HttpResponse, HttpLocation, WsHandshake);
* a read that could be served at once from the buffer is an event that happens next; reads are never refused by the buffered stream, whose arguments are
  never null here (buffered_stream.c 294-354), and the buffer has at least one byte;
* a timer does not expire in the call that arms it (see `Timer`), timerfd reports no errors;
* SIZE_MAX = ULLONG_MAX, so no Content-Length is too large (http_server.c 364-367).
-/
namespace Cio.HttpLife

/-- What a response is for the connection: 101, a status that closes (400, 408, 500), any other. -/
inductive Kind where
  | switching | closing | plain
deriving DecidableEq, Repr

/-- `enum cio_http_cb_return`, http_location_handler.h 108-112. -/
inductive Ret where
  | success | skipBody | error
deriving DecidableEq, Repr

/-- The callbacks of a location handler: the seven for the URL, header field names and values, headers complete, body, message complete. -/
inductive Cb where
  | url | field | headers | body | message
deriving DecidableEq, Repr

/-- What can be observed. -/
inductive Ev where
  | callback (cb : Cb)                 -- a callback of the location handler is called
  | response (kind : Kind)             -- a response is given to the stream
  | responseCb                         -- the user's `response_written` callback is called
  | onError                            -- `on_error` of the server is called
  | handlerAlloc (id : Nat)            -- a location handler was allocated
  | handlerFree (id : Nat)             -- `free` of a location handler is called
  | restarted                          -- the server is ready for the next request
  | closing                            -- the descriptors of the timers are closed and the stream is told to close
  | freed                              -- the close hook of the socket is called: the client is released
deriving DecidableEq, Repr

/-- A timer: a handler is set, it is running. -/
structure Timer where
  set : Bool := false
  armed : Bool := false
deriving DecidableEq, Repr

/-- How far http_parser is: before the URL, in the header, behind the header, behind the message. -/
inductive Phase where
  | start | header | body | done
deriving DecidableEq, Repr

/-- `client->http_private.finish_func`. -/
inductive Finish where
  | requestLine | headerLine | bytes | restart
deriving DecidableEq, Repr

/-- The socket: usable, shut down and waiting for the peer (only if a close timeout is set), closed and its hook called. -/
inductive Sock where
  | open | shutting | freed
deriving DecidableEq, Repr

/-- `struct cio_http_client` and its surroundings, http_client.h 66-89, 165-220. -/
structure World where
  parsing : Nat := 0
  toBeClosed : Bool := false
  keepAlive : Bool := true
  closeImm : Bool := false
  fired : Bool := false
  written : Bool := false
  completed : Bool := false
  reqComplete : Bool := false
  /-- `client->response_written_cb != NULL` -/
  respCb : Bool := false
  /-- `client->parser.upgrade` -/
  upgrade : Bool := false
  phase : Phase := .start
  /-- the parser was told to skip the body: the message is complete next -/
  skip : Bool := false
  /-- `HTTP_PARSER_ERRNO(parser) != HPE_OK`: http_parser does nothing any more -/
  dead : Bool := false
  /-- `client->parser_settings.on_header_field` is set -/
  fieldCb : Bool := false
  handler : Option Nat := none
  finish : Finish := .requestLine
  reqT : Timer := {}
  respT : Timer := {}
  /-- a read with handler `parse` is outstanding at the buffered stream -/
  reading : Bool := false
  /-- a write with handler `response_written` is outstanding at the buffered stream -/
  writing : Bool := false
  /-- `buffered_stream->callback_is_running` -/
  running : Nat := 0
  shallClose : Bool := false
  sock : Sock := .open
  /-- (not in the code) number of handlers allocated -/
  allocs : Nat := 0
  /-- (not in the code) number of calls of `close_client` -/
  closes : Nat := 0
  /-- undefined behaviour: a null pointer or a released client was used -/
  ub : Bool := false
  /-- newest first -/
  log : List Ev := []
deriving DecidableEq, Repr

/-- What is still to be done when the code above on the stack has returned. -/
inductive Item where
  /-- in `http_parser_execute`, called by `parse` for data (`false`) or at the end of the stream -/
  | exec (eof : Bool)
  /-- `parse` behind `http_parser_execute`, http_server.c 587-614; `bad`: not all bytes were parsed -/
  | tail (eof bad : Bool)
  /-- `call_handler` of the buffered stream behind the read handler, buffered_stream.c 60-67 -/
  | bsRet
  /-- a callback of the location handler; `last`: it is `on_url` and not one for a part of the URL -/
  | user (cb : Cb) (last : Bool) (body : Bool)
  /-- on_url in between the callbacks, http_server.c 518-553 -/
  | urlNext
  /-- `on_headers_complete` behind the callback, 383-395; `body`: the length of the body is not 0 -/
  | headersEnd (body : Bool)
  /-- `on_message_complete` behind the callback, 439-445 -/
  | messageEnd (ret : Ret)
  /-- `handle_server_error` -/
  | serverError
  /-- `response_written` -/
  | written (ok : Bool)
  /-- the user's callback in `response_written` -/
  | userWritten (ok : Bool)
  /-- `response_written` behind the user's callback, 177-192 -/
  | writtenEnd (cancelled ok : Bool)
  /-- `restart_read_request` -/
  | restart
deriving DecidableEq, Repr

structure State where
  w : World := {}
  stack : List Item := []
deriving DecidableEq, Repr

/-- What the stream does with a write: done at once, done later, refused at once.  (A write that is done at once may fail only behind a
part, buffered_stream.c 251-254; then the handler is called with the error.) -/
inductive Outcome where
  | now (ok : Bool) | later | refuse
deriving DecidableEq, Repr

/-- What `on_url` finds, http_server.c 484-516: the URL is malformed or has no path; no location matches; no handler was allocated; the handler has no
`free`; it has no callbacks; or all is well. -/
inductive Url where
  | bad | noLocation | noHandler | noFree | noCallbacks | ok
deriving DecidableEq, Repr

inductive Act where
  -- events
  | readData | readEof | readError | writeDone (ok : Bool) | requestTimeout | responseTimeout | released | userClose
  | userRespond (kind : Kind) (cb : Bool)
  -- http_parser, `call`: the handler has that callback
  | onUrl (u : Url) | onField (call : Bool) | onHeaders (keepAlive upgrade body call : Bool) | onBody (call : Bool) | onMessage (call : Bool)
  | parsed | syntaxError
  -- in `on_url`: another callback is called (`last`: `on_url` itself), or there is none left
  | urlCall (last : Bool) | urlDone
  -- user code
  | respond (kind : Kind) (cb : Bool) | close | ret (r : Ret)
  -- the library goes on
  | go
deriving DecidableEq, Repr

structure Choice where
  act : Act := .go
  /-- what the stream does with a write -/
  out : Outcome := .now true
  /-- timerfd_settime succeeds when a timer is armed -/
  arm : Bool := true
  /-- timerfd_settime succeeds when a timer is cancelled -/
  cancel : Bool := true
  /-- `cio_socket_close` waits for the peer, socket.c 348-351 -/
  linger : Bool := false
  /-- http_parser reports less bytes than it was given when a callback (but `on_headers_complete`) has returned an error -/
  short : Bool := true
deriving DecidableEq, Repr

def World.ev (w : World) (e : Ev) : World := { w with log := e :: w.log }

/-- `cio_timer_expires_from_now`, timer.c: the handler is set even if arming fails. -/
def Timer.arm (t : Timer) (ok : Bool) : Timer := if ok then { set := true, armed := true } else { t with set := true }

/-- `cio_timer_cancel`, timer.c: refused if no handler is set. -/
def Timer.cancel (t : Timer) (ok : Bool) : Timer × Bool :=
  if t.set && ok then ({}, true) else (t, false)

/-- `stream->close`, cio_socket_close, socket.c 337-355, and the release of the client by the hook. -/
def streamClose (w : World) (linger : Bool) : World :=
  if linger then { w with sock := .shutting, reading := false }
  else ({ w with sock := .freed, reading := false, writing := false }).ev .freed

/-- `cio_buffered_stream_close`, buffered_stream.c 356-369. -/
def bsClose (w : World) (linger : Bool) : World :=
  if w.running = 0 then streamClose w linger else { w with shallClose := true }

/-- `free_handler`, http_server.c 93-99. -/
def freeHandler (w : World) : World :=
  match w.handler with
  | some id => ({ w with handler := none }).ev (.handlerFree id)
  | none => w

/-- `close_client`, 107-112.  Closing the timers cancels them; `client_timeout_handler` does nothing when told so (127). -/
def closeClient (w : World) (linger : Bool) : World :=
  bsClose (freeHandler (({ w with reqT := {}, respT := {}, closes := w.closes + 1 }).ev .closing)) linger

/-- `mark_to_be_closed`, 114-121. -/
def mark (w : World) (linger : Bool) : World :=
  if w.parsing = 0 then closeClient w linger else { w with toBeClosed := true }

/-- `write_response`, 251-289: the world, what is to be done at once, and whether the caller gets CIO_SUCCESS. -/
def writeResponse (w : World) (kind : Kind) (cb : Bool) (c : Choice) : World × List Item × Bool :=
  if w.written then (w, [], false)
  else
    let w := { w with respCb := cb, fired := true, closeImm := w.closeImm || kind == Kind.closing, respT := w.respT.arm c.arm }
    if c.arm then
      let w := ({ w with written := true }).ev (.response kind)
      match c.out with
      | .now ok => (w, [.written ok], true)
      | .later => ({ w with writing := true }, [], true)
      | .refuse => (w, [], false)
    else (mark (w.ev .onError) c.linger, [], true)

/-- `write_response` and what most callers do if it fails: `mark_to_be_closed`, 128-132 and 341-344. -/
def respondOrMark (w : World) (c : Choice) : World × List Item :=
  match writeResponse w .closing false c with
  | (w, items, true) => (w, items)
  | (w, items, false) => (mark w c.linger, items)

/-- `write_response` of `parse`, 594-601: `close_client` if it fails. -/
def respondOrClose (w : World) (c : Choice) : World × List Item :=
  match writeResponse w .closing false c with
  | (w, items, true) => (w, items)
  | (w, items, false) => (closeClient w c.linger, items)

/-- A callback of the location handler, called through `client->current_handler`: 379, 436, 451, 399-406. -/
def callHandler (w : World) (cb : Cb) (item after : List Item) (call : Bool) (rest : List Item) : State :=
  if w.fired then ⟨w, after ++ rest⟩
  else if w.handler = none then ⟨{ w with ub := true }, []⟩
  else if call then ⟨w.ev (.callback cb), item ++ rest⟩
  else ⟨w, after ++ rest⟩

/-- A new handler, 503-513. -/
def newHandler (w : World) : World :=
  ({ w with handler := some w.allocs, allocs := w.allocs + 1 }).ev (.handlerAlloc w.allocs)

/-- `on_url`, 472-516. -/
def onUrl (w : World) (u : Url) (eof : Bool) (c : Choice) (rest : List Item) : State :=
  let w := { w with phase := .header, fieldCb := true }
  match u with
  | .bad => ⟨{ w with dead := true }, .tail eof c.short :: rest⟩
  | .noLocation =>
    let (w, items, _) := writeResponse { w with fieldCb := false } .plain false c
    ⟨w, items ++ .exec eof :: rest⟩
  | .noHandler | .noFree => ⟨w, .serverError :: .exec eof :: rest⟩
  | .noCallbacks => ⟨newHandler w, .serverError :: .exec eof :: rest⟩
  | .ok => ⟨newHandler w, .urlNext :: .exec eof :: rest⟩

/-- `on_headers_complete`, 355-381. -/
def onHeaders (w : World) (keepAlive upgrade body call eof : Bool) (c : Choice) (rest : List Item) : State :=
  let w := { w with phase := .body, upgrade := upgrade, keepAlive := keepAlive }
  let w := if !keepAlive && w.fired then mark w c.linger else w
  let (t, ok) := w.reqT.cancel c.cancel
  let w := { w with reqT := t }
  if ok then callHandler w .headers [.user .headers false body, .exec eof] [.headersEnd body, .exec eof] call rest
  else ⟨w, .serverError :: .exec eof :: rest⟩

/-- `on_message_complete`, 420-437. -/
def onMessage (w : World) (call eof : Bool) (c : Choice) (rest : List Item) : State :=
  let w := { w with phase := .done, skip := false }
  if w.upgrade then callHandler w .message [.user .message false false, .exec eof] [.messageEnd .success, .exec eof] call rest
  else
    let (t, ok) := w.reqT.cancel c.cancel
    let w := { w with reqT := t }
    if ok then
      callHandler { w with finish := .restart } .message [.user .message false false, .exec eof] [.messageEnd .success, .exec eof] call rest
    else ⟨w, .serverError :: .exec eof :: rest⟩

/-- http_parser calls back or is done. -/
def execStep (w : World) (eof : Bool) (c : Choice) (rest : List Item) : Option State :=
  if w.dead then some ⟨w, .tail eof (!eof) :: rest⟩
  else match c.act with
  | .onUrl u => if w.phase = .start ∨ w.phase = .done then some (onUrl w u eof c rest) else none
  | .onField call =>
    if !w.skip && (w.phase = .header ∨ w.phase = .body) then
      if w.fieldCb then
        -- `client->current_handler` is used before it is known whether a response was fired, 408-418
        if w.handler = none then some ⟨{ w with ub := true }, []⟩
        else some (callHandler w .field [.user .field false false, .exec eof] [.exec eof] call rest)
      else some ⟨w, .exec eof :: rest⟩
    else none
  | .onHeaders keepAlive upgrade body call =>
    if w.phase = .header then some (onHeaders w keepAlive upgrade body call eof c rest) else none
  | .onBody call =>
    if !w.skip && w.phase = .body then some (callHandler w .body [.user .body false false, .exec eof] [.exec eof] call rest) else none
  | .onMessage call => if w.phase = .body then some (onMessage w call eof c rest) else none
  | .parsed => if !w.skip then some ⟨w, .tail eof false :: rest⟩ else none
  | .syntaxError => if !w.skip then some ⟨{ w with dead := true }, .tail eof true :: rest⟩ else none
  | _ => none

/-- `parse` behind `http_parser_execute`, 587-614, and the functions it may go on with: `finish_request_line` 625-634, `finish_header_line` 617-623,
`finish_bytes` 347-353. -/
def tailStep (w : World) (eof bad : Bool) (c : Choice) (rest : List Item) : State :=
  let w := { w with parsing := w.parsing - 1 }
  if eof then ⟨closeClient w c.linger, rest⟩
  else if bad then
    let (w, items) := respondOrClose w c
    ⟨w, items ++ rest⟩
  else if w.toBeClosed then ⟨closeClient w c.linger, rest⟩
  else if w.upgrade then ⟨w, rest⟩
  else match w.finish with
    | .requestLine => ⟨{ w with finish := .headerLine, reading := true }, rest⟩
    | .headerLine | .bytes => ⟨{ w with reading := true }, rest⟩
    | .restart => ⟨w, .restart :: rest⟩

/-- `response_written`, 165-175. -/
def writtenStep (w : World) (ok : Bool) (c : Choice) (rest : List Item) : State :=
  let (t, cancelled) := w.respT.cancel c.cancel
  let w := { w with respT := t, completed := true }
  if w.respCb then ⟨w.ev .responseCb, .userWritten ok :: .writtenEnd cancelled ok :: rest⟩ else ⟨w, .writtenEnd cancelled ok :: rest⟩

/-- `response_written`, 177-192. -/
def writtenEndStep (w : World) (cancelled ok : Bool) (c : Choice) (rest : List Item) : State :=
  if !cancelled || !ok then ⟨w, .serverError :: rest⟩
  else if w.closeImm || !w.keepAlive then ⟨mark w c.linger, rest⟩
  else ⟨w, .restart :: rest⟩

/-- `restart_read_request`, 136-163. -/
def restartStep (w : World) (c : Choice) (rest : List Item) : State :=
  if w.reqComplete && w.completed then
    let w := freeHandler w
    let w := { w with reqT := w.reqT.arm c.arm }
    if c.arm then
      ⟨({ w with fired := false, reqComplete := false, written := false, completed := false, upgrade := false, phase := .start, dead := false, fieldCb := false,
                 finish := .requestLine, reading := true }).ev .restarted, rest⟩
    else ⟨w, .serverError :: rest⟩
  else ⟨w, rest⟩

/-- `on_headers_complete`, 383-395. -/
def headersEndStep (w : World) (body : Bool) (c : Choice) (rest : List Item) : State :=
  let w := { w with reqT := w.reqT.arm c.arm }
  if c.arm then ⟨{ w with finish := if body then .bytes else w.finish }, rest⟩ else ⟨w, .serverError :: rest⟩

/-- `parse`, 563-584, called by the buffered stream. -/
def parseStart (w : World) (eof : Bool) : State :=
  ⟨{ w with reading := false, running := w.running + 1, parsing := w.parsing + 1 }, [.exec eof, .bsRet]⟩

/-- What happens while the library is idle. -/
def eventStep (w : World) (c : Choice) : Option State :=
  match c.act with
  | .readData => if w.reading then some (parseStart w false) else none
  | .readEof => if w.reading then some (parseStart w true) else none
  | .readError => if w.reading then some ⟨{ w with reading := false, running := w.running + 1 }, [.serverError, .bsRet]⟩ else none
  | .writeDone ok => if w.writing then some ⟨{ w with writing := false }, [.written ok]⟩ else none
  | .requestTimeout =>
    if w.reqT.armed then
      let (w, items) := respondOrMark { w with reqT := {} } c
      some ⟨w, items⟩
    else none
  | .responseTimeout =>
    if w.respT.armed then
      let (w, items) := respondOrMark { w with respT := {} } c
      some ⟨w, items⟩
    else none
  | .released => if w.sock = .shutting then some ⟨({ w with sock := .freed, writing := false }).ev .freed, []⟩ else none
  | .userClose => if w.closes = 0 then some ⟨mark w c.linger, []⟩ else none
  -- `cio_http_client_write_response` called outside of the callbacks of the handler, as long as the handler lives
  | .userRespond kind hasCb =>
    if w.handler = none then none
    else
      let (w, items, _) := writeResponse w kind hasCb c
      some ⟨w, items⟩
  | _ => none

/-- A callback of the location handler goes on or returns. -/
def userStep (w : World) (cb : Cb) (last body : Bool) (c : Choice) (rest : List Item) : Option State :=
  match c.act with
  | .respond kind hasCb =>
    let (w, items, _) := writeResponse w kind hasCb c
    some ⟨w, items ++ .user cb last body :: rest⟩
  | .close => some ⟨mark w c.linger, .user cb last body :: rest⟩
  | .ret r =>
    match cb, rest with
    | .headers, .exec eof :: rest =>
      match r with
      | .success => some ⟨w, .headersEnd body :: .exec eof :: rest⟩
      | .skipBody => some ⟨{ w with skip := true }, .exec eof :: rest⟩
      | .error => some ⟨{ w with dead := true }, .tail eof true :: rest⟩
    | .message, rest => some ⟨w, .messageEnd r :: rest⟩
    | .url, .exec eof :: rest =>
      if r = .error ∨ (r = .skipBody ∧ last = true) then some ⟨{ w with dead := true }, .tail eof c.short :: rest⟩
      else if last then some ⟨w, .exec eof :: rest⟩
      else some ⟨w, .urlNext :: .exec eof :: rest⟩
    | _, .exec eof :: rest => if r = .success then some ⟨w, .exec eof :: rest⟩ else some ⟨{ w with dead := true }, .tail eof c.short :: rest⟩
    | _, _ => none
  | _ => none

/-- One step.  `none`: not possible. -/
def step (s : State) (c : Choice) : Option State :=
  if s.w.ub then none
  else match s.stack with
  | [] => eventStep s.w c
  | item :: rest =>
    -- every function on the stack uses the client
    if s.w.sock = .freed then some ⟨{ s.w with ub := true }, []⟩
    else match item with
    | .user cb last body => userStep s.w cb last body c rest
    | .userWritten ok =>
      match c.act with
      | .respond kind hasCb =>
        let (w, items, _) := writeResponse s.w kind hasCb c
        some ⟨w, items ++ .userWritten ok :: rest⟩
      | .close => some ⟨mark s.w c.linger, .userWritten ok :: rest⟩
      | .ret _ => some ⟨s.w, rest⟩
      | _ => none
    | .exec eof => execStep s.w eof c rest
    | .urlNext =>
      match c.act with
      | .urlCall last => if s.w.fired then none else some ⟨s.w.ev (.callback .url), .user .url last false :: rest⟩
      | .urlDone => some ⟨s.w, rest⟩
      | _ => none
    | .tail eof bad => some (tailStep s.w eof bad c rest)
    | .bsRet =>
      let w := { s.w with running := s.w.running - 1 }
      some ⟨if w.shallClose then streamClose w c.linger else w, rest⟩
    | .headersEnd body => some (headersEndStep s.w body c rest)
    | .messageEnd r =>
      if !s.w.written then some ⟨s.w, .serverError :: rest⟩
      else
        let w := { s.w with reqComplete := true }
        match r, rest with
        | .success, rest => some ⟨w, rest⟩
        | _, .exec eof :: rest => some ⟨{ w with dead := true }, .tail eof c.short :: rest⟩
        | _, _ => none
    | .serverError =>
      let (w, items) := respondOrMark (s.w.ev .onError) c
      some ⟨w, items ++ rest⟩
    | .written ok => some (writtenStep s.w ok c rest)
    | .writtenEnd cancelled ok => some (writtenEndStep s.w cancelled ok c rest)
    | .restart => some (restartStep s.w c rest)

/-- The connection behind a successful `handle_accept`, 651-721: the read of the first line is outstanding and supervised. -/
def init : State := ⟨{ reading := true, reqT := { set := true, armed := true } }, []⟩

/-- All choices possible, in order. -/
def run (s : State) : List Choice → Option State
  | [] => some s
  | c :: cs => match step s c with
    | some s' => run s' cs
    | none => none

end Cio.HttpLife
