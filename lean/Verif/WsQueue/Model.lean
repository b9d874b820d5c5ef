import Verif.Common
/-
Model of the write-job queue, the closing handshake and the error handling of a WebSocket, /repo/lib/src/websocket.c (lines 61-110, 177-340, 361-369,
426-530, 565-578, 808-1003).

C functions that call back into user code, which may call the library again, are cut at the callbacks: what is still to be done after a callback
returns is an `Item` on an explicit stack, so a state is a world and a stack.  One `Choice` is consumed per step; it says what the outside does next:
the event that happens or the call the user makes, and what the transport does with a write started in that step.

Simplifications:
* the content of payloads is not modelled, only the lengths of the chain elements (content: `WsSend`, `Masking`), nor is what arrives, only what
  kind of frame it is (`WsRecv`);
* on_error and on_control get a pointer to a const websocket: they make no calls;
* the read handler makes no calls when it is told CIO_EOF by `close`, which is followed by the close hook;
* the transport is the Linux socket under a buffered stream: one registered write callback; a write is done at once, or later, or refused;
* `cio_buffered_stream_read_at_least` failing at once is seen as a read that fails next.
After the close hook has run the connection does not exist any more: the transport and the peer do nothing more, but the close timer may still fire.
-/
namespace Cio.WsQueue

/-- The four write jobs of a websocket, websocket.h: `write_message_job`, `write_ping_job`, `write_pong_job`, `write_close_job`. -/
inductive Kind where
  | message | ping | pong | close
deriving DecidableEq, Repr

/-- Result handed to a write handler: CIO_SUCCESS, an error of the transport, CIO_OPERATION_ABORTED. -/
inductive Res where
  | success | failed | aborted
deriving DecidableEq, Repr

/-- An element of a write buffer: the `websocket_header` of the job or one of the user's, by its length. -/
inductive Elem where
  | hdr | usr (length : Nat)
deriving DecidableEq, Repr

/-- `job->handler`: NULL, a handler of the user (one ticket for each accepted call), `pong_frame_written`, the handler of a call of
`cio_websocket_close` that was refused after the job had been filled in. -/
inductive Handler where
  | null | user (ticket : Nat) | pongWritten | stale
deriving DecidableEq, Repr

/-- `job->stream_handler`. -/
inductive StreamHandler where
  | messageWritten | closeWritten | closeWrittenImmediate | responseCloseWritten
deriving DecidableEq, Repr

/-- `struct cio_websocket_write_job`, websocket.h. -/
structure Job where
  wbh : Option (List Elem) := none
  handler : Handler := .null
  streamHandler : StreamHandler := .messageWritten
  cont : Bool := false
  opcode : Nat := 0
  lastFrame : Bool := false
  next : Option Kind := none

/-- What can be observed. -/
inductive Ev where
  /-- a write of the user was accepted and got this ticket -/
  | accepted (ticket : Nat) (kind : Kind) (payload : List Nat) (cont : Bool) (opcode : Nat) (fin : Bool) (frameLength : Nat)
  /-- a call of the user was refused by an argument check or because the job is in use -/
  | refused
  /-- a frame (or a further chunk of one, `cont`) was given to the transport: opcode, fin, announced length, chain behind the header -/
  | sent (kind : Kind) (handler : Handler) (cont : Bool) (opcode : Nat) (fin : Bool) (announced : Nat) (payload : List Elem)
  /-- the handler of a write is called; `chain` is what the user's write buffer contains at that time
  (`[]` for a close frame, which the user gives no buffer for, that was sent) -/
  | completed (ticket : Nat) (res : Res) (chain : List Elem)
  | onError
  /-- `close`: the read handler gets CIO_EOF, the close hook runs -/
  | closed
deriving DecidableEq, Repr

structure World where
  jobs : Kind → Job := fun _ => {}
  first : Option Kind := none
  last : Option Kind := none
  closedByError : Bool := false
  selfClose : Bool := false
  fragmentedWrite : Bool := true
  /-- the close timer is armed -/
  timer : Bool := false
  /-- the socket has a write callback registered -/
  pend : Bool := false
  /-- `buffered_stream->write_handler` -/
  bsHandler : StreamHandler := .messageWritten
  /-- a read is outstanding at the buffered stream -/
  reading : Bool := false
  /-- (not in the code) the user may call `read_message`: initially, and when he has got data -/
  turn : Bool := true
  /-- (not in the code) number of calls accepted -/
  tickets : Nat := 0
  closes : Nat := 0
  /-- undefined behaviour -/
  ub : Bool := false
  /-- newest first -/
  log : List Ev := []

/-- What is still to be done when the code above on the stack has returned. -/
inductive Item where
  /-- the user's code, in a write handler that was told of an error (`true`) or in a handler that was not -/
  | user (err : Bool)
  /-- the buffered stream delivers what it has, in a call of `read_at_least` -/
  | input
  /-- `message_written` behind the call of the handler, websocket.c 298-304 -/
  | sendNext (firstJob : Option Kind)
  /-- the loop of `abort_write_jobs` -/
  | abort
  /-- `handle_error` behind `abort_write_jobs`, websocket.c 271-276 -/
  | errClose
  /-- `close_frame_written` behind `abort_write_jobs`, websocket.c 327-329 -/
  | callClose (res : Res)
  /-- `close` -/
  | closeNow
deriving DecidableEq, Repr

structure State where
  w : World := {}
  stack : List Item := []

/-- What the transport does with a write: done at once with this result, done later, refused at once. -/
inductive Outcome where
  | now (res : Res) | later | refuse
deriving DecidableEq, Repr

inductive Call where
  | first (frameLength : Nat) (payload : List Nat) (lastFrame binary : Bool)
  | cont (payload : List Nat)
  | ping (payload : List Nat)
  | pong (payload : List Nat)
  | close (reasonLength : Nat) (timerOk : Bool)
  | read
deriving DecidableEq, Repr

inductive Act where
  | call (c : Call)
  | ret
  /-- the socket's write callback -/
  | written (res : Res)
  | gotData | gotPing (length : Nat) | gotPong
  /-- a close frame with acceptable body, whose length behind the status code is this -/
  | gotClose (reasonLength : Nat)
  /-- read error, end of stream or malformed frame -/
  | fail
  | timer
deriving DecidableEq, Repr

structure Choice where
  act : Act
  tr : Outcome := .later

/-! ### Helpers -/

def setJob (w : World) (k : Kind) (j : Job) : World := { w with jobs := fun k' => if k' = k then j else w.jobs k' }

def total (chain : List Elem) : Nat := (chain.map fun | .hdr => 0 | .usr n => n).sum

def log (w : World) (e : Ev) : World := { w with log := e :: w.log }

def fault (s : State) : State := { s with w := { s.w with ub := true } }

/-! ### The code -/

/-- `dequeue_job`, websocket.c 195-209. -/
def dequeue (w : World) : Option (Kind × World) :=
  match w.first with
  | none => none
  | some k => some (k, { w with first := if w.first = w.last then none else (w.jobs k).next })

/-- `handle_error`, websocket.c 262-270; the rest of it is `errClose`. -/
def handleError (w : World) (stack : List Item) : State :=
  if w.closedByError then ⟨w, stack⟩
  else ⟨log { w with closedByError := true } .onError, .abort :: .errClose :: stack⟩

/-- `pong_frame_written`, websocket.c 478-492: reading is resumed. -/
def pongWritten (w : World) (res : Res) (stack : List Item) : State :=
  if res ≠ .success then handleError w stack else ⟨{ w with reading := true }, .input :: stack⟩

/-- The call of `job->handler`; `chain` is the content of the chain. -/
def callHandler (w : World) (h : Handler) (res : Res) (chain : List Elem) (stack : List Item) : State :=
  match h with
  | .null => ⟨w, stack⟩
  | .user t => ⟨log w (.completed t res chain), .user (res ≠ .success) :: stack⟩
  | .pongWritten => pongWritten w res stack
  | .stale => fault ⟨w, stack⟩

/-- The stream handler runs: `message_written` 289-305, `response_close_frame_written` 307-317, `close_frame_written` 319-330,
`close_frame_written_immediate_close` 332-337, all of which start with `write_jobs_popfront` 280-287. -/
def onWritten (w : World) (res : Res) (stack : List Item) : State :=
  match dequeue w with
  | none => fault ⟨w, stack⟩
  | some (k, w) =>
    let chain := ((w.jobs k).wbh.getD []).drop 1
    let w := setJob w k { w.jobs k with wbh := none }
    match w.bsHandler with
    | .messageWritten =>
      if (w.jobs k).handler = .null then fault ⟨w, stack⟩
      else callHandler w (w.jobs k).handler res chain (.sendNext w.first :: stack)
    | .closeWritten => ⟨w, .abort :: .callClose res :: stack⟩
    | .closeWrittenImmediate => ⟨w, .abort :: .callClose res :: .closeNow :: stack⟩
    | .responseCloseWritten => ⟨w, .abort :: .closeNow :: stack⟩

/-- `send_frame`, websocket.c 117-175, and what the transport does with it; the flag is the result of `send_frame`. -/
def sendFrame (w : World) (k : Kind) (len : Nat) (tr : Outcome) (stack : List Item) : State × Bool :=
  match (w.jobs k).wbh with
  | none => (fault ⟨w, stack⟩, true)
  | some chain =>
    let j := w.jobs k
    let w := setJob w k { j with wbh := some (if j.cont then chain else .hdr :: chain) }
    let w := { w with bsHandler := j.streamHandler }
    let e := Ev.sent k j.handler j.cont j.opcode j.lastFrame (if j.cont then 0 else len) chain
    match tr with
    | .now res => (onWritten (log w e) res stack, true)
    | .later => (⟨log { w with pend := true } e, stack⟩, true)
    | .refuse => (⟨w, stack⟩, false)

/-- `enqueue_job`, websocket.c 177-193. -/
def enqueue (w : World) (k : Kind) (len : Nat) (tr : Outcome) (stack : List Item) : State × Bool :=
  match w.first with
  | none =>
    let (s, ok) := sendFrame { w with first := some k, last := some k } k len tr stack
    if ok then (s, true) else (handleError s.w s.stack, false)
  | some _ =>
    match w.last with
    | none => (fault ⟨w, stack⟩, true)
    | some l =>
      let w := setJob w l { w.jobs l with next := some k }
      (⟨{ w with last := some k }, stack⟩, true)

/-- `prepare_close_job`, websocket.c 225-248: the chain is one buffer with the status code and the reason, at most 125 bytes. -/
def prepareClose (w : World) (reasonLength : Nat) (h : Handler) (sh : StreamHandler) : World :=
  setJob w .close { w.jobs .close with
    wbh := some [.usr (2 + min reasonLength 123)], handler := h, streamHandler := sh, opcode := 8, lastFrame := true }

/-- The length of the reason given by `handle_error` (all its texts are shorter than 124 bytes). -/
def errReason : Nat := 20

/-- A call of the user, websocket.c 808-1003. -/
def doCall (w : World) (c : Call) (tr : Outcome) (stack : List Item) : State :=
  match c with
  | .first frameLength payload lastFrame binary =>
    if (w.jobs .message).wbh.isSome then ⟨log w .refused, stack⟩
    else
      let opcode := if w.fragmentedWrite then if binary then 2 else 1 else 0
      let frag := if w.fragmentedWrite then if lastFrame then w.fragmentedWrite else false else if lastFrame then true else w.fragmentedWrite
      let w := setJob { w with fragmentedWrite := frag } .message { w.jobs .message with
        wbh := some (payload.map .usr), handler := .user w.tickets, opcode := opcode, lastFrame := lastFrame, streamHandler := .messageWritten, cont := false }
      let w := log { w with tickets := w.tickets + 1 } (.accepted w.tickets .message payload false opcode lastFrame frameLength)
      (enqueue w .message frameLength tr stack).1
  | .cont payload =>
    let w := setJob w .message { w.jobs .message with
      wbh := some (payload.map .usr), handler := .user w.tickets, streamHandler := .messageWritten, cont := true }
    let w := log { w with tickets := w.tickets + 1 }
      (.accepted w.tickets .message payload true (w.jobs .message).opcode (w.jobs .message).lastFrame 0)
    (enqueue w .message 0 tr stack).1
  | .ping payload =>
    if payload.sum > 125 then ⟨log w .refused, stack⟩
    else if (w.jobs .ping).wbh.isSome then ⟨log w .refused, stack⟩
    else
      let w := setJob w .ping { w.jobs .ping with
        wbh := some (payload.map .usr), handler := .user w.tickets, opcode := 9, lastFrame := true, streamHandler := .messageWritten }
      let w := log { w with tickets := w.tickets + 1 } (.accepted w.tickets .ping payload false 9 true payload.sum)
      (enqueue w .ping payload.sum tr stack).1
  | .pong payload =>
    if payload.sum > 125 then ⟨log w .refused, stack⟩
    else if (w.jobs .pong).wbh.isSome then ⟨log w .refused, stack⟩
    else
      let w := setJob w .pong { w.jobs .pong with
        wbh := some (payload.map .usr), handler := .user w.tickets, opcode := 10, lastFrame := true, streamHandler := .messageWritten }
      let w := log { w with tickets := w.tickets + 1 } (.accepted w.tickets .pong payload false 10 true payload.sum)
      (enqueue w .pong payload.sum tr stack).1
  | .close reasonLength timerOk =>
    if (w.jobs .close).wbh.isSome then ⟨log w .refused, stack⟩
    else if timerOk = false then ⟨log (prepareClose w reasonLength .stale .closeWritten) .refused, stack⟩
    else
      let w := prepareClose w reasonLength (.user w.tickets) .closeWritten
      let w := log { w with tickets := w.tickets + 1, timer := true, selfClose := true }
        (.accepted w.tickets .close [2 + min reasonLength 123] false 8 true (2 + min reasonLength 123))
      (enqueue w .close (2 + min reasonLength 123) tr stack).1
  | .read => ⟨{ w with reading := true, turn := false }, .input :: stack⟩

/-- Something arrives at an outstanding read: `handle_ping_frame` 494-516, `handle_pong_frame` 518-529, `handle_close_frame` 455-475,
`handle_error` by a malformed frame or by `handled_read_error` 565-578. -/
def arrive (w : World) (a : Act) (tr : Outcome) (stack : List Item) : State :=
  match a with
  | .gotData => ⟨{ w with reading := false, turn := true }, .user false :: stack⟩
  | .gotPing length =>
    let w := setJob { w with reading := false } .pong { w.jobs .pong with
      wbh := some (if length > 0 then [.usr length] else []), handler := .pongWritten, opcode := 10, lastFrame := true, streamHandler := .messageWritten }
    (enqueue w .pong length tr stack).1
  | .gotPong => ⟨w, stack⟩
  | .gotClose reasonLength =>
    let w := { w with reading := false }
    if w.selfClose then ⟨{ w with timer := false }, .closeNow :: stack⟩
    else
      let w := prepareClose w reasonLength .null .responseCloseWritten
      (enqueue w .close (2 + min reasonLength 123) tr stack).1
  | .fail => handleError { w with reading := false } stack
  | _ => ⟨w, stack⟩

/-- One step. -/
def step (s : State) (c : Choice) : State :=
  if s.w.ub then s
  else
    match s.stack with
    | [] =>
      match c.act with
      | .timer =>
        -- `close_timeout_handler`, websocket.c 361-369
        if s.w.timer then ⟨{ s.w with timer := false }, [.closeNow]⟩ else s
      | .written res => if s.w.pend ∧ s.w.closes = 0 then onWritten { s.w with pend := false } res [] else s
      | .call call => if s.w.closes = 0 then doCall s.w call c.tr [] else fault s
      | .ret => s
      | a => if s.w.reading ∧ s.w.closes = 0 then arrive s.w a c.tr [] else s
    | .user err :: rest =>
      match c.act with
      | .ret => ⟨s.w, rest⟩
      | .call call => if s.w.closes = 0 then doCall s.w call c.tr (.user err :: rest) else fault s
      | _ => s
    | .input :: rest =>
      match c.act with
      | .ret => ⟨s.w, rest⟩
      | .call _ => s
      | .written _ => s
      | .timer => s
      | a => if s.w.reading ∧ s.w.closes = 0 then arrive s.w a c.tr (.input :: rest) else s
    | .sendNext none :: rest => ⟨s.w, rest⟩
    | .sendNext (some k) :: rest =>
      if s.w.closes > 0 then fault s
      else
        match (s.w.jobs k).wbh with
        | none => fault s
        | some chain =>
          let (s', ok) := sendFrame s.w k (total chain) c.tr rest
          if ok then s' else handleError s'.w s'.stack
    | .abort :: rest =>
      if s.w.closes > 0 then fault s
      else
        match dequeue s.w with
        | none => ⟨s.w, rest⟩
        | some (k, w) =>
          callHandler (setJob w k { w.jobs k with wbh := none }) (w.jobs k).handler .aborted ((w.jobs k).wbh.getD []) (.abort :: rest)
    | .errClose :: rest =>
      if s.w.closes > 0 then fault s
      else
        let (s', ok) := enqueue (prepareClose s.w errReason .null .closeWrittenImmediate) .close (2 + errReason) c.tr rest
        if ok then s' else { s' with stack := .closeNow :: s'.stack }
    | .callClose res :: rest =>
      if s.w.closes > 0 then fault s
      else callHandler s.w (s.w.jobs .close).handler res [] rest
    | .closeNow :: rest => ⟨log { s.w with closes := s.w.closes + 1 } .closed, rest⟩

def run (s : State) (cs : List Choice) : State := cs.foldl step s

end Cio.WsQueue
