import Verif.StreamSocket.Props
/-
The echo server of /repo/examples/socket_ping_pong.c (101-181; examples/linux/uds_socket_ping_pong.c has the same functions) as an application of a buffered stream on a Linux socket (model
`Cio.StreamSocket`): it reads `sizeof(HELLO)` bytes, writes them back from where they are in the read buffer, consumes them and reads again.  The model of the stream leaves open what the
application does; here it is fixed.  `unit` is `sizeof(HELLO)`, 6 in the example, and the read buffer has 128 bytes there.

Simplification (of `Cio.StreamSocket`): what is written from within the read handler is written when that handler has returned.
-/
namespace Cio.Echo
open BufferedRead (UAct Handler Job)
open StreamSocket (Sys Ev Write step Allowed)

/-- What the server does next. -/
inductive Phase where
  | start                          -- the connection has been accepted
  | reading
  | toWrite (d : List UInt8)       -- `server_handle_read` was told of success and is going to write
  | writing
  | toConsume                      -- `server_handle_write` was told of success
  | toRead                         -- it has consumed
  | stopped                        -- `server_handle_read` was told of an error and has closed the stream, or `server_handle_write` was told of one or was never called
  deriving DecidableEq

/-- What `server_handle_read` does on the read side, socket_ping_pong.c 121-142: close on errors. -/
def readHandler : Handler := fun w =>
  match w.calls.getLast? with
  | some c => if c.err = SUCCESS then [] else [.close]
  | none => []

/-- The address of the element `client->wb`. -/
def elem : Nat := 1

/-- How the server goes on when a write is over, socket_ping_pong.c 103-119 and 141: nothing happens if `cio_buffered_stream_write` returns an error or the handler is told of one. -/
def afterWrite (x : Write) : Phase :=
  match x.world.calls.getLast? with
  | some (e, _) => if e = SUCCESS then .toConsume else .stopped
  | none => .stopped

/-- The program: which event may come next, and how it goes on.  `handle_accept` (144-181) starts the first read, `server_handle_read` (121-142) writes what it was given, `server_handle_write`
(103-119) consumes it and reads again; a function that has something left to do does not return. -/
def next (unit : Nat) (p : Phase) (s s' : Sys) : Ev → Option Phase
  | .enter => if p = .start then some p else none
  | .leave => if p = .reading ∨ p = .writing ∨ p = .stopped then some p else none
  | .user a _ =>
    match p, a with
    | .start, .read (.atLeast n) => if n = unit then some .reading else none
    | .toConsume, .consume n => if n = unit then some .toRead else none
    | .toRead, .read (.atLeast n) => if n = unit then some .reading else none
    | _, _ => none
  | .loop _ =>
    if s'.br.calls.length = s.br.calls.length then some p
    else
      match s'.br.calls.getLast? with
      | some c => if c.err = SUCCESS then some (.toWrite (c.view.take c.num)) else some .stopped
      | none => none
  | .write chain =>
    match p with
    | .toWrite d => if chain = [⟨elem, d⟩] then some .writing else none
    | _ => none
  | .send _ | .writable _ =>
    if s'.done.length = s.done.length then some p
    else
      match s'.done.getLast? with
      | some x => some (afterWrite x)
      | none => none
  | _ => some p

/-- The executions of the server on a connection: the system can do the step, the operating system keeps to `Allowed`, and the program does this next. -/
inductive Reach (unit : Nat) (quiet closeTimeout : Bool) (mem : List UInt8) : Phase → Sys → Prop
  | init : Reach unit quiet closeTimeout mem .start (StreamSocket.initial closeTimeout mem)
  | step {p p' : Phase} {s s' : Sys} {e : Ev} (h : Reach unit quiet closeTimeout mem p s) (ha : Allowed quiet s e) (hs : step readHandler s e = some s')
    (hp : next unit p s s' e = some p') : Reach unit quiet closeTimeout mem p' s'

end Cio.Echo
