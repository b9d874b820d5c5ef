import Verif.Common
/-
Model of the server sockets of the Zephyr port, /repo/lib/src/platform/zephyr/server_socket.c, for one server socket, together with what
the event loop does with its events.

The network stack of Zephyr calls `net_context_accept_cb` for each new connection (in a thread of its own, at any time) once
`net_context_accept` has succeeded, until the context is given back with `net_context_put`.  Connections are numbered in the order in
which they arrive.
-/
namespace Cio.Zephyr.Accept

inductive Obs where
  | accept (e : Err)                  -- `cio_server_socket_accept` returned `e`
  | arrived (c : Nat)                 -- the network stack reports connection `c`
  | failed (e : Err)                  -- the network stack reports a failure
  | handed (c : Nat)                  -- the accept handler is called with success and a socket for connection `c`
  | error (e : Err)                   -- the accept handler is called with an error and without a socket
  | dropped (c : Nat)                 -- connection `c` is given back to the network stack
  | closed                            -- the server socket is closed and the close hook is called
  deriving DecidableEq, Repr

/-- What is still to be done, innermost first. -/
inductive Item where
  | user                  -- user code
  | afterNoMemory         -- server_socket.c 105: `net_context_put(ss->impl.new_context)`
  deriving DecidableEq, Repr

/-- `struct cio_server_socket`: `newContext` and `acceptStatus` as in `impl`, `handler`: an accept handler is set, `listening`: the network stack
calls back, `removed`: the flag of the notifier, `queued`: messages in the queue of the event loop that point to the notifier. -/
structure St where
  handler : Bool
  newContext : Option Nat
  acceptStatus : Err
  listening : Bool
  removed : Bool
  queued : Nat
  alive : Bool
  next : Nat
  stack : List Item
  ub : Bool
  log : List Obs
  deriving DecidableEq, Repr

inductive Move where
  | enter                                             -- the event loop runs some other user code
  | leave                                             -- the user code on top of the stack returns
  | accept (listen : Err) (acceptOk : Bool)           -- user code waits for connections; results of net_context_listen, net_context_accept
  | arrive                                            -- a connection arrives
  | fail (e : Err)                                    -- the network stack reports an error
  | event (alloc : Bool)                              -- the event loop takes out a message of the socket; `alloc`: alloc_client succeeds
  | close                                             -- user code closes the server socket
  | continue                                          -- the library code on top of the stack goes on
  deriving DecidableEq, Repr

/-- `cio_server_socket_accept`, server_socket.c 133-152.  The result of `net_context_accept` is ignored. -/
def accept (s : St) (listen : Err) (acceptOk : Bool) : St :=
  let s := { s with handler := true }
  if listen < 0 then { s with log := s.log ++ [.accept listen] }
  else { s with listening := s.listening || acceptOk, log := s.log ++ [.accept SUCCESS] }

/-- `net_context_accept_cb`, server_socket.c 125-130. -/
def arrive (s : St) : St :=
  { s with newContext := some s.next, acceptStatus := SUCCESS, next := s.next + 1, queued := s.queued + 1, log := s.log ++ [.arrived s.next] }

/-- `net_context_accept_cb`, server_socket.c 122-124, 130. -/
def fail (s : St) (e : Err) : St :=
  { s with newContext := none, acceptStatus := e, queued := s.queued + 1, log := s.log ++ [.failed e] }

/-- `accept_callback`, server_socket.c 94-117; `cio_zephyr_socket_init` never fails (socket.c 258).  Handing out or giving back a context that
is not there is undefined. -/
def acceptCallback (s : St) (alloc : Bool) : St :=
  if s.acceptStatus ≠ SUCCESS then { s with log := s.log ++ [.error s.acceptStatus], stack := .user :: s.stack }
  else if alloc then
    match s.newContext with
    | none => { s with ub := true }
    | some c => { s with log := s.log ++ [.handed c], stack := .user :: s.stack }
  else { s with log := s.log ++ [.error NO_MEMORY], stack := .user :: .afterNoMemory :: s.stack }

/-- `cio_eventloop_run`, eventloop.c 54-57. -/
def event (s : St) (alloc : Bool) : St :=
  let s := { s with queued := s.queued - 1 }
  if s.alive = false then { s with ub := true }
  else if s.removed then s
  else if s.handler then acceptCallback s alloc
  else { s with ub := true }

/-- `cio_server_socket_close`, server_socket.c 154-162; the close hook may free the object. -/
def close (s : St) : St := { s with removed := true, listening := false, alive := false, log := s.log ++ [.closed] }

/-- server_socket.c 105. -/
def afterNoMemory (s : St) : St :=
  if s.alive = false then { s with ub := true }
  else
    match s.newContext with
    | none => { s with ub := true }
    | some c => { s with log := s.log ++ [.dropped c] }

/-- One step; `none` if the move is not possible.  User code only calls the functions while the server socket exists. -/
def step (s : St) (m : Move) : Option St :=
  if s.ub then none
  else
    match m, s.stack with
    | .arrive, _ => if s.listening then some (arrive s) else none
    | .fail e, _ => if s.listening && decide (e < 0) then some (fail s e) else none
    | .enter, [] => some { s with stack := [.user] }
    | .event alloc, [] => if s.queued = 0 then none else some (event s alloc)
    | .leave, .user :: k => some { s with stack := k }
    | .accept listen acceptOk, .user :: _ => if s.alive then some (accept s listen acceptOk) else none
    | .close, .user :: _ => if s.alive then some (close s) else none
    | .continue, .afterNoMemory :: k => some (afterNoMemory { s with stack := k })
    | _, _ => none

/-- `cio_server_socket_init`, server_socket.c 39-63, when it succeeds. -/
def initial : St :=
  { handler := false, newContext := none, acceptStatus := SUCCESS, listening := false, removed := false, queued := 0, alive := true, next := 0,
    stack := [], ub := false, log := [] }

/-- A sequence of moves. -/
def run : St → List Move → Option St
  | s, [] => some s
  | s, m :: ms => (step s m).bind fun s => run s ms

/-! `cio_zephyr_socket_create`, socket_utils.c 36-49, and the options: what the functions return. -/

/-- `cio_zephyr_socket_create`; `get` is the result of `net_context_get`.  AF_UNSPEC is 0. -/
def socketCreate (family : Nat) (get : Err) : Err :=
  if family = 0 then INVALID_ARGUMENT
  else if get < 0 then get
  else 0

end Cio.Zephyr.Accept
