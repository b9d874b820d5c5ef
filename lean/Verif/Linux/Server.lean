import Verif.Common
/-
Model of the listening sockets of the Linux port, /repo/lib/src/platform/linux/server_socket.c (50-156), for one server socket: a small-step machine with an explicit stack, like the
models of sockets and timers.  The operating system is a parameter: each move carries the results of the system calls it makes.  What becomes of the clients that are handed out is
the model `Cio.Socket`; what the callbacks do to the resources of a server is the model `Cio.Resources`.
-/
namespace Cio.Linux.Server

/-- CIO_NO_MEMORY and EEXIST. -/
def noMemory : Err := -12
def eExist : Err := -17

inductive Item where
  | user
  | drop (c : Nat)           -- accept_callback behind the handler, server_socket.c 76
  | dropAndFree (c : Nat)    -- accept_callback behind the handler, server_socket.c 84-85
  deriving DecidableEq, Repr

inductive Obs where
  | accepting                                    -- `cio_server_socket_accept` returned CIO_SUCCESS
  | refused (e : Err)                            -- it returned an error
  | arrived (c : Nat)                            -- accept4 returned a new descriptor
  | handler (e : Err) (client : Option Nat)      -- the accept handler is called, with a client that has this descriptor or without one
  | dropped (c : Nat)                            -- the descriptor of a connection is closed by server_socket.c
  | freed (c : Nat)                              -- `free_client` for a client that could not be initialised
  | closeCalled                                  -- `cio_server_socket_close`
  | fdClosed                                     -- close(2) of the listening descriptor
  | hook                                         -- the close hook is called
  deriving DecidableEq, Repr

/-- `struct cio_server_socket`: `inKernel`: its notifier is in the interest list of the epoll instance; `regIn`: EPOLLIN in `registered_events`, which the loop looks at; `alive`: the
object exists (the close hook may free it). -/
structure St where
  inKernel : Bool := false
  regIn : Bool := false
  alive : Bool := true
  next : Nat := 0
  stack : List Item := []
  ub : Bool := false
  log : List Obs := []
  deriving DecidableEq, Repr

/-- What accept4, `alloc_client` and `cio_linux_socket_init` do when the loop reports the socket as readable. -/
inductive Conn where
  | nothing                                    -- EAGAIN or EBADF
  | error (e : Err)                            -- another error of accept4
  | noMemory                                   -- a connection, but no memory
  | initFailed (e : Err)                       -- a connection and memory, the initialisation of the socket fails
  | client                                     -- a connection
  deriving DecidableEq, Repr

inductive Move where
  | enter
  | leave
  | accept (listen add reg : Option Err)       -- cio_server_socket_accept; the errors of listen and of the two `epoll_ctl`
  | close                                      -- cio_server_socket_close
  | event (r : Conn)                           -- the loop calls accept_callback
  | continue                                   -- accept_callback goes on behind its handler
  deriving DecidableEq, Repr

/-- `cio_server_socket_accept`, server_socket.c 115-146, with `cio_linux_eventloop_add` and `_register_read`, epoll.c 115-135: `add` resets `registered_events` before `epoll_ctl`, which
answers EEXIST if the descriptor is in the interest list already. -/
def accept (s : St) (listen add reg : Option Err) : St :=
  match listen with
  | some e => { s with log := s.log ++ [.refused e] }
  | none =>
    let s := { s with regIn := false }
    if s.inKernel then { s with log := s.log ++ [.refused eExist] }
    else
      match add with
      | some e => { s with log := s.log ++ [.refused e] }
      | none =>
        let s := { s with inKernel := true, regIn := true }
        match reg with
        | some e => { s with log := s.log ++ [.refused e] }
        | none => { s with log := s.log ++ [.accepting] }

/-- `cio_server_socket_close`, server_socket.c 148-156. -/
def close (s : St) : St :=
  { s with inKernel := false, alive := false, log := s.log ++ [.closeCalled, .fdClosed, .hook], stack := .user :: s.stack }

/-- `accept_callback` up to the call of its handler, server_socket.c 50-88 (the loop passes no errors to read callbacks). -/
def acceptCallback (s : St) : Conn → St
  | .nothing => s
  | .error e => { s with log := s.log ++ [.handler e none], stack := .user :: s.stack }
  | .noMemory => { s with next := s.next + 1, log := s.log ++ [.arrived s.next, .handler noMemory none], stack := .user :: .drop s.next :: s.stack }
  | .initFailed e => { s with next := s.next + 1, log := s.log ++ [.arrived s.next, .handler e none], stack := .user :: .dropAndFree s.next :: s.stack }
  | .client => { s with next := s.next + 1, log := s.log ++ [.arrived s.next, .handler SUCCESS (some s.next)], stack := .user :: s.stack }

/-- One step; `none` if the move is not possible.  User code only uses the socket while it exists. -/
def step (s : St) (m : Move) : Option St :=
  if s.ub then none
  else
    match m, s.stack with
    | .enter, [] => some { s with stack := [.user] }
    | .leave, .user :: k => some { s with stack := k }
    | .accept a b c, .user :: _ => if s.alive then some (accept s a b c) else none
    | .close, .user :: _ => if s.alive then some (close s) else none
    | .event r, [] => if s.inKernel && s.regIn then some (acceptCallback s r) else none
    | .continue, .drop c :: k => some { s with log := s.log ++ [.dropped c], stack := k }
    | .continue, .dropAndFree c :: k =>
      if s.alive then some { s with log := s.log ++ [.dropped c, .freed c], stack := k }
      else some { s with log := s.log ++ [.dropped c], stack := k, ub := true }
    | _, _ => none

/-- After `cio_server_socket_init`, server_socket.c 90-113. -/
def initial : St := {}

def run : St → List Move → Option St
  | s, [] => some s
  | s, m :: ms => (step s m).bind fun s => run s ms

end Cio.Linux.Server
