import Verif.Common
/-
Model of the server sockets of the Windows port, /repo/lib/src/platform/windows/server_socket.c, for one server socket, together with what
the event loop does with its packets.

Winsock is the environment.  An accept that could be started ends at any later time, with a connection or with an error, and its packet is put
into the completion port then.  `CancelIo` makes an accept that has not ended yet end with WSA_OPERATION_ABORTED.  Descriptors made by
`WSASocketW` are numbered, and numbers are not used again.  Closing a descriptor that is not open is undefined (the number may belong to
somebody else by then).  `alloc_client` and `free_client` do not call functions of the server socket.  An accept is known by the descriptor it
accepts a connection on.
-/
namespace Cio.Windows.Accept

inductive Res where
  | ok
  | err (e : Err)          -- an error other than WSA_OPERATION_ABORTED, already negated
  | aborted
  deriving DecidableEq, Repr

/-- The `OVERLAPPED`: unused, used by the accept on descriptor `h`, or that accept has ended and its packet is in the completion port. -/
inductive Slot where
  | idle
  | pending (h : Nat)
  | done (h : Nat) (r : Res)
  deriving DecidableEq, Repr

inductive Obs where
  | bound                                     -- `cio_server_socket_bind` has succeeded
  | accepting                                 -- `cio_server_socket_accept` has succeeded
  | refused                                   -- one of them has failed
  | opened (h : Nat)                          -- a descriptor for a connection was made
  | arrived (h : Nat)                         -- winsock has accepted a connection on it
  | failed (h : Nat) (e : Err)                -- accepting on it has failed
  | told (h : Nat) (e : Err) (given : Bool)   -- the accept handler is called for it, with a socket or without one
  | closedH (h : Nat)                         -- it is closed by the server socket
  | close                                     -- `cio_server_socket_close` is called
  | closedFd                                  -- the listening descriptor is closed
  | hook                                      -- the close hook is called
  deriving DecidableEq, Repr

/-- `struct cio_windows_listen_socket` and what belongs to it: `fd`: the listening descriptor is open; `acc` is `accept_socket` (`none`:
INVALID_SOCKET); `inUse` is `overlapped_operations_in_use`; `opens` are the descriptors that are open; `next` is the number of the next descriptor;
`handler`: an accept handler was set; `alive`: the object exists (the close hook may free it); `user`: user code is running. -/
structure St where
  fd : Bool
  bound : Bool
  handler : Bool
  slot : Slot
  inUse : Nat
  acc : Option Nat
  opens : List Nat
  next : Nat
  alive : Bool
  user : Bool
  ub : Bool
  log : List Obs
  deriving DecidableEq, Repr

/-- How `prepare_accept_socket` goes. -/
inductive Prep where
  | ok
  | noSocket (e : Err)        -- WSASocketW fails
  | exFailed (e : Err)        -- AcceptEx fails
  deriving DecidableEq, Repr

/-- How the handling of a connection goes. -/
inductive Way where
  | noOption (e : Err)        -- setsockopt fails
  | noAccept (p : Prep)       -- the next accept cannot be prepared
  | noMemory                  -- `alloc_client` fails
  | noPort (e : Err)          -- the client cannot be added to the completion port
  | client
  deriving DecidableEq, Repr

inductive Move where
  | enter                              -- the event loop runs some other user code
  | leave                              -- user code returns
  | bind (ok : Bool)                   -- user code binds; `ok`: bind succeeds
  | accept (listen : Bool) (p : Prep)  -- user code accepts
  | close                              -- user code closes the server socket
  | arrive                             -- the pending accept ends with a connection
  | fail (e : Err)                     -- the pending accept fails
  | event (w : Way)                    -- the event loop takes out the packet
  deriving DecidableEq, Repr

/-- `closesocket` of descriptor `h`. -/
def closeHandle (s : St) (h : Nat) : St :=
  if h ∈ s.opens then { s with opens := s.opens.filter (· ≠ h), log := s.log ++ [.closedH h] } else { s with ub := true }

/-- `try_free`, server_socket.c 52-63. -/
def tryFree (s : St) : St :=
  if s.inUse = 0 then
    if s.fd = false then { s with ub := true }
    else if s.bound then { s with fd := false, log := s.log ++ [.closedFd] }
    else { s with fd := false, alive := false, log := s.log ++ [.closedFd, .hook] }
  else s

/-- `prepare_accept_socket`, server_socket.c 132-161.  Returns the error. -/
def prepare (s : St) (p : Prep) : St × Err :=
  match p with
  | .noSocket e => ({ s with acc := none }, e)
  | .exFailed e =>
    let s := { s with acc := some s.next, opens := s.next :: s.opens, next := s.next + 1, log := s.log ++ [.opened s.next] }
    (closeHandle s (s.next - 1), e)
  | .ok =>
    if s.slot ≠ .idle then ({ s with ub := true }, SUCCESS)
    else ({ s with acc := some s.next, opens := s.next :: s.opens, next := s.next + 1, slot := .pending s.next, inUse := s.inUse + 1,
                   log := s.log ++ [.opened s.next] }, SUCCESS)

/-- The call of the accept handler, server_socket.c 129. -/
def tell (s : St) (h : Nat) (e : Err) (given : Bool) : St :=
  if s.handler then { s with log := s.log ++ [.told h e given], user := true } else { s with ub := true }

/-- The part of `accept_callback` for a connection, server_socket.c 84-129; `c` is `client_fd`.  `setsockopt` fails for a descriptor that is not
open. -/
def connection (s : St) (h c : Nat) (w : Way) : St :=
  match w with
  | .noOption e => tell s h e false
  | .noAccept p => let r := prepare s p; tell r.1 h r.2 false
  | .noMemory => tell (closeHandle (prepare s .ok).1 c) h NO_MEMORY false
  | .noPort e => tell (closeHandle (prepare s .ok).1 c) h e false
  | .client => tell (prepare s .ok).1 h SUCCESS true

/-- `accept_callback`, server_socket.c 65-130. -/
def event (s : St) (h : Nat) (r : Res) (w : Way) : St :=
  let s := { s with slot := .idle, inUse := s.inUse - 1 }
  match r with
  | .aborted => tryFree { s with bound := false }
  | .err e => tell s h e false
  | .ok =>
    match s.acc with
    | none => { s with ub := true }
    | some c => connection s h c w

/-- A way that is possible: `setsockopt` fails for a descriptor that is not open; errors are not success. -/
def Way.possible (s : St) : Way → Bool
  | .noOption e => decide (e < 0)
  | .noAccept (.noSocket e) | .noAccept (.exFailed e) => decide (e < 0) && s.acc.any (· ∈ s.opens)
  | .noAccept .ok => false
  | .noMemory | .client => s.acc.any (· ∈ s.opens)
  | .noPort e => decide (e < 0) && s.acc.any (· ∈ s.opens)

/-- `CancelIo`. -/
def Slot.cancel : Slot → Slot
  | .pending h => .done h .aborted
  | x => x

/-- `close_listen_socket`, server_socket.c 163-171 (`cio_server_socket_close`, 281-284). -/
def close (s : St) : St :=
  let s := { s with slot := s.slot.cancel, log := s.log ++ [Obs.close] }
  tryFree (match s.acc with
    | none => s
    | some h => closeHandle s h)

/-- `cio_server_socket_accept`, server_socket.c 233-256. -/
def accept (s : St) (listen : Bool) (p : Prep) : St :=
  let s := { s with handler := true }
  if s.bound then
    if listen then
      let r := prepare s p
      if r.2 = SUCCESS then { r.1 with log := r.1.log ++ [.accepting] } else { r.1 with log := r.1.log ++ [.refused] }
    else { s with log := s.log ++ [.refused] }
  else { s with log := s.log ++ [.accepting] }

/-- `cio_server_socket_bind`, server_socket.c 265-279. -/
def bind (s : St) (ok : Bool) : St :=
  if ok then { s with bound := true, log := s.log ++ [.bound] } else { s with log := s.log ++ [.refused] }

/-- Errors are negative. -/
def Prep.possible : Prep → Bool
  | .ok => true
  | .noSocket e | .exFailed e => decide (e < 0)

/-- One step; `none` if the move is not possible. -/
def step (s : St) (m : Move) : Option St :=
  if s.ub then none
  else
    match m with
    | .enter => if s.user = false then some { s with user := true } else none
    | .leave => if s.user then some { s with user := false } else none
    | .bind ok => if s.user ∧ s.alive then some (bind s ok) else none
    | .accept l p => if s.user ∧ s.alive ∧ p.possible then some (accept s l p) else none
    | .close => if s.user ∧ s.alive then some (close s) else none
    | .arrive =>
      match s.slot with
      | .pending h => some { s with slot := .done h .ok, log := s.log ++ [.arrived h] }
      | _ => none
    | .fail e =>
      match s.slot with
      | .pending h => if e < 0 ∧ e ≠ OPERATION_ABORTED then some { s with slot := .done h (.err e), log := s.log ++ [.failed h e] } else none
      | _ => none
    | .event w =>
      match s.slot with
      | .done h r => if s.user = false ∧ (r = .ok → w.possible s) then some (if s.alive then event s h r w else { s with ub := true }) else none
      | _ => none

/-- After `cio_server_socket_init`, server_socket.c 173-231, has succeeded. -/
def initial : St :=
  { fd := true, bound := false, handler := false, slot := .idle, inUse := 0, acc := none, opens := [], next := 0, alive := true, user := false, ub := false, log := [] }

/-- A sequence of moves. -/
def run : St → List Move → Option St
  | s, [] => some s
  | s, m :: ms => (step s m).bind fun s => run s ms

end Cio.Windows.Accept
