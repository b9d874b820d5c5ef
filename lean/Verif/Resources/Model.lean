import Verif.Common
/-
Descriptors, epoll registrations and client memory: the functions that acquire them and their failure paths.

The operating system answers system calls one after the other with `ans`: success or an error, in any combination.  A new descriptor has a number that is
not in use.  Client objects are numbered in the same way.  Closing a descriptor that is not open, or releasing a client that is not allocated, is recorded in `bad`,
`free_client(NULL)` in `nullFreed`.

Simplifications: arguments and fields that do not influence which resources are held are left out; closing the stream of a client hands it over to the
socket, which closes the descriptor and its timer and releases the client (see `Socket`), recorded in `closing` until it happens (`closeSocket`); handlers set in a timer are not called
when it is closed (see `Timer`; `client_timeout_handler` does nothing then, http_server.c 127).
-/
namespace Cio.Resources

abbrev Fd := Nat
abbrev Err := Int

structure World where
  /-- answers of the operating system: `none` is success -/
  ans : Nat → Option Err
  /-- number of answers used -/
  used : Nat := 0
  /-- the next descriptor or object number -/
  next : Nat := 0
  opened : List Fd := []
  /-- registered at an epoll instance -/
  added : List Fd := []
  /-- client objects allocated and not released -/
  clients : List Nat := []
  /-- client objects whose stream was closed -/
  closing : List Nat := []
  /-- reads started for client objects -/
  reading : List Nat := []
  /-- timers running -/
  armed : List Fd := []
  /-- calls of the accept handler: the error, the client -/
  accepted : List (Option Err × Option Nat) := []
  /-- calls of `on_error` of the HTTP server -/
  errors : Nat := 0
  /-- calls of the close hook of the server socket -/
  hooks : Nat := 0
  /-- `free_client(NULL)` -/
  nullFreed : Nat := 0
  /-- the descriptor and the close timer in the socket of a client object -/
  sockOf : Nat → Option (Fd × Fd) := fun _ => none
  /-- the response timer and the request timer in a client object -/
  timersOf : Nat → Option (Fd × Fd) := fun _ => none
  /-- the server socket object is in memory -/
  server : Bool := true
  bad : Bool := false

/-- Computations that use system calls. -/
abbrev M (α : Type) := World → α × World

instance : Monad M where
  pure a := fun w => (a, w)
  bind m f := fun w => f (m w).1 (m w).2

/-- A system call that only succeeds or fails: listen, bind, setsockopt, timerfd_settime, epoll_ctl(MOD). -/
def sys : M (Option Err) := fun w => (w.ans w.used, { w with used := w.used + 1 })

/-- A system call that returns a new descriptor: socket, accept4, timerfd_create, epoll_create1, eventfd. -/
def sysOpen : M (Except Err Fd) := fun w =>
  match w.ans w.used with
  | some e => (.error e, { w with used := w.used + 1 })
  | none => (.ok w.next, { w with used := w.used + 1, next := w.next + 1, opened := w.next :: w.opened })

/-- `close`; the descriptor leaves the epoll instance as well. -/
def sysClose (fd : Fd) : M Unit := fun w =>
  if fd ∈ w.opened then ((), { w with opened := w.opened.erase fd, added := w.added.erase fd, armed := w.armed.erase fd })
  else ((), { w with bad := true })

/-- `cio_linux_eventloop_add`, epoll.c 115-127. -/
def loopAdd (fd : Fd) : M (Option Err) := fun w =>
  match w.ans w.used with
  | some e => (some e, { w with used := w.used + 1 })
  | none => (none, { w with used := w.used + 1, added := fd :: w.added })

/-- `cio_linux_eventloop_remove`, epoll.c 154-161: the error is ignored. -/
def loopRemove (fd : Fd) : M Unit := fun w => ((), { w with added := w.added.erase fd })

/-- `cio_eventloop_init`, epoll.c 67-105: the epoll instance and the event descriptor. -/
def eventloopInit : M (Except Err (Fd × Fd)) := do
  match ← sysOpen with
  | .error e => return .error e
  | .ok epoll =>
    match ← sysOpen with
    | .error e => do
      sysClose epoll
      return .error e
    | .ok ev =>
      match ← loopAdd ev with
      | some e => do
        sysClose ev
        sysClose epoll
        return .error e
      | none =>
        match ← sys with
        | some e => do
          loopRemove ev
          sysClose ev
          sysClose epoll
          return .error e
        | none => return .ok (epoll, ev)

/-- `cio_eventloop_destroy`, epoll.c 107-113. -/
def eventloopDestroy (l : Fd × Fd) : M Unit := do
  let _ ← sys
  loopRemove l.2
  sysClose l.2
  sysClose l.1

/-- `cio_timer_init`, timer.c 80-114. -/
def timerInit : M (Except Err Fd) := do
  match ← sysOpen with
  | .error e => return .error e
  | .ok fd =>
    match ← loopAdd fd with
    | some e => do
      sysClose fd
      return .error e
    | none =>
      match ← sys with
      | some e => do
        loopRemove fd
        sysClose fd
        return .error e
      | none => return .ok fd

/-- `cio_timer_expires_from_now`, timer.c 116-133. -/
def timerArm (fd : Fd) : M (Option Err) := fun w =>
  match w.ans w.used with
  | some e => (some e, { w with used := w.used + 1 })
  | none => (none, { w with used := w.used + 1, armed := fd :: w.armed })

/-- `cio_timer_close`, timer.c 152-163. -/
def timerClose (fd : Fd) : M Unit := do
  loopRemove fd
  sysClose fd

/-- `enum cio_address_family`. -/
inductive Family where
  | unspec | inet4 | inet6 | unix
deriving DecidableEq, Repr

/-- `cio_linux_socket_create`, socket_utils.c 40-63. -/
def socketCreate (family : Family) : M (Except Err Fd) :=
  match family with
  | .unspec => pure (.error (-22))
  | f => do
    match ← sysOpen with
    | .error e => return .error e
    | .ok fd =>
      if f = .inet6 then
        match ← sys with
        | some e => do
          sysClose fd
          return .error e
        | none => return .ok fd
      else return .ok fd

/-- `cio_linux_socket_init`, socket.c 241-275, for a descriptor that is open: the close timer. -/
def linuxSocketInit (fd : Fd) : M (Except Err Fd) := do
  match ← timerInit with
  | .error e => return .error e
  | .ok timer =>
    match ← loopAdd fd with
    | some e => do
      timerClose timer
      return .error e
    | none => return .ok timer

/-- `cio_socket_init`, socket.c 277-299: the socket and its close timer. -/
def socketInit (family : Family) : M (Except Err (Fd × Fd)) := do
  match ← socketCreate family with
  | .error e => return .error e
  | .ok fd =>
    match ← linuxSocketInit fd with
    | .error e => do
      sysClose fd
      return .error e
    | .ok timer => return .ok (fd, timer)

/-- `alloc_client` of the user. -/
def allocClient : M (Option Nat) := fun w =>
  match w.ans w.used with
  | some _ => (none, { w with used := w.used + 1 })
  | none => (some w.next, { w with used := w.used + 1, next := w.next + 1, clients := w.next :: w.clients })

/-- `free_client` of the user, for an object or for NULL. -/
def freeClient (c : Option Nat) : M Unit := fun w =>
  match c with
  | some c => if c ∈ w.clients then ((), { w with clients := w.clients.erase c }) else ((), { w with bad := true })
  | none => ((), { w with nullFreed := w.nullFreed + 1 })

/-- A field of the server socket is read. -/
def useServer : M Unit := fun w => if w.server then ((), w) else ((), { w with bad := true })

/-- The descriptor and the close timer are stored in the object. -/
def setSock (c : Nat) (v : Fd × Fd) : M Unit := fun w => ((), { w with sockOf := fun x => if x = c then some v else w.sockOf x })

/-- The timers are stored in the object. -/
def setTimers (c : Nat) (v : Option (Fd × Fd)) : M Unit := fun w => ((), { w with timersOf := fun x => if x = c then v else w.timersOf x })

/-- What `accept_callback` gives to its handler. -/
abbrev Handler := Option Err → Option Nat → M Unit

/-- CIO_NO_MEMORY, EAGAIN, EBADF. -/
def noMemory : Err := -12
def eAgain : Err := -11
def eBadF : Err := -9

/-- `accept_callback`, server_socket.c 50-88; `epollError`: what `cio_linux_get_socket_error` returns if epoll reported an error. -/
def acceptCallback (epollError : Option Err) (handler : Handler) : M Unit :=
  match epollError with
  | some e => handler (some e) none
  | none => do
    match ← sysOpen with
    | .error e => if e ≠ eAgain ∧ e ≠ eBadF then handler (some e) none else pure ()
    | .ok fd =>
      match ← allocClient with
      | none => do
        handler (some noMemory) none
        sysClose fd
      | some c =>
        match ← linuxSocketInit fd with
        | .ok timer => do
          setSock c (fd, timer)
          handler none (some c)
        | .error e => do
          handler (some e) none
          sysClose fd
          useServer
          freeClient (some c)

/-- A handler that only remembers what it was given. -/
def remember : Handler := fun e c w => ((), { w with accepted := (e, c) :: w.accepted })

/-- `handle_error` of the HTTP server, http_server.c 76-81. -/
def onError : M Unit := fun w => ((), { w with errors := w.errors + 1 })

/-- `stream->close` of a client, or `cio_buffered_stream_close` outside of callbacks. -/
def streamClose (c : Nat) : M Unit := fun w => ((), { w with closing := c :: w.closing })

/-- `cio_buffered_stream_read_until` of the first line. -/
def startRead (c : Nat) : M Unit := fun w => ((), { w with reading := c :: w.reading })

/-- `handle_accept`, http_server.c 636-721.  `cio_socket_get_io_stream(NULL)` is NULL since the stream is the first member of a socket, socket.h 79.
`size`: `client->buffer_size`.  The buffered stream and the read are not refused, their arguments are not null. -/
def handleAccept (size : Nat) : Handler := fun err socket =>
  match err, socket with
  | _, none => do
    onError
    freeClient none
  | some _, some c => do
    onError
    streamClose c
  | none, some c =>
    if size = 0 then do
      onError
      streamClose c
    else do
      match ← timerInit with
      | .error _ => do
        onError
        streamClose c
      | .ok response =>
        match ← timerInit with
        | .error _ => do
          timerClose response
          onError
          streamClose c
        | .ok request =>
          match ← timerArm request with
          | some _ => do
            timerClose request
            timerClose response
            onError
            streamClose c
          | none => do
            setTimers c (some (response, request))
            startRead c

/-- `close_client`, http_server.c 107-112: the timers are closed (and dead from now on), the stream is closed. -/
def closeClient (c : Nat) : M Unit := fun w =>
  match w.timersOf c with
  | none => ((), { w with bad := true })
  | some (response, request) =>
    (do
      timerClose request
      timerClose response
      setTimers c none
      streamClose c : M Unit) w

/-- The close of the socket of a client is completed: `close_socket`, socket.c 101-108, with `free_client` as hook. -/
def closeSocket (c : Nat) : M Unit := fun w =>
  match w.sockOf c with
  | none => ((), { w with bad := true })
  | some (fd, timer) =>
    (do
      loopRemove fd
      timerClose timer
      sysClose fd
      freeClient (some c)
      fun w => ((), { w with closing := w.closing.erase c }) : M Unit) w

/-- `cio_server_socket_init`, server_socket.c 90-113. -/
def serverSocketInit (family : Family) : M (Except Err Fd) := do
  match ← socketCreate family with
  | .error e => return .error e
  | .ok fd => return .ok fd

/-- `cio_server_socket_close`, server_socket.c 148-156. -/
def serverSocketClose (fd : Fd) : M Unit := do
  loopRemove fd
  sysClose fd
  fun w => ((), { w with hooks := w.hooks + 1 })

/-- `cio_server_socket_accept`, server_socket.c 115-146. -/
def serverSocketAccept (fd : Fd) : M (Option Err) := do
  match ← sys with
  | some e => return some e
  | none =>
    match ← loopAdd fd with
    | some e => return some e
    | none => sys

/-- `cio_server_socket_bind`, server_socket.c 185-210; `uds`: the endpoint is a file, which is removed first. -/
def serverSocketBind (uds : Bool) : M (Option Err) := do
  if uds then
    match ← sys with
    | some e => if e = -2 then sys else return some e
    | none => sys
  else sys

/-- `cio_http_server_init` behind its checks, http_server.c 746-775; `headerFits`: the keep-alive header fits into its buffer. -/
def serverInit (family : Family) (headerFits fastopen : Bool) : M (Option Err × Option Fd) := do
  if !headerFits then return (some (-105), none)
  match ← serverSocketInit family with
  | .error e => return (some e, none)
  | .ok fd =>
    if fastopen then do
      let r ← sys
      return (r, some fd)
    else return (none, some fd)

/-- `cio_http_server_serve`, http_server.c 777-799. -/
def serverServe (fd : Fd) (uds : Bool) : M (Option Err) := do
  match ← sys with
  | some e => do
    serverSocketClose fd
    return some e
  | none =>
    match ← serverSocketBind uds with
    | some e => do
      serverSocketClose fd
      return some e
    | none =>
      match ← serverSocketAccept fd with
      | some e => do
        serverSocketClose fd
        return some e
      | none => return none

/-- A handler that shuts the server down when accepting fails and releases the server in the close hook. -/
def shutDownOnError (fd : Fd) : Handler := fun e _ =>
  match e with
  | none => pure ()
  | some _ => do
    serverSocketClose fd
    fun w => ((), { w with server := false })

/-- What happens at a server: a connection arrives or accepting fails; a client is closed; the close of its socket is completed. -/
inductive Event where
  | accept (epollError : Option Err) (size : Nat)
  | close (c : Nat)
  | closed (c : Nat)

/-- An event is possible: clients are closed once and only if they are in use (see C26), sockets complete a close that was begun (see C33). -/
def possible (w : World) : Event → Prop
  | .accept _ _ => True
  | .close c => c ∈ w.reading ∧ c ∉ w.closing ∧ c ∈ w.clients
  | .closed c => c ∈ w.closing

/-- The code that runs. -/
def handle : Event → M Unit
  | .accept e size => acceptCallback e (handleAccept size)
  | .close c => closeClient c
  | .closed c => closeSocket c

/-- Histories of a server. -/
inductive Run : World → List Event → World → Prop where
  | nil (w) : Run w [] w
  | snoc {w es w'} (e) : Run w es w' → possible w' e → Run w (es ++ [e]) (handle e w').2

end Cio.Resources
