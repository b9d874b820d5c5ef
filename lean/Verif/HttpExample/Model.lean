import Verif.HttpLife.Model
/-
Model of the example program /repo/examples/http_server.c: a server with the location "/foo", over the model of the life of a connection
(HttpLife/Model.lean).  The program decides what user code does there: which callbacks the handler has, what it responds, when it closes, and
what `on_error` does.  Everything else (the peers, the operating system) is chosen by the environment.

Simplifications: those of HttpLife; `main` up to `cio_eventloop_run` succeeds; what is printed is not modelled; `alloc_http_client`
does not fail, and setting up an accepted connection does not fail.
-/
namespace Cio.HttpExample
open HttpLife (State Choice Act Kind Item World)

/-- How far `dummy_on_message_complete`, examples/http_server.c 70-83, is: line 76, line 79, line 82. -/
inductive Pc where
  | respond | close | ret
  deriving DecidableEq, Repr

/-- A connection: `eof` says that its socket has seen the end of the stream (`peer_closed_connection`, lib socket.c 84). -/
structure Conn where
  st : State
  pc : Pc
  eof : Bool
  deriving DecidableEq, Repr

/-- What can happen next to a connection of this program.  The handler has no callback but `on_message_complete` (95-96);
the response is 200 without a callback (76); the program closes only if that is refused (77-80), and does nothing outside of the callback.
The sockets have a close timeout (53): closing waits for the peer unless it has closed (lib socket.c 343-351) or `shutdown_socket` fails. -/
def allowed (k : Conn) (c : Choice) : Bool :=
  (!c.linger || !k.eof) &&
  match k.st.stack with
  | [] =>
    match c.act with
    | .readData | .readEof | .readError | .writeDone _ | .requestTimeout | .responseTimeout | .released => true
    | _ => false
  | .exec _ :: _ =>
    match c.act with
    | .onUrl .noFree | .onUrl .noCallbacks => false
    | .onUrl _ | .parsed | .syntaxError => true
    | .onField call | .onBody call => !call
    | .onHeaders _ _ _ call => !call
    | .onMessage call => call
    | _ => false
  | .urlNext :: _ => c.act = .urlDone
  | .user .message _ _ :: _ =>
    match k.pc with
    | .respond => c.act = .respond .plain false
    | .close => c.act = .close
    | .ret => c.act = .ret .success
  | .user _ _ _ :: _ | .userWritten _ :: _ => false
  | _ => c.act = .go

/-- Where `dummy_on_message_complete` goes on, 76-82. -/
def nextPc (k : Conn) (c : Choice) : Pc :=
  match k.st.stack with
  | .user .message _ _ :: _ =>
    match k.pc with
    | .respond => if (HttpLife.writeResponse k.st.w .plain false c).2.2 then .ret else .close
    | _ => .ret
  | .exec _ :: _ => .respond
  | _ => k.pc

/-- One step of a connection. -/
def connStep (k : Conn) (c : Choice) : Option Conn :=
  if allowed k c then
    (HttpLife.step k.st c).map fun st => { st := st, pc := nextPc k c, eof := k.eof || c.act == .readEof }
  else none

/-- A connection that was just accepted. -/
def newConn : Conn := { st := HttpLife.init, pc := .respond, eof := false }

/-- The program. -/
structure Srv where
  conns : List Conn
  /-- calls of `cio_http_server_shutdown`: each closes the descriptor of the server socket, lib http_server.c 813-818 -/
  shutdowns : Nat
  /-- `http_server_closed` was called, 117-121: the event loop is cancelled -/
  cancelled : Bool
  /-- `cio_eventloop_run` has returned -/
  ended : Bool

inductive SAct where
  | accept                          -- a client connects
  | acceptError                     -- accept(2) fails: lib http_server.c 643-644
  | conn (i : Nat) (c : Choice)     -- something happens on connection `i`
  | signal                          -- SIGTERM or SIGINT, 123-127
  | stop                            -- the event loop finds that it was cancelled

/-- `serve_error`, 129-133, called `n` times. -/
def serveErrors (s : Srv) (n : Nat) : Srv :=
  { s with shutdowns := s.shutdowns + n, cancelled := s.cancelled || decide (0 < n) }

/-- How often `on_error` was called for a connection. -/
def errors (st : State) : Nat := st.w.log.count .onError

def step (s : Srv) (a : SAct) : Option Srv :=
  if s.ended then none
  else match a with
  | .accept => if s.shutdowns = 0 then some { s with conns := s.conns ++ [newConn] } else none
  | .acceptError => if s.shutdowns = 0 then some (serveErrors s 1) else none
  | .conn i c =>
    match s.conns[i]? with
    | none => none
    | some k =>
      match connStep k c with
      | none => none
      | some k' => some (serveErrors { s with conns := s.conns.set i k' } (errors k'.st - errors k.st))
  | .signal => some (serveErrors s 1)
  | .stop => if s.cancelled then some { s with ended := true } else none

def initial : Srv := { conns := [], shutdowns := 0, cancelled := false, ended := false }

def run : Srv → List SAct → Option Srv
  | s, [] => some s
  | s, a :: as => (step s a).bind fun s => run s as

end Cio.HttpExample
