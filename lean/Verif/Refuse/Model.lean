import Verif.Common
/-
The argument checks at the start of the entry points of the library.

A pointer is an `Option`; reading a field through a null pointer is undefined behaviour (`none`).  The conditions are those of the code, in their order,
with the short-circuit evaluation of `||`.  What a function does behind its checks is modelled elsewhere; here it is one effect, `acted`: from there on
objects are written and handlers may be called.  Nothing is written and nothing is called before the checks.
-/
namespace Cio.Refuse

inductive Err where
  | success | invalidArgument | notPermitted | messageTooLong
deriving DecidableEq, Repr

/-- Something was written or called. -/
inductive Eff where
  | acted
deriving DecidableEq, Repr

/-- Effects so far; `none`: undefined behaviour. -/
abbrev M (α : Type) := List Eff → Option (α × List Eff)

/-- A condition; `none`: evaluating it is undefined behaviour. -/
abbrev Cond := Option Bool

/-- `a || b` -/
def orC (a : Cond) (b : Cond) : Cond :=
  match a with
  | none => none
  | some true => some true
  | some false => b

infixl:60 " |∨| " => orC

/-- `p == NULL` -/
def isNull {α : Type} (p : Option α) : Cond := some p.isNone

/-- `p->f` -/
def field {α : Type} (p : Option α) (f : α → Bool) : Cond := p.map f

/-- `if (c) { return e; } k` -/
def refuse (c : Cond) (e : Err) (k : M Err) : M Err := fun w =>
  match c with
  | none => none
  | some true => some (e, w)
  | some false => k w

/-- What comes behind the checks. -/
def act : M Err := fun w => some (.success, .acted :: w)

/-- A function or object of which nothing is read by the checks. -/
abbrev P := Option Unit

/-- `struct cio_read_buffer`: its size. -/
structure RBuf where
  size : Nat
deriving DecidableEq, Repr

/-- `struct cio_http_server_configuration`: what is checked. -/
structure Config where
  allocClient : P
  freeClient : P
  headerTimeout : Nat
  bodyTimeout : Nat
  responseTimeout : Nat
deriving DecidableEq, Repr

/-- `struct cio_socket_address`: the family is CIO_ADDRESS_FAMILY_UNSPEC. -/
structure Endpoint where
  unspec : Bool
deriving DecidableEq, Repr

/-- `struct cio_websocket`: which write jobs are busy (`wbh != NULL`). -/
structure Ws where
  message : Bool
  ping : Bool
  pong : Bool
  close : Bool
deriving DecidableEq, Repr

/-- A write buffer: the lengths of its elements. -/
abbrev WBuf := Option (List Nat)

/-- Calls.  Context pointers, which are never looked at, are left out. -/
inductive Call where
  | readBufferInit (rb data : P) (size : Nat)
  | bsInit (bs stream : P)
  | readAtLeast (bs : P) (buffer : Option RBuf) (num : Nat) (handler : P)
  | readUntil (bs : P) (buffer : Option RBuf) (delim : P) (handler : P)
  | readAtMost (bs : P) (buffer : Option RBuf) (num : Nat) (handler : P)
  | bsClose (bs : P)
  | bsWrite (bs buffer handler : P)
  | locationInit (location path handler : P)
  | serverInit (server loop : P) (config : Option Config)
  | registerLocation (server location : P)
  | wsInit (ws onConnect : P)
  | wsClose (ws : Option Ws) (handler : P)
  | wsRead (ws : Option Ws) (handler : P)
  | wsWrite (ws : Option Ws) (handler : P)
  | wsPing (ws : Option Ws) (payload : WBuf) (handler : P)
  | wsPong (ws : Option Ws) (payload : WBuf) (handler : P)
  | wsLocationInit (handler onConnect free : P)
  | bind (socket : P) (endpoint : Option Endpoint)
  | socketInit (socket loop : P)
  | socketClose (socket : P)
  | connect (socket : P) (endpoint : Option Endpoint)
  | streamRead (stream buffer handler : P)
  | streamWrite (stream buffer handler : P)
  | uartInit (port loop : P)
  | uartClose (port : P)
  | udsAddress (address : P) (path : Option (List UInt8))
  | inetAddress (address data : P) (length : Nat)
  | inetSocketAddress (address inet : P)

/-- `payload_size_in_limit`, websocket.c 371-388, for CIO_WEBSOCKET_SMALL_FRAME_SIZE = 125. -/
def inLimit (payload : WBuf) : Bool :=
  match payload with
  | some l => !decide (l.sum > 125)
  | none => true

/-- `write_ping_or_pong_message`, websocket.c 808-819. -/
def pingOrPong (busy : Bool) (payload : WBuf) (handler : P) : M Err :=
  refuse (isNull handler) .invalidArgument <|
  refuse (some (!inLimit payload)) .invalidArgument <|
  refuse (some busy) .notPermitted act

/-- `cio_websocket_init`, websocket.c 834-838. -/
def wsInit (ws onConnect : P) : M Err := refuse (isNull ws |∨| isNull onConnect) .invalidArgument act

/-- `path_length` and `max_path_length`, unix_address.c 53-60: the length of the string behind a leading NUL, or of the string; see `Address`. -/
def pathTooLong (path : List UInt8) : Bool :=
  match path with
  | 0 :: rest => decide (rest.length > 107)
  | p => decide (p.length > 107)

/-- The entry points up to the end of their checks. -/
def exec : Call → M Err
  -- cio_read_buffer_init, read_buffer.h 86-89
  | .readBufferInit rb data size => refuse (isNull rb |∨| isNull data |∨| some (size == 0)) .invalidArgument act
  -- cio_buffered_stream_init, buffered_stream.c 270-272
  | .bsInit bs stream => refuse (isNull bs |∨| isNull stream) .invalidArgument act
  -- cio_buffered_stream_read_at_least, buffered_stream.c 283-289
  | .readAtLeast bs buffer num handler =>
    refuse (isNull bs |∨| isNull handler |∨| isNull buffer) .invalidArgument <|
    refuse (field buffer fun b => decide (num > b.size)) .messageTooLong act
  -- cio_buffered_stream_read_until, buffered_stream.c 304-306
  | .readUntil bs buffer delim handler => refuse (isNull bs |∨| isNull buffer |∨| isNull handler |∨| isNull delim) .invalidArgument act
  -- cio_buffered_stream_read_at_most, buffered_stream.c 322-324
  | .readAtMost bs buffer _ handler => refuse (isNull bs |∨| isNull handler |∨| isNull buffer) .invalidArgument act
  -- cio_buffered_stream_close, buffered_stream.c 339-341
  | .bsClose bs => refuse (isNull bs) .invalidArgument act
  -- cio_buffered_stream_write, buffered_stream.c 354-356
  | .bsWrite bs buffer handler => refuse (isNull bs |∨| isNull buffer |∨| isNull handler) .invalidArgument act
  -- cio_http_location_init, http_location.c 37-39
  | .locationInit location path handler => refuse (isNull location |∨| isNull path |∨| isNull handler) .invalidArgument act
  -- cio_http_server_init, http_server.c 740-744
  | .serverInit server loop config =>
    refuse (isNull server |∨| isNull config |∨| isNull loop |∨| field config (·.allocClient.isNone) |∨| field config (·.freeClient.isNone) |∨|
      field config (·.headerTimeout == 0) |∨| field config (·.bodyTimeout == 0) |∨| field config (·.responseTimeout == 0)) .invalidArgument act
  -- cio_http_server_register_location, http_server.c 803-805
  | .registerLocation server location => refuse (isNull server |∨| isNull location) .invalidArgument act
  -- cio_websocket_server_init, cio_websocket_client_init, websocket.c 868-876
  | .wsInit ws onConnect => wsInit ws onConnect
  -- cio_websocket_close, websocket.c 880-886
  | .wsClose ws handler => refuse (isNull ws |∨| isNull handler) .invalidArgument <| refuse (field ws (·.close)) .notPermitted act
  -- cio_websocket_read_message, websocket.c 914-916
  | .wsRead ws handler => refuse (isNull ws |∨| isNull handler) .invalidArgument act
  -- cio_websocket_write_message_first_chunk, websocket.c 939-945
  | .wsWrite ws handler => refuse (isNull ws |∨| isNull handler) .invalidArgument <| refuse (field ws (·.message)) .notPermitted act
  -- cio_websocket_write_ping, cio_websocket_write_pong, websocket.c 986-1002
  | .wsPing ws payload handler => refuse (isNull ws) .invalidArgument fun w =>
    match ws with
    | none => none
    | some ws => pingOrPong ws.ping payload handler w
  | .wsPong ws payload handler => refuse (isNull ws) .invalidArgument fun w =>
    match ws with
    | none => none
    | some ws => pingOrPong ws.pong payload handler w
  -- cio_websocket_location_handler_init, websocket_location_handler.c 412-438: the handler is initialised before `on_connect` is checked
  | .wsLocationInit handler onConnect free => refuse (isNull handler |∨| isNull free) .invalidArgument fun w =>
    wsInit (some ()) onConnect (.acted :: w)
  -- cio_server_socket_bind, server_socket.c 187-193
  | .bind socket endpoint =>
    refuse (isNull socket |∨| isNull endpoint) .invalidArgument <| refuse (field endpoint (·.unspec)) .invalidArgument act
  -- cio_socket_init, socket.c 284-286
  | .socketInit socket loop => refuse (isNull socket |∨| isNull loop) .invalidArgument act
  -- cio_socket_close, socket.c 339-341
  | .socketClose socket => refuse (isNull socket) .invalidArgument act
  -- cio_socket_connect, socket.c 370-376
  | .connect socket endpoint =>
    refuse (isNull socket |∨| isNull endpoint) .invalidArgument <| refuse (field endpoint (·.unspec)) .invalidArgument act
  -- stream_read and stream_write of sockets, socket.c 163-165, 193-195, and UARTs, uart.c 90-92, 120-122
  | .streamRead stream buffer handler => refuse (isNull stream |∨| isNull buffer |∨| isNull handler) .invalidArgument act
  | .streamWrite stream buffer handler => refuse (isNull stream |∨| isNull buffer |∨| isNull handler) .invalidArgument act
  -- cio_uart_init, uart.c 269-271
  | .uartInit port loop => refuse (isNull port |∨| isNull loop) .invalidArgument act
  -- cio_uart_close, uart.c 340-342
  | .uartClose port => refuse (isNull port) .invalidArgument act
  -- cio_init_uds_socket_address, unix_address.c 49-63
  | .udsAddress address path =>
    refuse (isNull address |∨| isNull path) .invalidArgument <| refuse (field path pathTooLong) .invalidArgument act
  -- cio_init_inet_address, inet_address_impl.c 60-62
  | .inetAddress address data length =>
    refuse (isNull address |∨| isNull data |∨| some (length != 4 && length != 16)) .invalidArgument act
  -- cio_init_inet_socket_address, socket_address_impl.c 48-50
  | .inetSocketAddress address inet => refuse (isNull address |∨| isNull inet) .invalidArgument act

end Cio.Refuse
