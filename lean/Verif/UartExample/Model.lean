import Verif.Common
/-
The program /repo/examples/uart_ping_pong.c up to its event loop: what it takes (memory, ports, the event loop), what it gives back, and which stream its two clients have, as a function of the answers
of everything it calls.

Simplifications: what is printed is left out; `setup_uart` (117-157) is one answer until its stream is there, as are the two functions called by `setup_client` (198-212).
-/
namespace Cio.UartExample

/-- The two UARTs of the program. -/
inductive Side where
  | first | second
  deriving DecidableEq, Repr

/-- Memory: the array of `detect_uart` (169), the copy it returns (183). -/
inductive Block where
  | array (s : Side)
  | uart (s : Side)
  deriving DecidableEq, Repr

inductive Obs where
  | sigDefault                -- `signal(SIGTERM, SIG_DFL)`, uart_ping_pong.c 222
  | loopInit | loopDestroy
  | alloc (b : Block) | free (b : Block)
  | opened (s : Side) | closed (s : Side)
  | read (s : Side)           -- a read was started on this UART
  | write (s : Side)          -- a write was started on this UART
  | run                       -- `cio_eventloop_run`
  deriving DecidableEq, Repr

/-- What the calls in `detect_uart` answer. -/
structure Detect where
  number : Nat                        -- `cio_uart_get_number_of_uarts`
  array : Bool                        -- the first `malloc`
  ports : Option (List String)        -- `cio_uart_get_ports`: the names, or an error
  copy : Bool                         -- the second `malloc`

/-- `detect_uart`, uart_ping_pong.c 159-196; the answer: whether a UART was found and copied. -/
def detect (s : Side) (name : String) (d : Detect) : List Obs × Bool :=
  if d.number < 2 then ([], false)
  else if d.array = false then ([], false)
  else match d.ports with
    | none => ([.alloc (.array s), .free (.array s)], false)
    | some ps =>
      match ps.find? fun p => p = name with
      | none => ([.alloc (.array s), .free (.array s)], false)
      | some _ => if d.copy = false then ([.alloc (.array s), .free (.array s)], false) else ([.alloc (.array s), .alloc (.uart s)], true)

structure Answers where
  sigterm : Bool
  sigint : Bool
  loopInit : Bool
  number : Nat
  d1 : Detect
  init1 : Bool               -- `cio_uart_init` of what `detect_uart` found
  setup1 : Bool              -- `setup_uart`
  client1 : Bool             -- `setup_client`
  read1 : Bool               -- `cio_buffered_stream_read_at_least`
  d2 : Detect
  init2 : Bool
  setup2 : Bool
  client2 : Bool
  write2 : Bool              -- `cio_buffered_stream_write`
  run : Bool                 -- `cio_eventloop_run`

/-- How the program ends: by the call of a function of a stream that is not there, or with this status (`true`: EXIT_SUCCESS). -/
inductive End where
  | crash
  | status (ok : Bool)
  deriving DecidableEq, Repr

/-- The stream a client has; clients are static, so that it is NULL at first. -/
structure Clients where
  one : Option Side
  two : Option Side

/-- From `destroy_ev` on, uart_ping_pong.c 309-311. -/
def destroyEv (l : List Obs) (ok : Bool) : List Obs × End := (l ++ [.loopDestroy], .status ok)
/-- From `free_first_uart` on, uart_ping_pong.c 307-308; freeing NULL does nothing. -/
def freeFirst (found : Bool) (l : List Obs) (ok : Bool) : List Obs × End := destroyEv (l ++ if found then [.free (.uart .first)] else []) ok
/-- From `close_first_uart` on, uart_ping_pong.c 305-306. -/
def closeFirst (found : Bool) (l : List Obs) (ok : Bool) : List Obs × End := freeFirst found (l ++ [.closed .first]) ok
/-- From `free_second_uart` on, uart_ping_pong.c 303-304. -/
def freeSecond (found1 found2 : Bool) (l : List Obs) (ok : Bool) : List Obs × End := closeFirst found1 (l ++ if found2 then [.free (.uart .second)] else []) ok
/-- From `close_uarts` on, uart_ping_pong.c 301-302. -/
def closeUarts (found1 found2 : Bool) (l : List Obs) (ok : Bool) : List Obs × End := freeSecond found1 found2 (l ++ [.closed .second]) ok

/-- `cio_uart_init` refuses NULL (uart.c 269). -/
def inits (found ok : Bool) : Bool := found && ok

/-- The second half of `main`, uart_ping_pong.c 268-301. `c`: the streams of the clients. -/
def second (a : Answers) (c : Clients) (found1 : Bool) (l : List Obs) : List Obs × End :=
  let d := detect .second "/dev/ttyUSB1" a.d2
  let l := l ++ d.1
  if inits d.2 a.init2 = false then freeSecond found1 d.2 l false
  else
    let l := l ++ [.opened .second]
    if a.setup2 = false then closeUarts found1 d.2 l false
    else
      -- `setup_uart` (148) sets up `client1.bs`, and so does the call of `setup_client` (281)
      let c : Clients := { c with one := some .second }
      if a.client2 = false then closeUarts found1 d.2 l false
      else
        -- `cio_buffered_stream_write` (290) calls a function of the stream (buffered_stream.c 361)
        match c.two with
        | none => (l, .crash)
        | some s =>
          if a.write2 = false then closeUarts found1 d.2 l false
          else closeUarts found1 d.2 (l ++ [.write s, .run]) a.run

/-- `main`, uart_ping_pong.c 214-312. -/
def main (a : Answers) : List Obs × End :=
  if a.sigterm = false then ([], .status false)
  else if a.sigint = false then ([.sigDefault], .status false)
  else if a.loopInit = false then ([], .status false)
  else if a.number < 2 then destroyEv [.loopInit] false
  else
    let d := detect .first "/dev/ttyUSB0" a.d1
    let l := [.loopInit] ++ d.1
    if inits d.2 a.init1 = false then freeFirst d.2 l false
    else
      let l := l ++ [.opened .first]
      if a.setup1 = false then closeFirst d.2 l false
      else
        let c : Clients := { one := some .first, two := none }
        if a.client1 = false then closeFirst d.2 l false
        else if a.read1 = false then closeFirst d.2 l false
        else second a c d.2 (l ++ [.read .first])

end Cio.UartExample
