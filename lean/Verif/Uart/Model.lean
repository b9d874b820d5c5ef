import Verif.Common
/-
Model of the settings of serial ports, /repo/lib/src/platform/linux/uart.c 266-868.

The terminal is a parameter: it keeps the flag words of `struct termios` it was given; system calls may fail.  The C library functions
`cfsetspeed` and `cfgetispeed` are modelled as glibc implements them on Linux (the speed is kept in `c_cflag`).
Constants are those of Linux on x86-64 (asm-generic/termbits.h).
-/
namespace Cio.Uart

/-- `struct termios`; control characters other than VTIME and VMIN are left out. -/
structure Termios where
  iflag : BitVec 32
  oflag : BitVec 32
  cflag : BitVec 32
  lflag : BitVec 32
  vtime : UInt8
  vmin : UInt8
  deriving DecidableEq, Repr

/-! Constants -/
def CSIZE : BitVec 32 := 0x30#32
def CS5 : BitVec 32 := 0x0#32
def CS6 : BitVec 32 := 0x10#32
def CS7 : BitVec 32 := 0x20#32
def CS8 : BitVec 32 := 0x30#32
def CSTOPB : BitVec 32 := 0x40#32
def PARENB : BitVec 32 := 0x100#32
def PARODD : BitVec 32 := 0x200#32
def CBAUD : BitVec 32 := 0x100f#32          -- includes CBAUDEX
def CMSPAR : BitVec 32 := 0x40000000#32
def CRTSCTS : BitVec 32 := 0x80000000#32
def IGNBRK : BitVec 32 := 0x1#32
def BRKINT : BitVec 32 := 0x2#32
def PARMRK : BitVec 32 := 0x8#32
def ISTRIP : BitVec 32 := 0x20#32
def INLCR : BitVec 32 := 0x40#32
def IGNCR : BitVec 32 := 0x80#32
def ICRNL : BitVec 32 := 0x100#32
def IXON : BitVec 32 := 0x400#32
def IXANY : BitVec 32 := 0x800#32
def IXOFF : BitVec 32 := 0x1000#32
def IBAUD0 : BitVec 32 := 0x80000000#32
def OPOST : BitVec 32 := 0x1#32
def ONLCR : BitVec 32 := 0x4#32
def ISIG : BitVec 32 := 0x1#32
def ICANON : BitVec 32 := 0x2#32
def ECHO : BitVec 32 := 0x8#32
def ECHOE : BitVec 32 := 0x10#32
def ECHONL : BitVec 32 := 0x40#32

def PROTOCOL_NOT_SUPPORTED : Err := -93

/-- `enum cio_uart_parity`, uart.h 44-50. -/
inductive Parity where | even | odd | none | mark | space
  deriving DecidableEq, Repr
/-- `enum cio_uart_num_stop_bits`, uart.h 52-55. -/
inductive StopBits where | one | two
  deriving DecidableEq, Repr
/-- `enum cio_uart_num_data_bits`, uart.h 57-62. -/
inductive DataBits where | five | six | seven | eight
  deriving DecidableEq, Repr
/-- `enum cio_uart_flow_control`, uart.h 64-68. -/
inductive FlowControl where | none | rtsCts | xonXoff
  deriving DecidableEq, Repr
/-- `enum cio_uart_baud_rate`, uart.h 70-101. -/
inductive Baud where
  | b50 | b75 | b110 | b134 | b150 | b200 | b300 | b600 | b1200 | b1800 | b2400 | b4800 | b9600 | b19200 | b38400 | b57600 | b115200 | b230400
  | b460800 | b500000 | b576000 | b921600 | b1000000 | b1152000 | b1500000 | b2000000 | b2500000 | b3000000 | b3500000 | b4000000
  deriving DecidableEq, Repr

/-- The port: `some t`, the terminal's settings.  The results of the system calls of one function call. -/
structure Sys where
  getErr : Err := 0       -- tcgetattr
  flushErr : Err := 0     -- tcflush
  setErr : Err := 0       -- tcsetattr (nothing is changed if it fails)
  deriving DecidableEq, Repr

/-- `get_current_settings`, uart.c 167-176. -/
def getCurrent (sys : Sys) (t : Termios) : Except Err Termios := if sys.getErr ≠ 0 then .error sys.getErr else .ok t

/-- `set_termios`, uart.c 257-269: the result and the settings of the terminal. -/
def setTermios (sys : Sys) (old new : Termios) : Err × Termios :=
  if sys.flushErr ≠ 0 then (sys.flushErr, old) else if sys.setErr ≠ 0 then (sys.setErr, old) else (SUCCESS, new)

/-- The common frame of the setters: read the settings, change them (`none`: `default` of the switch), write them. -/
def setter (sys : Sys) (t : Termios) (change : Termios → Option Termios) : Err × Termios :=
  match getCurrent sys t with
  | .error e => (e, t)
  | .ok tty =>
    match change tty with
    | Option.none => (INVALID_ARGUMENT, t)
    | some tty => setTermios sys t tty

/-- `cio_uart_set_parity`, uart.c 355-402 (`none`: a value outside of the enumeration). -/
def setParity (sys : Sys) (t : Termios) (p : Option Parity) : Err × Termios := setter sys t fun tty =>
  match p with
  | some .none =>
    let tty := { tty with cflag := tty.cflag &&& ~~~CMSPAR }
    some { tty with cflag := tty.cflag &&& ~~~PARENB }
  | some .odd =>
    let tty := { tty with cflag := tty.cflag &&& ~~~CMSPAR }
    let tty := { tty with cflag := tty.cflag ||| PARENB }
    some { tty with cflag := tty.cflag ||| PARODD }
  | some .even =>
    let tty := { tty with cflag := tty.cflag &&& ~~~CMSPAR }
    let tty := { tty with cflag := tty.cflag ||| PARENB }
    some { tty with cflag := tty.cflag &&& ~~~PARODD }
  | some .mark =>
    let tty := { tty with cflag := tty.cflag ||| CMSPAR }
    let tty := { tty with cflag := tty.cflag ||| PARENB }
    some { tty with cflag := tty.cflag ||| PARODD }
  | some .space =>
    let tty := { tty with cflag := tty.cflag ||| CMSPAR }
    let tty := { tty with cflag := tty.cflag ||| PARENB }
    some { tty with cflag := tty.cflag &&& ~~~PARODD }
  | Option.none => Option.none

/-- `cio_uart_get_parity`, uart.c 404-432. -/
def getParity (sys : Sys) (t : Termios) : Except Err Parity :=
  (getCurrent sys t).map fun tty =>
    if tty.cflag &&& PARENB = 0#32 then .none
    else if tty.cflag &&& CMSPAR = 0#32 then
      if tty.cflag &&& PARODD = PARODD then .odd else .even
    else if tty.cflag &&& PARODD = PARODD then .mark else .space

/-- `cio_uart_set_num_stop_bits`, uart.c 434-465. -/
def setStopBits (sys : Sys) (t : Termios) (n : Option StopBits) : Err × Termios := setter sys t fun tty =>
  match n with
  | some .one => some { tty with cflag := tty.cflag &&& ~~~CSTOPB }
  | some .two => some { tty with cflag := tty.cflag ||| CSTOPB }
  | Option.none => Option.none

/-- `cio_uart_get_num_stop_bits`, uart.c 467-486. -/
def getStopBits (sys : Sys) (t : Termios) : Except Err StopBits :=
  (getCurrent sys t).map fun tty => if tty.cflag &&& CSTOPB = CSTOPB then .two else .one

/-- `cio_uart_set_num_data_bits`, uart.c 488-523. -/
def setDataBits (sys : Sys) (t : Termios) (n : Option DataBits) : Err × Termios := setter sys t fun tty =>
  match n with
  | some .five => some { tty with cflag := tty.cflag ||| CS5 }
  | some .six => some { tty with cflag := tty.cflag ||| CS6 }
  | some .seven => some { tty with cflag := tty.cflag ||| CS7 }
  | some .eight => some { tty with cflag := tty.cflag ||| CS8 }
  | Option.none => Option.none

/-- `cio_uart_get_num_data_bits`, uart.c 525-554. -/
def getDataBits (sys : Sys) (t : Termios) : Except Err DataBits :=
  (getCurrent sys t).map fun tty =>
    let c := tty.cflag &&& CSIZE
    if c = CS5 then .five else if c = CS6 then .six else if c = CS7 then .seven else .eight

/-- `cio_uart_set_flow_control`, uart.c 556-592. -/
def setFlowControl (sys : Sys) (t : Termios) (f : Option FlowControl) : Err × Termios := setter sys t fun tty =>
  match f with
  | some .none => some { tty with cflag := tty.cflag &&& ~~~CRTSCTS, iflag := tty.iflag &&& ~~~(IXON ||| IXOFF ||| IXANY) }
  | some .rtsCts => some { tty with iflag := tty.iflag &&& ~~~(IXON ||| IXOFF ||| IXANY), cflag := tty.cflag ||| CRTSCTS }
  | some .xonXoff => some { tty with cflag := tty.cflag &&& ~~~CRTSCTS, iflag := tty.iflag ||| (IXON ||| IXOFF ||| IXANY) }
  | Option.none => Option.none

/-- `xon_xoff_enabled`, uart.c 594-603. -/
def xonXoffEnabled (i : BitVec 32) : Bool := i &&& IXON = IXON && i &&& IXOFF = IXOFF && i &&& IXANY = IXANY

/-- `cts_rts_enabled`, uart.c 605-612. -/
def ctsRtsEnabled (c : BitVec 32) : Bool := c &&& CRTSCTS = CRTSCTS

/-- `cio_uart_get_flow_control`, uart.c 614-636. -/
def getFlowControl (sys : Sys) (t : Termios) : Except Err FlowControl :=
  match getCurrent sys t with
  | .error e => .error e
  | .ok tty =>
    if !ctsRtsEnabled tty.cflag && !xonXoffEnabled tty.iflag then .ok .none
    else if ctsRtsEnabled tty.cflag && !xonXoffEnabled tty.iflag then .ok .rtsCts
    else if !ctsRtsEnabled tty.cflag && xonXoffEnabled tty.iflag then .ok .xonXoff
    else .error PROTOCOL_NOT_SUPPORTED

/-- The `B…` constants. -/
def speedOf : Baud → BitVec 32
  | .b50 => 0x1#32 | .b75 => 0x2#32 | .b110 => 0x3#32 | .b134 => 0x4#32 | .b150 => 0x5#32 | .b200 => 0x6#32 | .b300 => 0x7#32
  | .b600 => 0x8#32 | .b1200 => 0x9#32 | .b1800 => 0xa#32 | .b2400 => 0xb#32 | .b4800 => 0xc#32 | .b9600 => 0xd#32 | .b19200 => 0xe#32
  | .b38400 => 0xf#32 | .b57600 => 0x1001#32 | .b115200 => 0x1002#32 | .b230400 => 0x1003#32 | .b460800 => 0x1004#32
  | .b500000 => 0x1005#32 | .b576000 => 0x1006#32 | .b921600 => 0x1007#32 | .b1000000 => 0x1008#32 | .b1152000 => 0x1009#32
  | .b1500000 => 0x100a#32 | .b2000000 => 0x100b#32 | .b2500000 => 0x100c#32 | .b3000000 => 0x100d#32 | .b3500000 => 0x100e#32
  | .b4000000 => 0x100f#32

/-- `cfsetspeed` of glibc for one of the `B…` constants: `cfsetispeed` and `cfsetospeed`. -/
def cfsetspeed (t : Termios) (speed : BitVec 32) : Termios :=
  { t with iflag := t.iflag &&& ~~~IBAUD0, cflag := (t.cflag &&& ~~~CBAUD) ||| speed }

/-- `cfgetispeed` of glibc. -/
def cfgetispeed (t : Termios) : BitVec 32 := if t.iflag &&& IBAUD0 = 0#32 then t.cflag &&& CBAUD else 0#32

/-- `cio_uart_set_baud_rate`, uart.c 638-757. -/
def setBaud (sys : Sys) (t : Termios) (b : Option Baud) : Err × Termios := setter sys t fun tty =>
  match b with
  | some b => some (cfsetspeed tty (speedOf b))
  | Option.none => Option.none

/-- `cio_uart_get_baud_rate`, uart.c 759-868. -/
def getBaud (sys : Sys) (t : Termios) : Except Err Baud :=
  match getCurrent sys t with
  | .error e => .error e
  | .ok tty =>
    let s := cfgetispeed tty
    if s = 0x1#32 then .ok .b50 else if s = 0x2#32 then .ok .b75 else if s = 0x3#32 then .ok .b110 else if s = 0x4#32 then .ok .b134
    else if s = 0x5#32 then .ok .b150 else if s = 0x6#32 then .ok .b200 else if s = 0x7#32 then .ok .b300 else if s = 0x8#32 then .ok .b600
    else if s = 0x9#32 then .ok .b1200 else if s = 0xa#32 then .ok .b1800 else if s = 0xb#32 then .ok .b2400 else if s = 0xc#32 then .ok .b4800
    else if s = 0xd#32 then .ok .b9600 else if s = 0xe#32 then .ok .b19200 else if s = 0xf#32 then .ok .b38400
    else if s = 0x1001#32 then .ok .b57600 else if s = 0x1002#32 then .ok .b115200 else if s = 0x1003#32 then .ok .b230400
    else if s = 0x1004#32 then .ok .b460800 else if s = 0x1005#32 then .ok .b500000 else if s = 0x1006#32 then .ok .b576000
    else if s = 0x1007#32 then .ok .b921600 else if s = 0x1008#32 then .ok .b1000000 else if s = 0x1009#32 then .ok .b1152000
    else if s = 0x100a#32 then .ok .b1500000 else if s = 0x100b#32 then .ok .b2000000 else if s = 0x100c#32 then .ok .b2500000
    else if s = 0x100d#32 then .ok .b3000000 else if s = 0x100e#32 then .ok .b3500000 else if s = 0x100f#32 then .ok .b4000000
    else .error PROTOCOL_NOT_SUPPORTED

/-- The settings written by `cio_uart_init`, uart.c 289-312. -/
def initSettings (t : Termios) : Termios :=
  let t := { t with cflag := t.cflag &&& ~~~CRTSCTS }
  let t := { t with lflag := t.lflag &&& ~~~ICANON }
  let t := { t with lflag := t.lflag &&& ~~~ECHO }
  let t := { t with lflag := t.lflag &&& ~~~ECHOE }
  let t := { t with lflag := t.lflag &&& ~~~ECHONL }
  let t := { t with lflag := t.lflag &&& ~~~ISIG }
  let t := { t with iflag := t.iflag &&& ~~~(IXON ||| IXOFF ||| IXANY) }
  let t := { t with iflag := t.iflag &&& ~~~(IGNBRK ||| BRKINT ||| PARMRK ||| ISTRIP ||| INLCR ||| IGNCR ||| ICRNL) }
  let t := { t with oflag := t.oflag &&& ~~~OPOST }
  let t := { t with oflag := t.oflag &&& ~~~ONLCR }
  let t := { t with vtime := 0, vmin := 0 }
  cfsetspeed t (speedOf .b115200)

/-- What `cio_uart_init` (uart.c 271-336) does: the result, the terminal, and whether the descriptor is open afterwards.  `openErr`,
`addErr`, `regErr`: the results of open(2) and of the two event loop calls. -/
def init (sys : Sys) (openErr addErr regErr : Err) (t : Termios) : Err × Termios × Bool :=
  if openErr ≠ 0 then (openErr, t, false)
  else
    match getCurrent sys t with
    | .error e => (e, t, true)      -- returns without close(2)
    | .ok tty =>
      let (e, t') := setTermios sys t (initSettings tty)
      if e ≠ SUCCESS then (e, t', false)
      else if addErr ≠ 0 then (addErr, t', false)
      else if regErr ≠ 0 then (regErr, t', false)
      else (SUCCESS, t', true)

end Cio.Uart
