import Verif.Uart.Model
/-
Model of the settings and the opening of serial ports on Windows, /repo/lib/src/platform/windows/uart.c 294-302, 421-527, 541-858.

The operating system is a parameter: it keeps the `DCB` it was given; its functions may fail, and `SetCommState` changes nothing if it fails.
Error codes are the numbers the functions return (negated numbers of GetLastError); those of the library have the values of the common model.
-/
namespace Cio.Windows.Uart

open Cio.Uart (Parity StopBits DataBits FlowControl Baud PROTOCOL_NOT_SUPPORTED)

def OPERATION_NOT_SUPPORTED : Err := -95

/-- `DCB`, the fields the code sets; `rest` stands for all others. -/
structure Dcb where
  baudRate : Nat
  byteSize : Nat
  parity : Nat
  stopBits : Nat
  inX : Bool
  outX : Bool
  txContinueOnXoff : Bool
  outxCtsFlow : Bool
  rtsControl : Nat
  dtrControl : Nat
  outxDsrFlow : Bool
  dsrSensitivity : Bool
  rest : Nat
  deriving DecidableEq, Repr

/-! Constants of winbase.h; the `CBR_…` constants are the rates themselves. -/
def NOPARITY : Nat := 0
def ODDPARITY : Nat := 1
def EVENPARITY : Nat := 2
def MARKPARITY : Nat := 3
def SPACEPARITY : Nat := 4
def ONESTOPBIT : Nat := 0
def TWOSTOPBITS : Nat := 2
def RTS_CONTROL_DISABLE : Nat := 0
def DTR_CONTROL_DISABLE : Nat := 0
def MAXDWORD : Nat := 4294967295

/-- What GetCommState and SetCommState do in one call of the library: 0, or the negated error. -/
structure Sys where
  getErr : Err := 0
  setErr : Err := 0
  deriving DecidableEq, Repr

/-- `set_comm_settings`, uart.c 294-302. -/
def setComm (sys : Sys) (old new : Dcb) : Err × Dcb := if sys.setErr ≠ 0 then (sys.setErr, old) else (SUCCESS, new)

/-- The common frame of the setters: GetCommState, the switch (`none`: `default`), SetCommState. -/
def setter (sys : Sys) (d : Dcb) (change : Dcb → Option Dcb) : Err × Dcb :=
  if sys.getErr ≠ 0 then (sys.getErr, d)
  else
    match change d with
    | none => (INVALID_ARGUMENT, d)
    | some d' => setComm sys d d'

/-- The common frame of the getters. -/
def getter {α : Type} (sys : Sys) (d : Dcb) (look : Dcb → Except Err α) : Except Err α :=
  if sys.getErr ≠ 0 then .error sys.getErr else look d

/-- `cio_uart_set_parity`, uart.c 541-575 (`none`: a value outside of the enumeration). -/
def setParity (sys : Sys) (d : Dcb) (p : Option Parity) : Err × Dcb := setter sys d fun d =>
  match p with
  | some .none => some { d with parity := NOPARITY }
  | some .odd => some { d with parity := ODDPARITY }
  | some .even => some { d with parity := EVENPARITY }
  | some .mark => some { d with parity := MARKPARITY }
  | some .space => some { d with parity := SPACEPARITY }
  | Option.none => Option.none

/-- `cio_uart_get_parity`, uart.c 577-611. -/
def getParity (sys : Sys) (d : Dcb) : Except Err Parity := getter sys d fun d =>
  if d.parity = NOPARITY then .ok .none
  else if d.parity = ODDPARITY then .ok .odd
  else if d.parity = EVENPARITY then .ok .even
  else if d.parity = MARKPARITY then .ok .mark
  else if d.parity = SPACEPARITY then .ok .space
  else .error PROTOCOL_NOT_SUPPORTED

/-- `cio_uart_set_num_stop_bits`, uart.c 613-638. -/
def setStopBits (sys : Sys) (d : Dcb) (n : Option StopBits) : Err × Dcb := setter sys d fun d =>
  match n with
  | some .one => some { d with stopBits := ONESTOPBIT }
  | some .two => some { d with stopBits := TWOSTOPBITS }
  | Option.none => Option.none

/-- `cio_uart_get_num_stop_bits`, uart.c 640-665. -/
def getStopBits (sys : Sys) (d : Dcb) : Except Err StopBits := getter sys d fun d =>
  if d.stopBits = ONESTOPBIT then .ok .one
  else if d.stopBits = TWOSTOPBITS then .ok .two
  else .error OPERATION_NOT_SUPPORTED

/-- `cio_uart_set_num_data_bits`, uart.c 667-698. -/
def setDataBits (sys : Sys) (d : Dcb) (n : Option DataBits) : Err × Dcb := setter sys d fun d =>
  match n with
  | some .five => some { d with byteSize := 5 }
  | some .six => some { d with byteSize := 6 }
  | some .seven => some { d with byteSize := 7 }
  | some .eight => some { d with byteSize := 8 }
  | Option.none => Option.none

/-- `cio_uart_get_num_data_bits`, uart.c 700-731. -/
def getDataBits (sys : Sys) (d : Dcb) : Except Err DataBits := getter sys d fun d =>
  if d.byteSize = 5 then .ok .five
  else if d.byteSize = 6 then .ok .six
  else if d.byteSize = 7 then .ok .seven
  else if d.byteSize = 8 then .ok .eight
  else .error PROTOCOL_NOT_SUPPORTED

/-- `cio_uart_set_flow_control`, uart.c 733-741: nothing is done. -/
def setFlowControl (_ : Sys) (d : Dcb) (_ : Option FlowControl) : Err × Dcb := (SUCCESS, d)

/-- `cio_uart_get_flow_control`, uart.c 743-750. -/
def getFlowControl (_ : Sys) (_ : Dcb) : Except Err FlowControl := .error OPERATION_NOT_SUPPORTED

/-- The rates of the switch in `cio_uart_set_baud_rate`, uart.c 765-801. -/
def rateOf : Baud → Option Nat
  | .b110 => some 110 | .b300 => some 300 | .b600 => some 600 | .b1200 => some 1200 | .b2400 => some 2400 | .b4800 => some 4800
  | .b9600 => some 9600 | .b19200 => some 19200 | .b38400 => some 38400 | .b57600 => some 57600 | .b115200 => some 115200
  | _ => none

/-- `cio_uart_set_baud_rate`, uart.c 752-804. -/
def setBaud (sys : Sys) (d : Dcb) (b : Option Baud) : Err × Dcb := setter sys d fun d =>
  match b.bind rateOf with
  | some r => some { d with baudRate := r }
  | none => none

/-- `cio_uart_get_baud_rate`, uart.c 806-858. -/
def getBaud (sys : Sys) (d : Dcb) : Except Err Baud := getter sys d fun d =>
  if d.baudRate = 110 then .ok .b110
  else if d.baudRate = 300 then .ok .b300
  else if d.baudRate = 600 then .ok .b600
  else if d.baudRate = 1200 then .ok .b1200
  else if d.baudRate = 2400 then .ok .b2400
  else if d.baudRate = 4800 then .ok .b4800
  else if d.baudRate = 9600 then .ok .b9600
  else if d.baudRate = 19200 then .ok .b19200
  else if d.baudRate = 38400 then .ok .b38400
  else if d.baudRate = 57600 then .ok .b57600
  else if d.baudRate = 115200 then .ok .b115200
  else .error PROTOCOL_NOT_SUPPORTED

/-! ### Opening -/

/-- The settings written by `cio_uart_init`, uart.c 464-475. -/
def initSettings (d : Dcb) : Dcb :=
  { d with baudRate := 115200, byteSize := 8, parity := NOPARITY, stopBits := ONESTOPBIT, inX := false, outX := false, txContinueOnXoff := false,
           outxCtsFlow := false, rtsControl := RTS_CONTROL_DISABLE, dtrControl := DTR_CONTROL_DISABLE, outxDsrFlow := false, dsrSensitivity := false }

/-- `COMMTIMEOUTS`. -/
structure Timeouts where
  readInterval : Nat
  readMultiplier : Nat
  readConstant : Nat
  writeMultiplier : Nat
  writeConstant : Nat
  deriving DecidableEq, Repr

/-- The timeouts written by `cio_uart_init`, uart.c 490-494. -/
def initTimeouts : Timeouts := ⟨MAXDWORD, MAXDWORD, MAXDWORD - 1, 0, 0⟩

/-- What `cio_uart_init` does with memory and handles. -/
inductive Act where
  | alloc          -- malloc gives the memory for the file name
  | free           -- that memory is given to free
  | opened         -- CreateFileW gives the handle
  | closed         -- the handle is given to CloseHandle
  deriving DecidableEq, Repr

/-- The results of the functions `cio_uart_init` calls: 0, or the negated error (`malloc`: does it succeed). -/
structure InitSys where
  lengthErr : Err := 0       -- the first MultiByteToWideChar
  malloc : Bool := true
  convertErr : Err := 0      -- the second MultiByteToWideChar
  openErr : Err := 0         -- CreateFileW
  getErr : Err := 0          -- GetCommState
  setErr : Err := 0          -- SetCommState
  getTimeErr : Err := 0      -- GetCommTimeouts
  setTimeErr : Err := 0      -- SetCommTimeouts
  portErr : Err := 0         -- cio_windows_add_handle_to_completion_port
  deriving DecidableEq, Repr

/-- What is left behind: the result, what was done, the settings and timeouts of the device, and whether the port can be used. -/
structure Opened where
  err : Err
  acts : List Act
  dcb : Dcb
  timeouts : Timeouts
  ready : Bool
  deriving DecidableEq, Repr

/-- `cio_uart_init`, uart.c 421-527 (the checks of the arguments are in Refuse). -/
def init (y : InitSys) (d : Dcb) (t : Timeouts) : Opened :=
  if y.lengthErr ≠ 0 then ⟨y.lengthErr, [], d, t, false⟩
  else if y.malloc = false then ⟨NO_MEMORY, [], d, t, false⟩
  else if y.convertErr ≠ 0 then ⟨y.convertErr, [.alloc, .free], d, t, false⟩
  else if y.openErr ≠ 0 then ⟨y.openErr, [.alloc, .free], d, t, false⟩
  else
    let a : List Act := [.alloc, .opened, .free]        -- uart.c 454
    if y.getErr ≠ 0 then ⟨y.getErr, a ++ [.closed, .free], d, t, false⟩
    else
      let (e, d') := setComm { setErr := y.setErr } d (initSettings d)
      if e ≠ SUCCESS then ⟨e, a ++ [.closed, .free], d', t, false⟩
      else if y.getTimeErr ≠ 0 then ⟨y.getTimeErr, a ++ [.closed, .free], d', t, false⟩
      else if y.setTimeErr ≠ 0 then ⟨y.setTimeErr, a ++ [.closed, .free], d', t, false⟩
      else if y.portErr ≠ 0 then ⟨y.portErr, a ++ [.closed, .closed, .free], d', initTimeouts, false⟩
      else ⟨SUCCESS, a, d', initTimeouts, true⟩

end Cio.Windows.Uart
