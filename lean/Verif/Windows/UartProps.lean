import Verif.Windows.UartModel
/-
Property theorems for the settings (C57) and the opening (C58) of serial ports on Windows.
-/
namespace Cio.Windows.Uart

open Cio.Uart (Parity StopBits DataBits FlowControl Baud PROTOCOL_NOT_SUPPORTED)

/-! ### Specification -/

/-- One call of a setter. -/
inductive Setting where
  | parity (p : Parity)
  | stopBits (n : StopBits)
  | dataBits (n : DataBits)
  | flowControl (f : FlowControl)
  | baud (b : Baud)
  deriving DecidableEq, Repr

/-- What the five getters report. -/
structure View where
  parity : Except Err Parity
  stopBits : Except Err StopBits
  dataBits : Except Err DataBits
  flowControl : Except Err FlowControl
  baud : Except Err Baud

/-- The call of the library for a setting. -/
def set (sys : Sys) (d : Dcb) : Setting → Err × Dcb
  | .parity p => setParity sys d (some p)
  | .stopBits n => setStopBits sys d (some n)
  | .dataBits n => setDataBits sys d (some n)
  | .flowControl f => setFlowControl sys d (some f)
  | .baud b => setBaud sys d (some b)

def view (d : Dcb) : View := ⟨getParity {} d, getStopBits {} d, getDataBits {} d, getFlowControl {} d, getBaud {} d⟩

/-- What the getters are expected to report after a setting was changed. -/
def View.change (v : View) : Setting → View
  | .parity p => { v with parity := .ok p }
  | .stopBits n => { v with stopBits := .ok n }
  | .dataBits n => { v with dataBits := .ok n }
  | .flowControl f => { v with flowControl := .ok f }
  | .baud b => { v with baud := .ok b }

/-- The settings for which the property holds. -/
def Setting.NotFlow : Setting → Prop
  | .flowControl _ => False
  | _ => True

/-- The part of the settings of the device that the five setters are not about. -/
def Dcb.others (d : Dcb) : List Bool × Nat × Nat × Nat :=
  ([d.inX, d.outX, d.txContinueOnXoff, d.outxCtsFlow, d.outxDsrFlow, d.dsrSensitivity], d.rtsControl, d.dtrControl, d.rest)

/-! ### C57: settings -/

theorem setter_ok {sys : Sys} {d : Dcb} {f : Dcb → Option Dcb} (h : (setter sys d f).1 = SUCCESS) : f d = some (setter sys d f).2 := by
  unfold setter setComm at *
  split at h
  · rename_i g; exact absurd h g
  · rename_i g
    rw [if_neg g]
    cases hf : f d with
    | none => rw [hf] at h; exact absurd (show INVALID_ARGUMENT = SUCCESS from h) (by decide)
    | some d' =>
      rw [hf] at h
      dsimp only at h ⊢
      split at h
      · rename_i g'; exact absurd h g'
      · rename_i g'; rw [if_neg g']

theorem setter_failed {sys : Sys} {d : Dcb} {f : Dcb → Option Dcb} (h : (setter sys d f).1 ≠ SUCCESS) : (setter sys d f).2 = d := by
  unfold setter setComm at *
  split at h
  · rename_i g; rw [if_pos g]
  · rename_i g
    rw [if_neg g]
    cases hf : f d with
    | none => rfl
    | some d' =>
      rw [hf] at h
      dsimp only at h ⊢
      split at h
      · rename_i g'; rw [if_pos g']
      · exact absurd rfl h

/-- C57: after a successful call of a setter, the getter reports the new value, the other getters report what they did before, and nothing
else of the port's settings has changed.
Missing for the full property: flow control (`flow_control_ignored`). -/
theorem set_view_partial (sys : Sys) (d : Dcb) (x : Setting) (hx : x.NotFlow) (h : (set sys d x).1 = SUCCESS) :
    view (set sys d x).2 = (view d).change x ∧ (set sys d x).2.others = d.others := by
  cases x with
  | parity p =>
    have h := setter_ok h
    change _ = some (set sys d (.parity p)).2 at h
    generalize (set sys d (.parity p)).2 = d' at h
    cases p <;> injection h with h <;> subst h <;> exact ⟨rfl, rfl⟩
  | stopBits n =>
    have h := setter_ok h
    change _ = some (set sys d (.stopBits n)).2 at h
    generalize (set sys d (.stopBits n)).2 = d' at h
    cases n <;> injection h with h <;> subst h <;> exact ⟨rfl, rfl⟩
  | dataBits n =>
    have h := setter_ok h
    change _ = some (set sys d (.dataBits n)).2 at h
    generalize (set sys d (.dataBits n)).2 = d' at h
    cases n <;> injection h with h <;> subst h <;> exact ⟨rfl, rfl⟩
  | flowControl f => exact False.elim hx
  | baud b =>
    have h := setter_ok h
    change _ = some (set sys d (.baud b)).2 at h
    generalize (set sys d (.baud b)).2 = d' at h
    cases b <;> first | (injection h with h; subst h; exact ⟨rfl, rfl⟩) | cases h

/-- C57: a setter that fails leaves everything as it was. -/
theorem set_failed (sys : Sys) (d : Dcb) (x : Setting) (h : (set sys d x).1 ≠ SUCCESS) : (set sys d x).2 = d := by
  cases x with
  | flowControl f => rfl
  | _ => exact setter_failed h

/-- C57: when the operating system does not fail, every setting is taken, except the baud rates that Windows has no constant for. -/
theorem set_taken (d : Dcb) (x : Setting) : (set {} d x).1 = SUCCESS ∨ (∃ b, x = .baud b ∧
    b ∉ [Baud.b110, .b300, .b600, .b1200, .b2400, .b4800, .b9600, .b19200, .b38400, .b57600, .b115200] ∧ set {} d x = (INVALID_ARGUMENT, d)) := by
  cases x with
  | parity p => cases p <;> exact .inl rfl
  | stopBits n => cases n <;> exact .inl rfl
  | dataBits n => cases n <;> exact .inl rfl
  | flowControl f => exact .inl rfl
  | baud b => cases b <;> first | exact .inl rfl | exact .inr ⟨_, rfl, by decide, rfl⟩

/-- C57: an error of the operating system is what the setters and getters return. -/
theorem errors_returned (d : Dcb) (x : Setting) (hx : x.NotFlow) (e e' : Err) (he : e ≠ 0) :
    set { getErr := e, setErr := e' } d x = (e, d) ∧ ((set {} d x).1 = SUCCESS → set { setErr := e } d x = (e, d)) ∧
    getParity { getErr := e, setErr := e' } d = .error e ∧ getStopBits { getErr := e, setErr := e' } d = .error e ∧
    getDataBits { getErr := e, setErr := e' } d = .error e ∧ getBaud { getErr := e, setErr := e' } d = .error e := by
  have hset : ∀ f : Dcb → Option Dcb, setter { getErr := e, setErr := e' } d f = (e, d) := fun f => by unfold setter; rw [if_pos he]
  have hset' : ∀ f : Dcb → Option Dcb, (setter {} d f).1 = SUCCESS → setter { setErr := e } d f = (e, d) := fun f h => by
    have h1 := setter_ok h
    unfold setter
    rw [if_neg (fun h => h rfl), h1]
    dsimp only [setComm]
    rw [if_pos he]
  have hget : ∀ {α : Type} (f : Dcb → Except Err α), getter { getErr := e, setErr := e' } d f = .error e := fun f => by unfold getter; rw [if_pos he]
  refine ⟨?_, ?_, hget _, hget _, hget _, hget _⟩
  · cases x with
    | flowControl f => exact False.elim hx
    | _ => unfold set; exact hset _
  · cases x with
    | flowControl f => exact False.elim hx
    | _ => unfold set; exact hset' _

/-- A sequence of calls of setters, each with what the operating system does in it: the settings afterwards and what the calls returned. -/
def run (d : Dcb) : List (Sys × Setting) → Dcb × List (Setting × Err)
  | [] => (d, [])
  | x :: l => ((run (set x.1 d x.2).2 l).1, (x.2, (set x.1 d x.2).1) :: (run (set x.1 d x.2).2 l).2)

/-- The expected result of a sequence of calls: every call that succeeded changed its setting. -/
def expected (v : View) (calls : List (Setting × Err)) : View :=
  calls.foldl (fun v c => if c.2 = SUCCESS then v.change c.1 else v) v

/-- C57 for all sequences of calls: each getter reports the last value that was set successfully, or what the port had at first.
Missing for the full property: flow control. -/
theorem history_partial (d : Dcb) (l : List (Sys × Setting)) (h : ∀ x ∈ l, x.2.NotFlow) :
    view (run d l).1 = expected (view d) (run d l).2 ∧ (run d l).1.others = d.others := by
  induction l generalizing d with
  | nil => exact ⟨rfl, rfl⟩
  | cons x l ih =>
    have h3 := ih (set x.1 d x.2).2 (fun y hy => h y (List.mem_cons_of_mem _ hy))
    have h1 := h x List.mem_cons_self
    show view (run (set x.1 d x.2).2 l).1 = expected (if (set x.1 d x.2).1 = SUCCESS then (view d).change x.2 else view d) (run (set x.1 d x.2).2 l).2 ∧
      (run (set x.1 d x.2).2 l).1.others = d.others
    rw [h3.1, h3.2]
    by_cases hs : (set x.1 d x.2).1 = SUCCESS
    · rw [if_pos hs, (set_view_partial _ _ _ h1 hs).1, (set_view_partial _ _ _ h1 hs).2]; exact ⟨rfl, rfl⟩
    · rw [if_neg hs, set_failed _ _ _ hs]; exact ⟨rfl, rfl⟩

/-- A port in some state, for the examples. -/
def someDcb : Dcb := ⟨256000, 7, 9, 1, true, true, true, true, 2, 1, true, true, 5⟩

/-- A history that meets the hypothesis, with a failing call; all four settings can be read back. -/
example : let l : List (Sys × Setting) := [({}, .dataBits .six), ({}, .parity .mark), ({ setErr := -5 }, .parity .odd), ({}, .baud .b9600), ({}, .dataBits .five), ({}, .stopBits .two)]
    (∀ x ∈ l, x.2.NotFlow) ∧ (run someDcb l).2.map (·.2) = [0, 0, -5, 0, 0, 0] ∧
    getParity {} (run someDcb l).1 = .ok .mark ∧ getDataBits {} (run someDcb l).1 = .ok .five ∧ getBaud {} (run someDcb l).1 = .ok .b9600 ∧ getStopBits {} (run someDcb l).1 = .ok .two := by
  refine ⟨?_, rfl, rfl, rfl, rfl, rfl⟩
  intro x hx
  simp only [List.mem_cons, List.not_mem_nil, or_false] at hx
  rcases hx with rfl | rfl | rfl | rfl | rfl | rfl <;> exact trivial

/-! The values of Windows, as documented for `DCB`. -/
def winParity : Parity → Nat | .none => 0 | .odd => 1 | .even => 2 | .mark => 3 | .space => 4
def winStopBits : StopBits → Nat | .one => 0 | .two => 2
def winDataBits : DataBits → Nat | .five => 5 | .six => 6 | .seven => 7 | .eight => 8
def winRates : List (Baud × Nat) := [(.b110, 110), (.b300, 300), (.b600, 600), (.b1200, 1200), (.b2400, 2400), (.b4800, 4800), (.b9600, 9600),
  (.b19200, 19200), (.b38400, 38400), (.b57600, 57600), (.b115200, 115200)]

/-- C57: the getters tell the truth about every state of the port: a value is reported exactly if the port has it; a state that has no name in the
library's interface (like one and a half stop bits) is an error. -/
theorem getters_truthful (d : Dcb) :
    (∀ p, getParity {} d = .ok p ↔ d.parity = winParity p) ∧ (∀ n, getStopBits {} d = .ok n ↔ d.stopBits = winStopBits n) ∧
    (∀ n, getDataBits {} d = .ok n ↔ d.byteSize = winDataBits n) ∧ (∀ b, getBaud {} d = .ok b ↔ (b, d.baudRate) ∈ winRates) := by
  have ng : ¬ (({} : Sys).getErr ≠ 0) := fun h => h rfl
  refine ⟨fun p => ?_, fun n => ?_, fun n => ?_, fun b => ?_⟩
  · unfold getParity getter
    rw [if_neg ng]
    dsimp only
    generalize d.parity = x
    constructor
    · intro h
      by_cases e0 : x = NOPARITY
      · rw [if_pos e0] at h; cases h; exact e0
      rw [if_neg e0] at h
      repeat' (split at h)
      all_goals first | (cases h; done) | (cases h; assumption)
    · intro h
      cases p <;> (have h : x = _ := h; subst h; rfl)
  · unfold getStopBits getter
    rw [if_neg ng]
    dsimp only
    generalize d.stopBits = x
    constructor
    · intro h
      by_cases e0 : x = ONESTOPBIT
      · rw [if_pos e0] at h; cases h; exact e0
      rw [if_neg e0] at h
      repeat' (split at h)
      all_goals first | (cases h; done) | (cases h; assumption)
    · intro h
      cases n <;> (have h : x = _ := h; subst h; rfl)
  · unfold getDataBits getter
    rw [if_neg ng]
    dsimp only
    generalize d.byteSize = x
    constructor
    · intro h
      repeat' (split at h)
      all_goals first | (cases h; done) | (cases h; assumption)
    · intro h
      cases n <;> (have h : x = _ := h; subst h; rfl)
  · unfold getBaud getter
    rw [if_neg ng]
    dsimp only
    generalize d.baudRate = x
    constructor
    · intro h
      repeat' (split at h)
      all_goals first | (cases h; done) | (cases h; subst x; decide)
    · intro h
      simp only [winRates, List.mem_cons, Prod.mk.injEq, List.not_mem_nil, or_false] at h
      rcases h with h | h | h | h | h | h | h | h | h | h | h <;> (obtain ⟨rfl, rfl⟩ := h; rfl)

/-- C57: a getter that could not tell the value (whatever the reason) returns an error code, never that of success: the caller does not use a variable that
was not written. -/
theorem getter_errors (sys : Sys) (d : Dcb) (e : Err)
    (h : getParity sys d = .error e ∨ getStopBits sys d = .error e ∨ getDataBits sys d = .error e ∨ getBaud sys d = .error e ∨ getFlowControl sys d = .error e) :
    e ≠ SUCCESS := by
  have key : ∀ {α : Type} (f : Dcb → Except Err α), (∀ e, f d = .error e → e ≠ SUCCESS) → getter sys d f = .error e → e ≠ SUCCESS := by
    intro α f hf h
    unfold getter at h
    split at h
    · next hn => cases h; exact hn
    · exact hf e h
  have nz : PROTOCOL_NOT_SUPPORTED ≠ SUCCESS ∧ OPERATION_NOT_SUPPORTED ≠ SUCCESS ∧ INVALID_ARGUMENT ≠ SUCCESS := by decide
  rcases h with h | h | h | h | h
  rotate_right
  · unfold getFlowControl at h; first | (cases h; exact nz.2.1) | (split at h <;> cases h <;> first | exact nz.2.1 | assumption)
  all_goals refine key _ (fun e h => ?_) h
  all_goals (repeat' (split at h))
  all_goals first | (cases h; done) | (cases h; first | exact nz.1 | exact nz.2.1 | exact nz.2.2)

/-- Such states exist: one and a half stop bits, a parity and a rate without a name. -/
example : getStopBits {} someDcb = .error OPERATION_NOT_SUPPORTED ∧ getParity {} someDcb = .error PROTOCOL_NOT_SUPPORTED ∧
    getBaud {} someDcb = .error PROTOCOL_NOT_SUPPORTED ∧ getDataBits {} someDcb = .ok .seven := ⟨rfl, rfl, rfl, rfl⟩

/-- C57: values outside of the enumerations are refused and nothing changes ... -/
theorem invalid_refused (d : Dcb) :
    setParity {} d none = (INVALID_ARGUMENT, d) ∧ setStopBits {} d none = (INVALID_ARGUMENT, d) ∧ setDataBits {} d none = (INVALID_ARGUMENT, d) ∧
    setBaud {} d none = (INVALID_ARGUMENT, d) := ⟨rfl, rfl, rfl, rfl⟩

/-- ... but not for flow control: C57 fails, the call succeeds, whatever value is given, nothing is set, and it cannot be read. -/
theorem flow_control_ignored (sys : Sys) (d : Dcb) (f : Option FlowControl) :
    setFlowControl sys d f = (SUCCESS, d) ∧ getFlowControl {} (setFlowControl sys d f).2 = .error OPERATION_NOT_SUPPORTED := ⟨rfl, rfl⟩

/-- The full claim is false of the code. -/
theorem full_claim_false : ¬ ∀ (d : Dcb) (x : Setting), (set {} d x).1 = SUCCESS → view (set {} d x).2 = (view d).change x := by
  intro h
  have := congrArg View.flowControl (h someDcb (.flowControl .rtsCts) rfl)
  exact absurd this (by intro hx; injection hx)

/-! ### C58: opening -/

/-- The handle is open, the memory in use: as often given as taken back. -/
def handles (l : List Act) : Int := l.count .opened - l.count .closed
def blocks (l : List Act) : Int := l.count .alloc - l.count .free

/-- C58: opening succeeds exactly if all functions of the operating system do; then the port has one open handle and no memory in use, is at
115200 baud with eight data bits, no parity, one stop bit and no flow control of any kind, everything else is as it was, and reads wait for
the first byte (for 2^32 - 2 ms at most) and writes for ever. -/
theorem init_success (y : InitSys) (d : Dcb) (t : Timeouts) :
    ((init y d t).err = SUCCESS ↔ y = {}) ∧
    ((init y d t).err = SUCCESS → (init y d t).ready = true ∧ handles (init y d t).acts = 1 ∧ blocks (init y d t).acts = 0 ∧
      getBaud {} (init y d t).dcb = .ok .b115200 ∧ getDataBits {} (init y d t).dcb = .ok .eight ∧ getParity {} (init y d t).dcb = .ok .none ∧
      getStopBits {} (init y d t).dcb = .ok .one ∧ (init y d t).dcb.others = ([false, false, false, false, false, false], 0, 0, d.rest) ∧
      (init y d t).timeouts = ⟨4294967295, 4294967295, 4294967294, 0, 0⟩) := by
  have key : (init y d t).err = SUCCESS → y = {} := by
    intro h
    unfold init at h
    split at h
    · rename_i g; exact absurd h g
    · split at h
      · exact absurd (show NO_MEMORY = SUCCESS from h) (by decide)
      · split at h
        · rename_i g; exact absurd h g
        · split at h
          · rename_i g; exact absurd h g
          · dsimp only at h
            split at h
            · rename_i g; exact absurd h g
            · split at h
              · rename_i g; exact absurd h g
              · rename_i g6
                split at h
                · rename_i g; exact absurd h g
                · split at h
                  · rename_i g; exact absurd h g
                  · split at h
                    · rename_i g; exact absurd h g
                    · rename_i g1 g2 g3 g4 g5 g7 g8 g9
                      have g6' : y.setErr = 0 := by
                        unfold setComm at g6
                        by_cases hs : y.setErr = 0
                        · exact hs
                        · rw [if_pos hs] at g6; exact absurd hs g6
                      have e1 : y.lengthErr = 0 := Classical.byContradiction fun x => g1 x
                      have e2 : y.malloc = true := by simpa using g2
                      have e3 : y.convertErr = 0 := Classical.byContradiction fun x => g3 x
                      have e4 : y.openErr = 0 := Classical.byContradiction fun x => g4 x
                      have e5 : y.getErr = 0 := Classical.byContradiction fun x => g5 x
                      have e7 : y.getTimeErr = 0 := Classical.byContradiction fun x => g7 x
                      have e8 : y.setTimeErr = 0 := Classical.byContradiction fun x => g8 x
                      have e9 : y.portErr = 0 := Classical.byContradiction fun x => g9 x
                      cases y
                      simp_all
  refine ⟨⟨key, fun h => by subst h; rfl⟩, fun h => ?_⟩
  have := key h
  subst this
  exact ⟨rfl, rfl, rfl, rfl, rfl, rfl, rfl, rfl, rfl⟩

/-- C58: if opening fails, the error is the one of the first function that failed, and the port cannot be used. -/
theorem init_failure (y : InitSys) (d : Dcb) (t : Timeouts) (h : (init y d t).err ≠ SUCCESS) :
    (init y d t).ready = false ∧
    (init y d t).err = ([y.lengthErr, if y.malloc then 0 else NO_MEMORY, y.convertErr, y.openErr, y.getErr, y.setErr, y.getTimeErr, y.setTimeErr, y.portErr].find? (· ≠ 0)).getD 0 := by
  revert h
  unfold init
  by_cases h1 : y.lengthErr = 0
  · by_cases h2 : y.malloc = true
    · by_cases h3 : y.convertErr = 0
      · by_cases h4 : y.openErr = 0
        · by_cases h5 : y.getErr = 0
          · by_cases h6 : y.setErr = 0
            · by_cases h7 : y.getTimeErr = 0
              · by_cases h8 : y.setTimeErr = 0
                · by_cases h9 : y.portErr = 0
                  · simp [h1, h2, h3, h4, h5, h6, h7, h8, h9, setComm, SUCCESS]
                  · simp [h1, h2, h3, h4, h5, h6, h7, h8, h9, setComm, SUCCESS]
                · simp [h1, h2, h3, h4, h5, h6, h7, h8, setComm, SUCCESS]
              · simp [h1, h2, h3, h4, h5, h6, h7, setComm, SUCCESS]
            · simp [h1, h2, h3, h4, h5, h6, setComm, SUCCESS]
          · simp [h1, h2, h3, h4, h5]
        · simp [h1, h2, h3, h4]
      · simp [h1, h2, h3]
    · simp [h1, h2, NO_MEMORY]
  · simp [h1]

/-- C58: if opening fails up to CreateFileW, all memory was given back, once, no handle is open, and the device is as it was.
Missing for the full property: the later failures (`late_failure_frees_twice`, `port_failure_closes_twice`). -/
theorem init_failure_clean_partial (y : InitSys) (d : Dcb) (t : Timeouts)
    (h : y.lengthErr ≠ 0 ∨ y.malloc = false ∨ y.convertErr ≠ 0 ∨ y.openErr ≠ 0) :
    (init y d t).err ≠ SUCCESS ∧ handles (init y d t).acts = 0 ∧ blocks (init y d t).acts = 0 ∧ (init y d t).acts.count .free ≤ 1 ∧ .opened ∉ (init y d t).acts ∧
      (init y d t).dcb = d ∧ (init y d t).timeouts = t := by
  unfold init
  by_cases h1 : y.lengthErr = 0
  · rw [if_neg (fun x => x h1)]
    by_cases h2 : y.malloc = false
    · rw [if_pos h2]; exact ⟨(by decide : NO_MEMORY ≠ SUCCESS), (by decide : handles [] = 0), (by decide : blocks [] = 0), (by decide : List.count Act.free [] ≤ 1), (by decide : Act.opened ∉ []), rfl, rfl⟩
    · rw [if_neg h2]
      by_cases h3 : y.convertErr = 0
      · rw [if_neg (fun x => x h3)]
        by_cases h4 : y.openErr = 0
        · rcases h with h | h | h | h
          · exact absurd h1 h
          · exact absurd h h2
          · exact absurd h3 h
          · exact absurd h4 h
        · rw [if_pos h4]; exact ⟨h4, (by decide : handles [.alloc, .free] = 0), (by decide : blocks [.alloc, .free] = 0), (by decide : List.count Act.free [.alloc, .free] ≤ 1), (by decide : Act.opened ∉ [.alloc, .free]), rfl, rfl⟩
      · rw [if_pos h3]; exact ⟨h3, (by decide : handles [.alloc, .free] = 0), (by decide : blocks [.alloc, .free] = 0), (by decide : List.count Act.free [.alloc, .free] ≤ 1), (by decide : Act.opened ∉ [.alloc, .free]), rfl, rfl⟩
  · rw [if_pos h1]; exact ⟨h1, (by decide : handles [] = 0), (by decide : blocks [] = 0), (by decide : List.count Act.free [] ≤ 1), (by decide : Act.opened ∉ []), rfl, rfl⟩

/-- C58 fails for every failure after CreateFileW: the memory of the file name is freed a second time. -/
theorem late_failure_frees_twice (y : InitSys) (d : Dcb) (t : Timeouts) (h : (init y d t).err ≠ SUCCESS)
    (h1 : y.lengthErr = 0) (h2 : y.malloc = true) (h3 : y.convertErr = 0) (h4 : y.openErr = 0) :
    (init y d t).acts.count .alloc = 1 ∧ (init y d t).acts.count .free = 2 := by
  have hm : ¬ y.malloc = false := by rw [h2]; decide
  revert h
  unfold init
  rw [if_neg (fun x => x h1), if_neg hm, if_neg (fun x => x h3), if_neg (fun x => x h4)]
  dsimp only
  split
  · intro _; exact ⟨(by decide : List.count Act.alloc ([.alloc, .opened, .free] ++ [.closed, .free]) = 1), (by decide : List.count Act.free ([.alloc, .opened, .free] ++ [.closed, .free]) = 2)⟩
  · split
    · intro _; exact ⟨(by decide : List.count Act.alloc ([.alloc, .opened, .free] ++ [.closed, .free]) = 1), (by decide : List.count Act.free ([.alloc, .opened, .free] ++ [.closed, .free]) = 2)⟩
    · split
      · intro _; exact ⟨(by decide : List.count Act.alloc ([.alloc, .opened, .free] ++ [.closed, .free]) = 1), (by decide : List.count Act.free ([.alloc, .opened, .free] ++ [.closed, .free]) = 2)⟩
      · split
        · intro _; exact ⟨(by decide : List.count Act.alloc ([.alloc, .opened, .free] ++ [.closed, .free]) = 1), (by decide : List.count Act.free ([.alloc, .opened, .free] ++ [.closed, .free]) = 2)⟩
        · split
          · intro _; exact ⟨(by decide : List.count Act.alloc ([.alloc, .opened, .free] ++ [.closed, .closed, .free]) = 1), (by decide : List.count Act.free ([.alloc, .opened, .free] ++ [.closed, .closed, .free]) = 2)⟩
          · intro h; exact absurd rfl h

/-- C58 fails when the handle cannot be added to the completion port: the handle is closed twice. -/
theorem port_failure_closes_twice (d : Dcb) (t : Timeouts) :
    (init { portErr := -8 } d t).err = -8 ∧ (init { portErr := -8 } d t).acts = [.alloc, .opened, .free, .closed, .closed, .free] := ⟨rfl, rfl⟩

/-- C58: no failure leaves the handle open. -/
theorem init_failure_closes (y : InitSys) (d : Dcb) (t : Timeouts) (h : (init y d t).err ≠ SUCCESS) : handles (init y d t).acts ≤ 0 := by
  revert h
  unfold init
  dsimp only
  repeat' split
  all_goals first | (intro _; exact (by decide : handles [] ≤ 0)) | (intro _; exact (by decide : handles [.alloc, .free] ≤ 0)) |
    (intro _; exact (by decide : handles ([.alloc, .opened, .free] ++ [.closed, .free]) ≤ 0)) |
    (intro _; exact (by decide : handles ([.alloc, .opened, .free] ++ [.closed, .closed, .free]) ≤ 0)) | (intro h; exact absurd rfl h)

/-- Cases that meet the hypotheses. -/
example : (init {} someDcb ⟨0, 0, 0, 0, 0⟩).err = SUCCESS ∧ (init { openErr := -2 } someDcb ⟨0, 0, 0, 0, 0⟩).err = -2 ∧
    (init { getErr := -5, portErr := -8 } someDcb ⟨0, 0, 0, 0, 0⟩).err = -5 := ⟨rfl, rfl, rfl⟩

end Cio.Windows.Uart
