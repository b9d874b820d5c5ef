import Verif.Uart.Model
set_option linter.unusedSimpArgs false
/-
Property theorems for serial port settings (C34).
-/
namespace Cio.Uart

/-! ### Specification -/

/-- One call of a setter. -/
inductive Setting where
  | parity (p : Parity)
  | stopBits (n : StopBits)
  | dataBits (n : DataBits)
  | flowControl (f : FlowControl)
  | baud (b : Baud)
  deriving DecidableEq, Repr

/-- What the five getters report. -/
structure View where
  parity : Except Err Parity
  stopBits : Except Err StopBits
  dataBits : Except Err DataBits
  flowControl : Except Err FlowControl
  baud : Except Err Baud

/-- The call of the library for a setting. -/
def set (sys : Sys) (t : Termios) : Setting → Err × Termios
  | .parity p => setParity sys t (some p)
  | .stopBits n => setStopBits sys t (some n)
  | .dataBits n => setDataBits sys t (some n)
  | .flowControl f => setFlowControl sys t (some f)
  | .baud b => setBaud sys t (some b)

def view (t : Termios) : View := ⟨getParity {} t, getStopBits {} t, getDataBits {} t, getFlowControl {} t, getBaud {} t⟩

/-- What the getters are expected to report after a setting was changed: the new value, and for the other settings what they were. -/
def View.change (v : View) : Setting → View
  | .parity p => { v with parity := .ok p }
  | .stopBits n => { v with stopBits := .ok n }
  | .dataBits n => { v with dataBits := .ok n }
  | .flowControl f => { v with flowControl := .ok f }
  | .baud b => { v with baud := .ok b }

/-! ### Lemmas -/

theorem or_and (a b m : BitVec 32) : (a ||| b) &&& m = (a &&& m) ||| (b &&& m) := BitVec.and_or_distrib_right

theorem absorb (a m : BitVec 32) : (a &&& m) ||| m = m := by
  apply BitVec.eq_of_getLsbD_eq
  intro i hi
  rw [BitVec.getLsbD_or, BitVec.getLsbD_and]
  cases a.getLsbD i <;> cases m.getLsbD i <;> rfl

theorem setter_ok {sys : Sys} {t : Termios} {f : Termios → Option Termios} (h : (setter sys t f).1 = SUCCESS) :
    f t = some (setter sys t f).2 := by
  unfold setter getCurrent setTermios at *
  by_cases h1 : sys.getErr = 0
  · simp only [h1, ne_eq, not_true, if_false] at h ⊢
    cases hf : f t with
    | none => rw [hf] at h; have h : INVALID_ARGUMENT = SUCCESS := h; exact absurd h (by decide)
    | some x =>
      rw [hf] at h
      simp only at h ⊢
      by_cases h2 : sys.flushErr = 0
      · by_cases h3 : sys.setErr = 0
        · simp [h2, h3]
        · simp [h2, h3] at h; exact absurd h h3
      · simp [h2] at h; exact absurd h h2
  · simp [h1] at h; exact absurd h h1

theorem setter_failed {sys : Sys} {t : Termios} {f : Termios → Option Termios} (h : (setter sys t f).1 ≠ SUCCESS) :
    (setter sys t f).2 = t := by
  unfold setter getCurrent setTermios at *
  by_cases h1 : sys.getErr = 0
  · simp only [h1, ne_eq, not_true, if_false] at h ⊢
    cases hf : f t with
    | none => rfl
    | some x =>
      rw [hf] at h
      simp only at h ⊢
      by_cases h2 : sys.flushErr = 0
      · by_cases h3 : sys.setErr = 0
        · simp [h2, h3] at h
        · simp [h2, h3]
      · simp [h2]
  · simp [h1]

/-- What the getters look at. -/
structure Same (a b : Termios) (p s d f r : Bool) : Prop where
  parity : p = true → a.cflag &&& PARENB = b.cflag &&& PARENB ∧ a.cflag &&& CMSPAR = b.cflag &&& CMSPAR ∧ a.cflag &&& PARODD = b.cflag &&& PARODD
  stop : s = true → a.cflag &&& CSTOPB = b.cflag &&& CSTOPB
  data : d = true → a.cflag &&& CSIZE = b.cflag &&& CSIZE
  flow : f = true → a.cflag &&& CRTSCTS = b.cflag &&& CRTSCTS ∧ a.iflag &&& IXON = b.iflag &&& IXON ∧ a.iflag &&& IXOFF = b.iflag &&& IXOFF ∧
    a.iflag &&& IXANY = b.iflag &&& IXANY
  baud : r = true → a.cflag &&& CBAUD = b.cflag &&& CBAUD ∧ a.iflag &&& IBAUD0 = b.iflag &&& IBAUD0

theorem Same.view {a b : Termios} {p s d f r : Bool} (h : Same a b p s d f r) :
    (p = true → getParity {} a = getParity {} b) ∧ (s = true → getStopBits {} a = getStopBits {} b) ∧
    (d = true → getDataBits {} a = getDataBits {} b) ∧ (f = true → getFlowControl {} a = getFlowControl {} b) ∧
    (r = true → getBaud {} a = getBaud {} b) := by
  obtain ⟨h1, h2, h3, h4, h5⟩ := h
  refine ⟨?_, ?_, ?_, ?_, ?_⟩
  · intro h
    obtain ⟨e1, e2, e3⟩ := h1 h
    unfold getParity getCurrent
    simp only [ne_eq, not_true, if_false, Except.map, e1, e2, e3]
  · intro h
    unfold getStopBits getCurrent
    simp only [ne_eq, not_true, if_false, Except.map, h2 h]
  · intro h
    unfold getDataBits getCurrent
    simp only [ne_eq, not_true, if_false, Except.map, h3 h]
  · intro h
    obtain ⟨e1, e2, e3, e4⟩ := h4 h
    unfold getFlowControl getCurrent ctsRtsEnabled xonXoffEnabled
    simp only [ne_eq, not_true, if_false, e1, e2, e3, e4]
  · intro h
    obtain ⟨e1, e2⟩ := h5 h
    unfold getBaud getCurrent cfgetispeed
    simp only [ne_eq, not_true, if_false, e1, e2]

theorem view_ext {a b : View} (h1 : a.parity = b.parity) (h2 : a.stopBits = b.stopBits) (h3 : a.dataBits = b.dataBits)
    (h4 : a.flowControl = b.flowControl) (h5 : a.baud = b.baud) : a = b := by
  cases a; cases b; simp_all

/-- The setting of the data bits takes effect: the old value has no bits the new one lacks. -/
def DataOk (t : Termios) : Setting → Prop
  | .dataBits n => getDataBits {} t = .ok .five ∨ getDataBits {} t = .ok n ∨ n = .eight
  | _ => True

theorem csize_five {c : BitVec 32} (h : (if c &&& CSIZE = CS5 then DataBits.five else if c &&& CSIZE = CS6 then .six else if c &&& CSIZE = CS7 then .seven else .eight) = .five) :
    c &&& CSIZE = CS5 := by
  by_cases h1 : c &&& CSIZE = CS5
  · exact h1
  · rw [if_neg h1] at h
    by_cases h2 : c &&& CSIZE = CS6
    · rw [if_pos h2] at h; cases h
    · rw [if_neg h2] at h
      by_cases h3 : c &&& CSIZE = CS7
      · rw [if_pos h3] at h; cases h
      · rw [if_neg h3] at h; cases h

/-- The two CSIZE bits have four values. -/
theorem csize_cases (c : BitVec 32) : c &&& CSIZE = CS5 ∨ c &&& CSIZE = CS6 ∨ c &&& CSIZE = CS7 ∨ c &&& CSIZE = CS8 := by
  have key : ∀ x y : Bool, (c.getLsbD 4 = x) → (c.getLsbD 5 = y) → c &&& CSIZE = (if x then 0x10#32 else 0#32) ||| (if y then 0x20#32 else 0#32) := by
    intro x y h4 h5
    apply BitVec.eq_of_getLsbD_eq
    intro i hi
    rw [BitVec.getLsbD_and]
    by_cases e4 : i = 4
    · subst e4; rw [h4]; cases x <;> cases y <;> decide
    · by_cases e5 : i = 5
      · subst e5; rw [h5]; cases x <;> cases y <;> decide
      · have : ∀ i, i < 32 → i ≠ 4 → i ≠ 5 → CSIZE.getLsbD i = false ∧ (0x10#32).getLsbD i = false ∧ (0x20#32).getLsbD i = false := by decide
        obtain ⟨a1, a2, a3⟩ := this i hi e4 e5
        rw [a1, Bool.and_false]
        cases x <;> cases y <;> simp only [if_true, if_false, Bool.false_eq_true, BitVec.getLsbD_or, a2, a3, BitVec.getLsbD_zero, Bool.or_false]
  have := key _ _ rfl rfl
  cases h4 : c.getLsbD 4 <;> cases h5 : c.getLsbD 5 <;> rw [h4, h5] at this
  · exact .inl this
  · exact .inr (.inr (.inl this))
  · exact .inr (.inl this)
  · exact .inr (.inr (.inr this))

/-! ### C34: theorems -/

theorem ite_ok_error {α : Type} {c : Prop} [Decidable c] {a : α} {x : Except Err α} {e : Err} (h : (if c then .ok a else x) = .error e) : x = .error e := by
  split at h
  · cases h
  · exact h

theorem getCurrent_error {sys : Sys} {t : Termios} {e : Err} (h : getCurrent sys t = .error e) : e ≠ SUCCESS := by
  unfold getCurrent at h
  split at h
  · next hn => cases h; exact hn
  · cases h

/-- C34: a getter that could not tell the value (whatever the reason) returns an error code, never that of success: the caller does not use a variable that
was not written. -/
theorem getter_errors_real (sys : Sys) (t : Termios) (e : Err)
    (h : getParity sys t = .error e ∨ getStopBits sys t = .error e ∨ getDataBits sys t = .error e ∨ getBaud sys t = .error e ∨ getFlowControl sys t = .error e) :
    e ≠ SUCCESS := by
  have nz : PROTOCOL_NOT_SUPPORTED ≠ SUCCESS := by decide
  have hc := @getCurrent_error sys t e
  unfold getParity getStopBits getDataBits getBaud getFlowControl at h
  cases hg : getCurrent sys t with
  | error e' =>
    rw [hg] at h hc
    have : e' = e := by rcases h with h | h | h | h | h <;> (injection h)
    exact hc (by rw [this])
  | ok tty =>
    rw [hg] at h
    rcases h with h | h | h | h | h
    · cases h
    · cases h
    · cases h
    · dsimp only at h
      generalize cfgetispeed tty = x at h
      repeat (replace h := ite_ok_error h)
      injection h with h; rw [← h]; exact nz
    · dsimp only at h
      generalize ctsRtsEnabled tty.cflag = a at h
      generalize xonXoffEnabled tty.iflag = b at h
      cases a <;> cases b <;> first | (injection h; done) | (injection h with h; rw [← h]; exact nz)

/-- C34: after a successful call of a setter, the getter reports the new value and all other getters report what they did before, whatever
the terminal's flags were.
Missing for the full property: lowering the number of data bits (`data_bits_not_cleared` shows that the claim fails for it). -/
theorem set_view_partial (sys : Sys) (t : Termios) (x : Setting) (hd : DataOk t x) (h : (set sys t x).1 = SUCCESS) :
    view (set sys t x).2 = (view t).change x := by
  cases x with
  | parity p =>
    have h := setter_ok h
    have key : Same (set sys t (.parity p)).2 t false true true true true ∧ getParity {} (set sys t (.parity p)).2 = .ok p := by
      change _ = some (set sys t (.parity p)).2 at h
      generalize (set sys t (.parity p)).2 = t' at h
      cases p <;> injection h with h <;> subst h <;>
        (refine ⟨⟨?_, ?_, ?_, ?_, ?_⟩, ?_⟩ <;>
        simp [getParity, getCurrent, Except.map, or_and, absorb, BitVec.and_assoc, CMSPAR, PARENB, PARODD, CSIZE, CSTOPB, CRTSCTS, CBAUD])
    exact view_ext key.2 (key.1.view.2.1 rfl) (key.1.view.2.2.1 rfl) (key.1.view.2.2.2.1 rfl) (key.1.view.2.2.2.2 rfl)
  | stopBits n =>
    have h := setter_ok h
    have key : Same (set sys t (.stopBits n)).2 t true false true true true ∧ getStopBits {} (set sys t (.stopBits n)).2 = .ok n := by
      change _ = some (set sys t (.stopBits n)).2 at h
      generalize (set sys t (.stopBits n)).2 = t' at h
      cases n <;> injection h with h <;> subst h <;>
        (refine ⟨⟨?_, ?_, ?_, ?_, ?_⟩, ?_⟩ <;>
        simp [getStopBits, getCurrent, Except.map, or_and, absorb, BitVec.and_assoc, CMSPAR, PARENB, PARODD, CSIZE, CSTOPB, CRTSCTS, CBAUD])
    exact view_ext (key.1.view.1 rfl) key.2 (key.1.view.2.2.1 rfl) (key.1.view.2.2.2.1 rfl) (key.1.view.2.2.2.2 rfl)
  | dataBits n =>
    have h := setter_ok h
    have hd : t.cflag &&& CSIZE = CS5 ∨ getDataBits {} t = .ok n ∨ n = .eight := by
      rcases hd with h | h
      · left
        unfold getDataBits getCurrent at h
        simp only [ne_eq, not_true, if_false, Except.map] at h
        injection h with h
        exact csize_five h
      · exact .inr h
    have key : Same (set sys t (.dataBits n)).2 t true true false true true ∧ getDataBits {} (set sys t (.dataBits n)).2 = .ok n := by
      change _ = some (set sys t (.dataBits n)).2 at h
      generalize (set sys t (.dataBits n)).2 = t' at h
      constructor
      · cases n <;> injection h with h <;> subst h <;>
          (refine ⟨?_, ?_, ?_, ?_, ?_⟩ <;>
          simp [or_and, absorb, BitVec.and_assoc, CMSPAR, PARENB, PARODD, CSTOPB, CRTSCTS, CBAUD, CS5, CS6, CS7, CS8])
      · have hd2 : ∀ v : BitVec 32, getDataBits {} { t with cflag := t.cflag ||| v } = .ok (
            if (t.cflag &&& CSIZE) ||| (v &&& CSIZE) = CS5 then .five else if (t.cflag &&& CSIZE) ||| (v &&& CSIZE) = CS6 then .six
            else if (t.cflag &&& CSIZE) ||| (v &&& CSIZE) = CS7 then .seven else .eight) := by
          intro v
          unfold getDataBits getCurrent
          simp only [ne_eq, not_true, if_false, Except.map, or_and]
        have hd3 : getDataBits {} t = .ok (
            if t.cflag &&& CSIZE = CS5 then .five else if t.cflag &&& CSIZE = CS6 then .six
            else if t.cflag &&& CSIZE = CS7 then .seven else .eight) := by
          unfold getDataBits getCurrent
          simp only [ne_eq, not_true, if_false, Except.map]
        rw [hd3, Except.ok.injEq] at hd
        have hc := csize_cases t.cflag
        cases n <;> injection h with h <;> subst h <;> rw [hd2, Except.ok.injEq] <;> generalize t.cflag &&& CSIZE = x at hd hc <;>
          (rcases hc with hc | hc | hc | hc <;> subst hc <;> revert hd <;> decide)
    exact view_ext (key.1.view.1 rfl) (key.1.view.2.1 rfl) key.2 (key.1.view.2.2.2.1 rfl) (key.1.view.2.2.2.2 rfl)
  | flowControl f =>
    have h := setter_ok h
    have key : Same (set sys t (.flowControl f)).2 t true true true false true ∧ getFlowControl {} (set sys t (.flowControl f)).2 = .ok f := by
      change _ = some (set sys t (.flowControl f)).2 at h
      generalize (set sys t (.flowControl f)).2 = t' at h
      cases f <;> injection h with h <;> subst h <;>
        (refine ⟨⟨?_, ?_, ?_, ?_, ?_⟩, ?_⟩ <;>
        simp [getFlowControl, getCurrent, ctsRtsEnabled, xonXoffEnabled, or_and, absorb, BitVec.and_assoc, CMSPAR, PARENB, PARODD, CSIZE, CSTOPB, CRTSCTS, CBAUD, IXON, IXOFF, IXANY, IBAUD0])
    exact view_ext (key.1.view.1 rfl) (key.1.view.2.1 rfl) (key.1.view.2.2.1 rfl) key.2 (key.1.view.2.2.2.2 rfl)
  | baud b =>
    have h := setter_ok h
    have key : Same (set sys t (.baud b)).2 t true true true true false ∧ getBaud {} (set sys t (.baud b)).2 = .ok b := by
      change _ = some (set sys t (.baud b)).2 at h
      generalize (set sys t (.baud b)).2 = t' at h
      have hsp : cfgetispeed (cfsetspeed t (speedOf b)) = speedOf b := by
        unfold cfgetispeed cfsetspeed
        simp [or_and, BitVec.and_assoc, IBAUD0, CBAUD]
        cases b <;> decide
      have hm : speedOf b &&& PARENB = 0#32 ∧ speedOf b &&& CMSPAR = 0#32 ∧ speedOf b &&& PARODD = 0#32 ∧ speedOf b &&& CSTOPB = 0#32 ∧
          speedOf b &&& CSIZE = 0#32 ∧ speedOf b &&& CRTSCTS = 0#32 := by cases b <;> decide
      obtain ⟨m1, m2, m3, m4, m5, m6⟩ := hm
      injection h with h; subst h
      refine ⟨⟨?_, ?_, ?_, ?_, ?_⟩, ?_⟩
      rotate_right
      · unfold getBaud getCurrent
        simp only [ne_eq, not_true, if_false, hsp]
        cases b <;> rfl
      all_goals simp only [cfsetspeed, or_and, m1, m2, m3, m4, m5, m6, BitVec.or_zero]
      all_goals simp [BitVec.and_assoc, CMSPAR, PARENB, PARODD, CSIZE, CSTOPB, CRTSCTS, CBAUD, IXON, IXOFF, IXANY, IBAUD0]
    exact view_ext (key.1.view.1 rfl) (key.1.view.2.1 rfl) (key.1.view.2.2.1 rfl) (key.1.view.2.2.2.1 rfl) key.2

example : DataOk ⟨0#32, 0#32, 0x10#32, 0#32, 0, 0⟩ (.dataBits .eight) ∧
    (set {} ⟨0#32, 0#32, 0x10#32, 0#32, 0, 0⟩ (.dataBits .eight)).1 = SUCCESS := ⟨.inr (.inr rfl), by decide⟩

/-- C34: a setter that fails (a system call fails) leaves everything as it was. -/
theorem set_failed (sys : Sys) (t : Termios) (x : Setting) (h : (set sys t x).1 ≠ SUCCESS) : (set sys t x).2 = t := by
  cases x <;> exact setter_failed h

/-- A sequence of calls of setters, each with what the operating system does in it: the terminal afterwards and what the calls returned. -/
def run (t : Termios) : List (Sys × Setting) → Termios × List (Setting × Err)
  | [] => (t, [])
  | x :: l => ((run (set x.1 t x.2).2 l).1, (x.2, (set x.1 t x.2).1) :: (run (set x.1 t x.2).2 l).2)

/-- The expected result of a sequence of calls: every call that succeeded changed its setting. -/
def expected (v : View) (calls : List (Setting × Err)) : View :=
  calls.foldl (fun v c => if c.2 = SUCCESS then v.change c.1 else v) v

/-- Every call with a number of data bits finds a value that has no bits the new one lacks. -/
def DataOks (t : Termios) : List (Sys × Setting) → Prop
  | [] => True
  | x :: l => DataOk t x.2 ∧ DataOks (set x.1 t x.2).2 l

/-- C34 for all sequences of calls: each getter reports the last value that was set successfully, or what the terminal had at first.
Missing for the full property: lowering the number of data bits. -/
theorem history_partial (t : Termios) (l : List (Sys × Setting)) (h : DataOks t l) : view (run t l).1 = expected (view t) (run t l).2 := by
  induction l generalizing t with
  | nil => rfl
  | cons x l ih =>
    obtain ⟨h1, h2⟩ := h
    have h3 := ih _ h2
    show view (run (set x.1 t x.2).2 l).1 = expected (if (set x.1 t x.2).1 = SUCCESS then (view t).change x.2 else view t) (run (set x.1 t x.2).2 l).2
    rw [h3]
    by_cases hs : (set x.1 t x.2).1 = SUCCESS
    · rw [if_pos hs, set_view_partial _ _ _ h1 hs]
    · rw [if_neg hs, set_failed _ _ _ hs]

/-- A history that meets the hypothesis, with a failing call and data bits that grow. -/
example : DataOks ⟨0#32, 0#32, 0#32, 0#32, 0, 0⟩ [({}, .dataBits .six), ({ setErr := -5 }, .parity .odd), ({}, .baud .b9600), ({}, .dataBits .eight)] :=
  ⟨.inl rfl, trivial, trivial, .inr (.inr rfl), trivial⟩

/-- Values outside of the enumerations are refused and nothing changes. -/
theorem invalid_refused (t : Termios) :
    setParity {} t none = (INVALID_ARGUMENT, t) ∧ setStopBits {} t none = (INVALID_ARGUMENT, t) ∧ setDataBits {} t none = (INVALID_ARGUMENT, t) ∧
    setFlowControl {} t none = (INVALID_ARGUMENT, t) ∧ setBaud {} t none = (INVALID_ARGUMENT, t) := ⟨rfl, rfl, rfl, rfl, rfl⟩

/-- `cio_uart_set_num_data_bits` ors the new value to the old one: a port with eight data bits keeps them. -/
theorem data_bits_not_cleared (t : Termios) (h : getDataBits {} t = .ok .eight) (n : DataBits) :
    (setDataBits {} t (some n)).1 = SUCCESS ∧ getDataBits {} (setDataBits {} t (some n)).2 = .ok .eight := by
  have hc : t.cflag &&& CSIZE = CS8 := by
    unfold getDataBits getCurrent at h
    simp only [ne_eq, not_true, if_false, Except.map] at h
    injection h with h
    rcases csize_cases t.cflag with hc | hc | hc | hc
    · rw [hc] at h; cases h
    · rw [hc] at h; cases h
    · rw [hc] at h; cases h
    · exact hc
  have hd2 : ∀ v : BitVec 32, getDataBits {} { t with cflag := t.cflag ||| v } = .ok (
      if CS8 ||| (v &&& CSIZE) = CS5 then .five else if CS8 ||| (v &&& CSIZE) = CS6 then .six
      else if CS8 ||| (v &&& CSIZE) = CS7 then .seven else .eight) := by
    intro v
    unfold getDataBits getCurrent
    simp only [ne_eq, not_true, if_false, Except.map, or_and, hc]
  cases n
  · exact ⟨rfl, hd2 CS5⟩
  · exact ⟨rfl, hd2 CS6⟩
  · exact ⟨rfl, hd2 CS7⟩
  · exact ⟨rfl, hd2 CS8⟩

/-- The unrestricted claim is false: there are settings and a value for which the getter does not report what was set. -/
theorem full_claim_false : ¬ ∀ (t : Termios) (n : DataBits), getDataBits {} (setDataBits {} t (some n)).2 = .ok n := by
  intro h
  have h1 := (data_bits_not_cleared ⟨0#32, 0#32, CS8, 0#32, 0, 0⟩ rfl .five).2
  rw [h] at h1
  cases h1

/-! ### C41: opening a port -/

/-- C41: a port that was opened successfully transmits bytes unchanged (no line editing, echo, signals, translations or flow control), at
115200 baud, does not block, and keeps its parity, stop bits and data bits. -/
theorem init_raw (sys : Sys) (o a r : Err) (t : Termios) (h : (init sys o a r t).1 = SUCCESS) :
    let t' := (init sys o a r t).2.1
    (init sys o a r t).2.2 = true ∧
    t'.lflag &&& (ICANON ||| ECHO ||| ECHOE ||| ECHONL ||| ISIG) = 0#32 ∧ t'.oflag &&& (OPOST ||| ONLCR) = 0#32 ∧
    t'.iflag &&& (IGNBRK ||| BRKINT ||| PARMRK ||| ISTRIP ||| INLCR ||| IGNCR ||| ICRNL ||| IXON ||| IXOFF ||| IXANY) = 0#32 ∧
    t'.vtime = 0 ∧ t'.vmin = 0 ∧
    getFlowControl {} t' = .ok .none ∧ getBaud {} t' = .ok .b115200 ∧ getParity {} t' = getParity {} t ∧ getStopBits {} t' = getStopBits {} t ∧
    getDataBits {} t' = getDataBits {} t := by
  have hkey : (init sys o a r t).2.2 = true ∧ (init sys o a r t).2.1 = initSettings t := by
    unfold init getCurrent setTermios at *
    by_cases h1 : o = 0
    · by_cases h2 : sys.getErr = 0
      · by_cases h3 : sys.flushErr = 0
        · by_cases h4 : sys.setErr = 0
          · by_cases h5 : a = 0
            · by_cases h6 : r = 0
              · simp [h1, h2, h3, h4, h5, h6, SUCCESS]
              · simp [h1, h2, h3, h4, h5, h6, SUCCESS] at h
            · simp [h1, h2, h3, h4, h5, SUCCESS] at h
          · simp [h1, h2, h3, h4, SUCCESS] at h
        · simp [h1, h2, h3, SUCCESS] at h
      · simp [h1, h2, SUCCESS] at h
    · simp [h1, SUCCESS] at h
  intro t'
  have ht' : t' = initSettings t := hkey.2
  rw [ht']
  have hs : Same (initSettings t) t true true true false false := by
    constructor <;> simp [initSettings, cfsetspeed, speedOf, or_and, BitVec.and_assoc, CMSPAR, PARENB, PARODD, CSIZE, CSTOPB, CRTSCTS, CBAUD]
  refine ⟨hkey.1, ?_, ?_, ?_, rfl, rfl, ?_, ?_, hs.view.1 rfl, hs.view.2.1 rfl, hs.view.2.2.1 rfl⟩
  · simp [initSettings, cfsetspeed, BitVec.and_assoc, ICANON, ECHO, ECHOE, ECHONL, ISIG]
  · simp [initSettings, cfsetspeed, BitVec.and_assoc, OPOST, ONLCR]
  · simp [initSettings, cfsetspeed, BitVec.and_assoc, IGNBRK, BRKINT, PARMRK, ISTRIP, INLCR, IGNCR, ICRNL, IXON, IXOFF, IXANY, IBAUD0]
  · simp [getFlowControl, getCurrent, ctsRtsEnabled, xonXoffEnabled, initSettings, cfsetspeed, speedOf, or_and, BitVec.and_assoc, CRTSCTS, CBAUD, IXON, IXOFF, IXANY, IBAUD0, IGNBRK, BRKINT, PARMRK, ISTRIP, INLCR, IGNCR, ICRNL]
  · have hsp : cfgetispeed (initSettings t) = speedOf .b115200 := by
      simp [cfgetispeed, initSettings, cfsetspeed, speedOf, or_and, BitVec.and_assoc, IBAUD0, CBAUD, CRTSCTS, IGNBRK, BRKINT, PARMRK, ISTRIP, INLCR, IGNCR, ICRNL, IXON, IXOFF, IXANY]
    unfold getBaud getCurrent
    simp only [ne_eq, not_true, if_false, hsp]
    rfl

/-- The hypothesis can be met. -/
example : (init {} 0 0 0 ⟨0xffffffff#32, 0xffffffff#32, 0xffffffff#32, 0xffffffff#32, 1, 1⟩).1 = SUCCESS := by decide

/-- C41: if opening fails nothing stays open – unless `tcgetattr` failed. -/
theorem init_failed_partial (sys : Sys) (o a r : Err) (t : Termios) (h : (init sys o a r t).1 ≠ SUCCESS) (hg : sys.getErr = 0) :
    (init sys o a r t).2.2 = false := by
  unfold init getCurrent setTermios at *
  by_cases h1 : o = 0
  · by_cases h3 : sys.flushErr = 0
    · by_cases h4 : sys.setErr = 0
      · by_cases h5 : a = 0
        · by_cases h6 : r = 0
          · simp [h1, hg, h3, h4, h5, h6, SUCCESS] at h
          · simp [h1, hg, h3, h4, h5, h6, SUCCESS]
        · simp [h1, hg, h3, h4, h5, SUCCESS]
      · simp [h1, hg, h3, h4, SUCCESS]
    · simp [h1, hg, h3, SUCCESS]
  · simp [h1]

/-- If `tcgetattr` fails the descriptor stays open although `cio_uart_init` reports an error. -/
theorem init_leaks_descriptor (t : Termios) : (init { getErr := -25 } 0 0 0 t).1 = -25 ∧ (init { getErr := -25 } 0 0 0 t).2.2 = true := ⟨rfl, rfl⟩

end Cio.Uart
