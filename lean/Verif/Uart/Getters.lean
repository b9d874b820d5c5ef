import Verif.Uart.Props
/-
What the getters of serial ports report, in terms of the bits of the terminal settings (C34).
-/
namespace Cio.Uart

theorem flag_zero (c : BitVec 32) (i : Nat) (hi : i < 32) : c &&& BitVec.twoPow 32 i = 0#32 ↔ c.getLsbD i = false := by
  constructor
  · intro h
    have := congrArg (fun b => b.getLsbD i) h
    simpa [hi] using this
  · intro h
    apply BitVec.eq_of_getLsbD_eq
    intro j hj
    by_cases e : i = j
    · subst e; simp [h]
    · simp [e]

theorem flag_set (c : BitVec 32) (i : Nat) (hi : i < 32) : c &&& BitVec.twoPow 32 i = BitVec.twoPow 32 i ↔ c.getLsbD i = true := by
  constructor
  · intro h
    have := congrArg (fun b => b.getLsbD i) h
    simpa [hi] using this
  · intro h
    apply BitVec.eq_of_getLsbD_eq
    intro j hj
    by_cases e : i = j
    · subst e; simp [h]
    · simp [e]

/-- termios(3): the bits of `c_cflag` that mean this parity: (PARENB, PARODD, CMSPAR) = bits 8, 9 and 30. -/
def HasParity (c : BitVec 32) : Parity → Prop
  | .none => c.getLsbD 8 = false
  | .odd => c.getLsbD 8 = true ∧ c.getLsbD 30 = false ∧ c.getLsbD 9 = true
  | .even => c.getLsbD 8 = true ∧ c.getLsbD 30 = false ∧ c.getLsbD 9 = false
  | .mark => c.getLsbD 8 = true ∧ c.getLsbD 30 = true ∧ c.getLsbD 9 = true
  | .space => c.getLsbD 8 = true ∧ c.getLsbD 30 = true ∧ c.getLsbD 9 = false

/-- CSTOPB is bit 6. -/
def HasStopBits (c : BitVec 32) (n : StopBits) : Prop := c.getLsbD 6 = (n == .two)

/-- CSIZE is bits 4 and 5. -/
def HasDataBits (c : BitVec 32) : DataBits → Prop
  | .five => c.getLsbD 5 = false ∧ c.getLsbD 4 = false
  | .six => c.getLsbD 5 = false ∧ c.getLsbD 4 = true
  | .seven => c.getLsbD 5 = true ∧ c.getLsbD 4 = false
  | .eight => c.getLsbD 5 = true ∧ c.getLsbD 4 = true

/-- CRTSCTS is bit 31 of `c_cflag`; IXON, IXANY and IXOFF are the bits 10, 11 and 12 of `c_iflag`. -/
def HasFlow (t : Termios) (hard soft : Bool) : Prop :=
  t.cflag.getLsbD 31 = hard ∧ (t.iflag.getLsbD 10 && t.iflag.getLsbD 11 && t.iflag.getLsbD 12) = soft

theorem twoPows : PARENB = BitVec.twoPow 32 8 ∧ PARODD = BitVec.twoPow 32 9 ∧ CMSPAR = BitVec.twoPow 32 30 ∧ CSTOPB = BitVec.twoPow 32 6 ∧
    CRTSCTS = BitVec.twoPow 32 31 ∧ IXON = BitVec.twoPow 32 10 ∧ IXANY = BitVec.twoPow 32 11 ∧ IXOFF = BitVec.twoPow 32 12 := by decide

theorem csize_bits (c : BitVec 32) : (c &&& CSIZE).getLsbD 4 = c.getLsbD 4 ∧ (c &&& CSIZE).getLsbD 5 = c.getLsbD 5 := by
  have h4 : CSIZE.getLsbD 4 = true := by decide
  have h5 : CSIZE.getLsbD 5 = true := by decide
  rw [BitVec.getLsbD_and, BitVec.getLsbD_and, h4, h5, Bool.and_true, Bool.and_true]
  exact ⟨rfl, rfl⟩

theorem ite_ok {c : Prop} [Decidable c] {α β : Type} {x b : β} {y : Except α β} (h : (if c then .ok x else y) = .ok b) : (c ∧ x = b) ∨ y = .ok b := by
  by_cases hc : c
  · rw [if_pos hc] at h; injection h with h; exact .inl ⟨hc, h⟩
  · rw [if_neg hc] at h; exact .inr h

/-- C34: the getters tell the truth about every state of the terminal. -/
theorem getters_truthful (t : Termios) :
    (∀ p, getParity {} t = .ok p ↔ HasParity t.cflag p) ∧ (∀ n, getStopBits {} t = .ok n ↔ HasStopBits t.cflag n) ∧
    (∀ n, getDataBits {} t = .ok n ↔ HasDataBits t.cflag n) ∧
    (getFlowControl {} t = .ok .none ↔ HasFlow t false false) ∧ (getFlowControl {} t = .ok .rtsCts ↔ HasFlow t true false) ∧
    (getFlowControl {} t = .ok .xonXoff ↔ HasFlow t false true) ∧
    (∀ b, getBaud {} t = .ok b ↔ cfgetispeed t = speedOf b) := by
  have hg : getCurrent {} t = .ok t := rfl
  obtain ⟨t1, t2, t3, t4, t5, t6, t7, t8⟩ := twoPows
  refine ⟨fun p => ?_, fun n => ?_, fun n => ?_, ?_⟩
  · have e : getParity {} t = .ok (if t.cflag &&& PARENB = 0#32 then Parity.none
      else if t.cflag &&& CMSPAR = 0#32 then if t.cflag &&& PARODD = PARODD then .odd else .even
      else if t.cflag &&& PARODD = PARODD then .mark else .space) := rfl
    rw [e, t1, t2, t3]
    simp only [flag_zero _ _ (show 8 < 32 by decide), flag_zero _ _ (show 30 < 32 by decide), flag_set _ _ (show 9 < 32 by decide)]
    generalize t.cflag = c
    unfold HasParity
    cases h1 : c.getLsbD 8 <;> cases h2 : c.getLsbD 30 <;> cases h3 : c.getLsbD 9 <;> cases p <;> simp [h1, h2, h3]
  · have e : getStopBits {} t = .ok (if t.cflag &&& CSTOPB = CSTOPB then StopBits.two else .one) := rfl
    rw [e, t4]
    simp only [flag_set _ _ (show 6 < 32 by decide)]
    unfold HasStopBits
    cases h1 : t.cflag.getLsbD 6 <;> cases n <;> simp [h1] <;> decide
  · have e : getDataBits {} t = .ok (if t.cflag &&& CSIZE = CS5 then DataBits.five else if t.cflag &&& CSIZE = CS6 then .six else if t.cflag &&& CSIZE = CS7 then .seven else .eight) := rfl
    rw [e]
    obtain ⟨b4, b5⟩ := csize_bits t.cflag
    unfold HasDataBits
    rw [← b4, ← b5]
    rw [Except.ok.injEq]
    rcases csize_cases t.cflag with h | h | h | h <;> rw [h] <;> cases n <;> dsimp only <;> decide
  · have ec : ctsRtsEnabled t.cflag = t.cflag.getLsbD 31 := by
      unfold ctsRtsEnabled
      rw [t5, Bool.eq_iff_iff, decide_eq_true_iff]
      exact flag_set _ _ (by decide)
    have ex : xonXoffEnabled t.iflag = (t.iflag.getLsbD 10 && t.iflag.getLsbD 11 && t.iflag.getLsbD 12) := by
      unfold xonXoffEnabled
      rw [t6, t7, t8, Bool.eq_iff_iff]
      simp only [Bool.and_eq_true, decide_eq_true_iff]
      rw [flag_set _ _ (by decide), flag_set _ _ (by decide), flag_set _ _ (by decide)]
      constructor
      · rintro ⟨⟨a, b⟩, c⟩; exact ⟨⟨a, c⟩, b⟩
      · rintro ⟨⟨a, b⟩, c⟩; exact ⟨⟨a, c⟩, b⟩
    have e : getFlowControl {} t = if !ctsRtsEnabled t.cflag && !xonXoffEnabled t.iflag then .ok .none
      else if ctsRtsEnabled t.cflag && !xonXoffEnabled t.iflag then .ok .rtsCts
      else if !ctsRtsEnabled t.cflag && xonXoffEnabled t.iflag then .ok .xonXoff else .error PROTOCOL_NOT_SUPPORTED := rfl
    rw [e, ec, ex]
    unfold HasFlow
    generalize t.cflag.getLsbD 31 = x
    generalize (t.iflag.getLsbD 10 && t.iflag.getLsbD 11 && t.iflag.getLsbD 12) = y
    refine ⟨?_, ?_, ?_, fun b => ?_⟩
    · cases x <;> cases y <;> simp
    · cases x <;> cases y <;> simp
    · cases x <;> cases y <;> simp
    · unfold getBaud
      rw [hg]
      dsimp only
      generalize cfgetispeed t = s
      constructor
      · intro h
        iterate 30
          rcases ite_ok h with ⟨h1, h2⟩ | h
          · subst h2; exact h1
        cases h
      · intro h
        cases b <;> (subst h; rfl)

/-- C34: an error of the operating system is what the getters return. -/
theorem getter_errors (e : Err) (he : e ≠ 0) (sys : Sys) (hs : sys.getErr = e) (t : Termios) :
    getParity sys t = .error e ∧ getStopBits sys t = .error e ∧ getDataBits sys t = .error e ∧ getFlowControl sys t = .error e ∧ getBaud sys t = .error e := by
  have hg : getCurrent sys t = .error e := by unfold getCurrent; rw [if_pos (by rw [hs]; exact he), hs]
  refine ⟨?_, ?_, ?_, ?_, ?_⟩
  · unfold getParity; rw [hg]; rfl
  · unfold getStopBits; rw [hg]; rfl
  · unfold getDataBits; rw [hg]; rfl
  · unfold getFlowControl; rw [hg]
  · unfold getBaud; rw [hg]

/-- A terminal with seven data bits, mark parity, two stop bits and software flow control at 9600 baud. -/
example : let t : Termios := ⟨0x1c00#32, 0#32, 0x4000036d#32, 0#32, 0, 0⟩
    getParity {} t = .ok .mark ∧ getStopBits {} t = .ok .two ∧ getDataBits {} t = .ok .seven ∧ getFlowControl {} t = .ok .xonXoff ∧ getBaud {} t = .ok .b9600 := ⟨rfl, rfl, rfl, rfl, rfl⟩

/-- Hardware and software flow control together have no name in the interface: an error. -/
example : getFlowControl {} ⟨0x1c00#32, 0#32, 0x80000000#32, 0#32, 0, 0⟩ = .error PROTOCOL_NOT_SUPPORTED := rfl

end Cio.Uart
