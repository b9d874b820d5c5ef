import Verif.Windows.UartIoModel
import Verif.Windows.SocketProps
/-
Property theorems for reading from, writing to and closing a serial port on Windows (C59).  The machine is shown to refine that of the sockets
(a socket that is never connected), so that its properties follow from those of C55.
-/
namespace Cio.Windows.UartIo

/-! ### Specification -/

/-- The operation whose handler is called. -/
def answerOf : Obs → Option Nat
  | .readDone k _ _ | .writeDone k _ _ => some k
  | _ => none

/-- How often a handler of operation `k` was called. -/
def answers (k : Nat) (l : List Obs) : Nat := l.countP fun o => answerOf o = some k

def StartedR (k : Nat) (l : List Obs) : Prop := ∃ n, .read k n ∈ l
def StartedW (k : Nat) (l : List Obs) : Prop := ∃ b, .write k b ∈ l

/-- The operation that the operating system has finished. -/
def reportOf : Obs → Option Nat
  | .received k _ | .timeout k | .readFailed k _ | .sent k _ | .writeFailed k _ => some k
  | _ => none

def AllReported (l : List Obs) : Prop := ∀ o ∈ l, ∀ k, reportOf o = some k → answers k l = 1

/-- The rules of use under which the property holds: one read at a time, into a buffer with room for less than 4 GiB; one write at a time;
WriteFile takes the bytes at once; the port is closed once and not used any more after that, and only when nothing that has ended waits for the
event loop. -/
def Rules (s : St) : Move → Prop
  | .read space _ => .close ∉ s.log ∧ 0 < space ∧ space < 4294967296 ∧ ∀ k, StartedR k s.log → answers k s.log = 1
  | .write _ _ _ atOnce => .close ∉ s.log ∧ (∀ k, StartedW k s.log → answers k s.log = 1) ∧ atOnce = true
  | .close => .close ∉ s.log ∧ AllReported s.log
  | _ => True

inductive Reach (rules : St → Move → Prop) : St → Prop
  | init : Reach rules initial
  | step {s s' : St} {m : Move} (h : Reach rules s) (hr : rules s m) (hs : step s m = some s') : Reach rules s'

/-- What may be observed after `p`: handlers are told how the operating system has finished their very operation (a failed write with the error
number instead of its negation, see `positive_write_error`), and none is called after `cio_uart_close`; the handle is closed and the hook is
called after `cio_uart_close` only, and once. -/
def Fits (p : List Obs) : Obs → Prop
  | .readDone k e b => .close ∉ p ∧ ((.received k b ∈ p ∧ b ≠ [] ∧ e = SUCCESS) ∨ (.timeout k ∈ p ∧ e = EOF ∧ b = []) ∨ (∃ x, .readFailed k x ∈ p ∧ e = -x ∧ b = []))
  | .writeDone k e n => .close ∉ p ∧ ((.sent k n ∈ p ∧ e = SUCCESS) ∨ (∃ x, .writeFailed k x ∈ p ∧ e = x ∧ n = 0))
  | .closed => .close ∈ p ∧ .closed ∉ p
  | .hook => .closed ∈ p ∧ .hook ∉ p
  | _ => True

def Truthful (l : List Obs) : Prop := ∀ p o post, l = p ++ o :: post → Fits p o

/-- The bytes that came in, and those that were handed to read handlers. -/
def receivedBytes (l : List Obs) : Bytes := l.flatMap fun o => match o with | .received _ b => b | _ => []
def deliveredBytes (l : List Obs) : Bytes := l.flatMap fun o => match o with | .readDone _ _ b => b | _ => []

/-! ### The machine of the sockets does the same -/

/-- Error numbers: the negated number; those the two machines use for an aborted operation are exchanged. -/
def asErr (e : Int) : Int := if e = 995 then -125 else if e = 125 then -995 else -e

theorem asErr_inj {a b : Int} (h : asErr a = asErr b) : a = b := by
  unfold asErr at h
  split at h <;> split at h <;> (try split at h) <;> (try split at h) <;> omega

theorem asErr_zero {a : Int} (h : asErr a = 0) : a = 0 := by
  unfold asErr at h
  split at h
  · omega
  · split at h <;> omega

theorem asErr_ok {e : Int} (h : 0 < e ∧ e ≠ ABORTED) : asErr e < 0 ∧ asErr e ≠ OPERATION_ABORTED := by
  unfold ABORTED at h
  show asErr e < 0 ∧ asErr e ≠ (-125 : Int)
  unfold asErr
  split
  · omega
  · split <;> exact ⟨by omega, by omega⟩

/-- What a read handler is told. -/
def asRead (e : Int) : Int := if e < 0 then asErr (-e) else e

def absR : RRes → Socket.RRes
  | .data b => .data b
  | .err e => .err (asErr e)
  | .aborted => .aborted

def absW : WRes → Socket.WRes
  | .ok n => .ok n
  | .err e => .err (asErr e)
  | .aborted => .aborted

def absSlot {R R' : Type} (f : R → R') : Slot R → Socket.Slot R'
  | .idle => .idle
  | .pending k => .pending k
  | .done k r => .done k (f r)

def absObs : Obs → Socket.Obs
  | .read k n => .read k n
  | .write k b => .write k b.length
  | .refused k _ => .refused k
  | .received k b => .received k b
  | .timeout k => .eof k
  | .readFailed k e => .recvFailed k (asErr e)
  | .sent k n => .sent k n
  | .writeFailed k e => .sendFailed k (asErr e)
  | .readDone k e b => .readDone k (asRead e) b
  | .writeDone k e n => .writeDone k (asErr e) n
  | .close => .close
  | .closed => .closed
  | .hook => .hook

def absStart : Start → Bool
  | .failed _ => false
  | .pending => true

def absMove : Move → Socket.Move
  | .enter => .enter
  | .leave => .leave
  | .read space r => .read (dword space) (absStart r)
  | .write chain mem r _ => .write (gathered chain).length (mem && absStart r)
  | .close => .close
  | .received b => .received b
  | .timeout => .eof
  | .readFailed e => .recvFailed (asErr e)
  | .sent n => .sent n
  | .writeFailed e => .sendFailed (asErr e)
  | .readEvent => .readEvent
  | .writeEvent => .writeEvent

def absSt (s : St) : Socket.St :=
  { rSlot := absSlot absR s.rSlot, rSpace := s.rSpace, rUse := s.rUse, rHandler := s.rHandler, wSlot := absSlot absW s.wSlot, wLen := s.wLen, wConn := false,
    wUse := s.wUse, wHandler := s.wHandler, cHandler := none, cb := .write, alive := s.alive, next := s.next,
    stack := if s.user then [.user] else [], ub := s.ub, log := s.log.map absObs }

/-! Facts about the logs. -/

theorem answerOf_abs (o : Obs) : Socket.answerOf (absObs o) = answerOf o := by cases o <;> rfl

theorem answers_abs (k : Nat) (l : List Obs) : Socket.answers k (l.map absObs) = answers k l := by
  unfold Socket.answers answers
  rw [List.countP_map]
  congr 1
  funext o
  simp only [Function.comp_apply, answerOf_abs]

theorem close_abs (l : List Obs) : .close ∈ l.map absObs ↔ .close ∈ l := by
  rw [List.mem_map]
  constructor
  · rintro ⟨o, ho, h⟩
    cases o <;> cases h
    exact ho
  · exact fun h => ⟨_, h, rfl⟩

theorem closed_abs (l : List Obs) : .closed ∈ l.map absObs ↔ .closed ∈ l := by
  rw [List.mem_map]
  constructor
  · rintro ⟨o, ho, h⟩
    cases o <;> cases h
    exact ho
  · exact fun h => ⟨_, h, rfl⟩

theorem hook_abs (l : List Obs) : .hook ∈ l.map absObs ↔ .hook ∈ l := by
  rw [List.mem_map]
  constructor
  · rintro ⟨o, ho, h⟩
    cases o <;> cases h
    exact ho
  · exact fun h => ⟨_, h, rfl⟩

theorem startedR_abs (k : Nat) (l : List Obs) : Socket.StartedR k (l.map absObs) ↔ StartedR k l := by
  unfold Socket.StartedR StartedR
  constructor
  · rintro ⟨n, h⟩
    rw [List.mem_map] at h
    obtain ⟨o, ho, h⟩ := h
    cases o <;> first | cases h | skip
    exact ⟨_, ho⟩
  · rintro ⟨n, h⟩
    exact ⟨n, List.mem_map.mpr ⟨_, h, rfl⟩⟩

theorem no_connect (l : List Obs) (k : Nat) : .connect k ∉ l.map absObs := by
  intro h
  rw [List.mem_map] at h
  obtain ⟨o, -, h⟩ := h
  cases o <;> cases h

theorem no_connectDone (l : List Obs) (k : Nat) (e : Err) : .connectDone k e ∉ l.map absObs := by
  intro h
  rw [List.mem_map] at h
  obtain ⟨o, -, h⟩ := h
  cases o <;> cases h

theorem startedW_abs (k : Nat) (l : List Obs) : Socket.StartedW k (l.map absObs) ↔ StartedW k l := by
  unfold Socket.StartedW StartedW
  constructor
  · rintro (⟨n, h⟩ | h)
    · rw [List.mem_map] at h
      obtain ⟨o, ho, h⟩ := h
      cases o <;> first | cases h | skip
      exact ⟨_, ho⟩
    · exact absurd h (no_connect l k)
  · rintro ⟨n, h⟩
    exact .inl ⟨n.length, List.mem_map.mpr ⟨_, h, rfl⟩⟩

theorem reportOf_abs (o : Obs) : Socket.reportOf (absObs o) = reportOf o := by cases o <;> rfl

theorem allReported_abs {l : List Obs} (h : AllReported l) : Socket.AllReported (l.map absObs) := by
  intro o ho k hk
  rw [List.mem_map] at ho
  obtain ⟨o, ho, rfl⟩ := ho
  rw [answers_abs]
  rw [reportOf_abs] at hk
  exact h o ho k hk

theorem rules_abs {s : St} {m : Move} (h : Rules s m) : Socket.Rules (absSt s) (absMove m) := by
  cases m with
  | read space r =>
    obtain ⟨h1, h2, h3, h4⟩ := h
    refine ⟨fun hx => h1 ((close_abs s.log).mp hx), ?_, fun k hk => ?_⟩
    · unfold dword; rw [Nat.mod_eq_of_lt h3]; exact h2
    · rw [show (absSt s).log = s.log.map absObs from rfl, answers_abs]
      exact h4 k ((startedR_abs k s.log).mp hk)
  | write chain mem r atOnce =>
    obtain ⟨h1, h2, h3⟩ := h
    refine ⟨fun hx => h1 ((close_abs s.log).mp hx), fun k hk => ?_, fun k e hk => absurd hk (no_connectDone s.log k e)⟩
    rw [show (absSt s).log = s.log.map absObs from rfl, answers_abs]
    exact h2 k ((startedW_abs k s.log).mp hk)
  | close =>
    exact ⟨fun hx => h.1 ((close_abs s.log).mp hx), allReported_abs h.2, fun k hk => absurd hk (no_connect s.log k)⟩
  | _ => trivial

theorem absSlot_idle {R R' : Type} {f : R → R'} {sl : Slot R} : absSlot f sl = .idle ↔ sl = .idle := by
  cases sl <;> simp [absSlot]

theorem absSlot_cancel_r (sl : Slot RRes) : absSlot absR (sl.cancel .aborted) = (absSlot absR sl).cancel .aborted := by cases sl <;> rfl
theorem absSlot_cancel_w (sl : Slot WRes) : absSlot absW (sl.cancel .aborted) = (absSlot absW sl).cancel .aborted := by cases sl <;> rfl

theorem tryFree_abs (s : St) : absSt (tryFree s) = Socket.tryFree (absSt s) := by
  unfold tryFree Socket.tryFree
  by_cases h : s.rUse = 0 ∧ s.wUse = 0
  · rw [if_pos h, if_pos (show (absSt s).rUse = 0 ∧ (absSt s).wUse = 0 from h)]
    simp [absSt, absObs]
  · rw [if_neg h, if_neg (show ¬ ((absSt s).rUse = 0 ∧ (absSt s).wUse = 0) from h)]

theorem callRead_abs (s : St) (e : Err) (b : Bytes) (hu : s.user = false) : absSt (callRead s e b) = Socket.callRead (absSt s) (asRead e) b := by
  unfold callRead Socket.callRead
  show absSt _ = match s.rHandler with | none => _ | some k => _
  cases hh : s.rHandler with
  | none => simp [absSt, hh]
  | some k => simp [absSt, absObs, hu, hh]

theorem callWrite_abs (s : St) (e : Err) (n : Nat) (hu : s.user = false) : absSt (callWrite s e n) = Socket.callWrite (absSt s) (asErr e) n := by
  unfold callWrite Socket.callWrite
  show absSt _ = match s.wHandler with | none => _ | some k => _
  cases hh : s.wHandler with
  | none => simp [absSt, hh]
  | some k => simp [absSt, absObs, hu, hh]

theorem readEvent_abs (s : St) (r : RRes) (hu : s.user = false) (hp : ∀ e, r = .err e → 0 < e) : absSt (readEvent s r) = Socket.readEvent (absSt s) (absR r) := by
  cases r with
  | aborted => exact tryFree_abs _
  | err e =>
    have h : asRead (-e) = asErr e := by
      have := hp e rfl
      unfold asRead; rw [if_pos (by omega), Int.neg_neg]
    show absSt (callRead _ (-e) []) = Socket.callRead _ (asErr e) []
    rw [← h]
    exact callRead_abs _ _ _ hu
  | data b =>
    show absSt (if b.length = 0 then callRead _ EOF [] else callRead _ SUCCESS b) = if b.length = 0 then Socket.callRead _ EOF [] else Socket.callRead _ SUCCESS b
    by_cases h : b.length = 0
    · rw [if_pos h, if_pos h]; exact callRead_abs _ EOF _ hu
    · rw [if_neg h, if_neg h]; exact callRead_abs _ SUCCESS _ hu

theorem writeEvent_abs (s : St) (r : WRes) (hu : s.user = false) : absSt (writeEvent s r) = Socket.writeEvent (absSt s) (absW r) := by
  cases r with
  | aborted => exact tryFree_abs _
  | err e =>
    show absSt (callWrite _ (-(-e)) 0) = Socket.callWrite _ (asErr e) 0
    rw [Int.neg_neg]
    exact callWrite_abs _ _ _ hu
  | ok n => exact callWrite_abs _ SUCCESS _ hu

/-- Errors in the slots are positive numbers. -/
def Positive (s : St) : Prop := (∀ k e, s.rSlot = .done k (.err e) → 0 < e) ∧ s.wFreed = false

theorem stack_user {s : St} (h : s.user = true) : (absSt s).stack = [.user] := by unfold absSt; rw [h]; rfl
theorem stack_nil {s : St} (h : s.user = false) : (absSt s).stack = [] := by unfold absSt; rw [h]; rfl

theorem tryFree_same (s : St) : (tryFree s).rSlot = s.rSlot ∧ (tryFree s).wFreed = s.wFreed := by unfold tryFree; split <;> exact ⟨rfl, rfl⟩
theorem callRead_same (s : St) (e : Err) (b : Bytes) : (callRead s e b).rSlot = s.rSlot ∧ (callRead s e b).wFreed = s.wFreed := by unfold callRead; split <;> exact ⟨rfl, rfl⟩
theorem callWrite_same (s : St) (e : Err) (n : Nat) : (callWrite s e n).rSlot = s.rSlot ∧ (callWrite s e n).wFreed = s.wFreed := by unfold callWrite; split <;> exact ⟨rfl, rfl⟩

/-- One step of the port is one step of the socket. -/
theorem step_abs {s s' : St} {m : Move} (hr : Rules s m) (hp : Positive s) (hi : ∀ c q r a, m = .write c q r a → s.wSlot = .idle) (hs : step s m = some s') :
    Socket.step (absSt s) (absMove m) = some (absSt s') ∧ Positive s' := by
  have hub : ¬ s.ub = true := by intro h; unfold step at hs; rw [if_pos h] at hs; cases hs
  unfold step at hs
  rw [if_neg hub] at hs
  unfold Socket.step
  rw [if_neg (show ¬ (absSt s).ub = true from hub)]
  cases m with
  | enter =>
    dsimp only at hs
    split at hs <;> cases hs
    rename_i h
    refine ⟨?_, hp⟩
    show (if (absSt s).stack = [] then _ else _) = _
    rw [if_pos (stack_nil h)]
    rfl
  | leave =>
    dsimp only at hs
    split at hs <;> cases hs
    rename_i h
    refine ⟨?_, hp⟩
    show (match (absSt s).stack with | .user :: k => _ | _ => _) = _
    rw [stack_user h]
    rfl
  | read space r =>
    dsimp only at hs
    split at hs <;> cases hs
    rename_i h
    have h' : (absSt s).stack.head? = some .user ∧ (absSt s).alive = true := ⟨by rw [stack_user h.1]; rfl, h.2⟩
    show (if _ then some (Socket.read (absSt s) (dword space) (absStart r)) else none) = _ ∧ _
    rw [if_pos h']
    unfold read Socket.read
    dsimp only
    by_cases hsl : s.rSlot = .idle
    · have n1 : ¬ (s.rSlot ≠ Slot.idle) := fun x => x hsl
      have n2 : ¬ ((absSt s).rSlot ≠ Socket.Slot.idle) := fun x => x (absSlot_idle.mpr hsl)
      rw [if_neg n1, if_neg n2]
      cases r with
      | failed e =>
        refine ⟨?_, hp⟩
        simp [absStart, absSt, absObs]
      | pending =>
        refine ⟨?_, fun k e h => (by cases h), hp.2⟩
        simp [absStart, absSt, absObs, absSlot]
    · have n1 : s.rSlot ≠ Slot.idle := hsl
      have n2 : (absSt s).rSlot ≠ Socket.Slot.idle := fun x => hsl (absSlot_idle.mp x)
      rw [if_pos n1, if_pos n2]
      exact ⟨rfl, hp⟩
  | write chain mem r atOnce =>
    dsimp only at hs
    split at hs <;> cases hs
    rename_i h
    have h' : (absSt s).stack.head? = some .user ∧ (absSt s).alive = true := ⟨by rw [stack_user h.1]; rfl, h.2⟩
    have hsl : s.wSlot = .idle := hi _ _ _ _ rfl
    have hat : atOnce = true := hr.2.2
    subst hat
    show (if _ then some (Socket.write (absSt s) (gathered chain).length (mem && absStart r)) else none) = _ ∧ _
    rw [if_pos h']
    unfold write Socket.write
    generalize gathered chain = b
    dsimp only
    have n1 : ¬ (s.wSlot ≠ Slot.idle) := fun x => x hsl
    have n2 : ¬ ((absSt s).wSlot ≠ Socket.Slot.idle) := fun x => x (absSlot_idle.mpr hsl)
    rw [if_neg n2]
    cases mem with
    | false =>
      rw [if_pos rfl]
      refine ⟨?_, hp⟩
      simp [absSt, absObs]
    | true =>
      rw [if_neg (show ¬ (true = false) by decide), if_neg n1]
      cases r with
      | failed e =>
        refine ⟨?_, hp⟩
        simp [absStart, absSt, absObs]
      | pending =>
        refine ⟨?_, hp.1, rfl⟩
        simp [absStart, absSt, absObs, absSlot]
  | close =>
    dsimp only at hs
    split at hs <;> cases hs
    rename_i h
    have h' : (absSt s).stack.head? = some .user ∧ (absSt s).alive = true := ⟨by rw [stack_user h.1]; rfl, h.2⟩
    show (if _ then some (Socket.close (absSt s)) else none) = _ ∧ _
    rw [if_pos h']
    refine ⟨?_, ?_, ?_⟩
    · unfold close Socket.close
      rw [tryFree_abs]
      simp only [absSt, absSlot_cancel_r, absSlot_cancel_w, List.map_append, List.map_cons, List.map_nil, absObs]
    · intro k e hk
      unfold close at hk
      rw [(tryFree_same _).1] at hk
      replace hk : s.rSlot.cancel .aborted = .done k (.err e) := hk
      cases hsl : s.rSlot with
      | idle => rw [hsl] at hk; cases hk
      | pending j => rw [hsl] at hk; cases hk
      | done j r => rw [hsl] at hk; cases hk; exact hp.1 _ _ hsl
    · unfold close
      rw [(tryFree_same _).2]
      exact hp.2
  | received b =>
    dsimp only at hs
    show (match (absSt s).rSlot with | .pending k => _ | _ => none) = _ ∧ _
    cases hsl : s.rSlot with
    | idle => rw [hsl] at hs; cases hs
    | done j r => rw [hsl] at hs; cases hs
    | pending k =>
      rw [hsl] at hs
      dsimp only at hs
      split at hs <;> cases hs
      rename_i h
      rw [show (absSt s).rSlot = .pending k by unfold absSt; rw [hsl]; rfl]
      refine ⟨?_, fun k e hk => (by cases hk), hp.2⟩
      show (if _ then _ else _) = _
      rw [if_pos ⟨h.2, fun x => absurd x h.1⟩]
      simp [absSt, absObs, absSlot, absR]
  | timeout =>
    dsimp only at hs
    show (match (absSt s).rSlot with | .pending k => _ | _ => none) = _ ∧ _
    cases hsl : s.rSlot with
    | idle => rw [hsl] at hs; cases hs
    | done j r => rw [hsl] at hs; cases hs
    | pending k =>
      rw [hsl] at hs
      cases hs
      rw [show (absSt s).rSlot = .pending k by unfold absSt; rw [hsl]; rfl]
      refine ⟨?_, fun k e hk => (by cases hk), hp.2⟩
      simp [absSt, absObs, absSlot, absR]
  | readFailed e =>
    dsimp only at hs
    show (match (absSt s).rSlot with | .pending k => _ | _ => none) = _ ∧ _
    cases hsl : s.rSlot with
    | idle => rw [hsl] at hs; cases hs
    | done j r => rw [hsl] at hs; cases hs
    | pending k =>
      rw [hsl] at hs
      dsimp only at hs
      split at hs <;> cases hs
      rename_i h
      rw [show (absSt s).rSlot = .pending k by unfold absSt; rw [hsl]; rfl]
      refine ⟨?_, fun k' e' hk => (by cases hk; exact h.1), hp.2⟩
      show (if _ then _ else _) = _
      rw [if_pos (asErr_ok h)]
      simp [absSt, absObs, absSlot, absR]
  | sent n =>
    dsimp only at hs
    show (match (absSt s).wSlot, (absSt s).wConn with | .pending k, false => _ | _, _ => none) = _ ∧ _
    cases hsl : s.wSlot with
    | idle => rw [hsl] at hs; cases hs
    | done j r => rw [hsl] at hs; cases hs
    | pending k =>
      rw [hsl] at hs
      dsimp only at hs
      rw [if_neg (by rw [hp.2]; decide)] at hs
      split at hs <;> cases hs
      rename_i h
      rw [show (absSt s).wSlot = .pending k by unfold absSt; rw [hsl]; rfl]
      refine ⟨?_, hp⟩
      show (if _ then _ else _) = _
      rw [if_pos (show n ≤ (absSt s).wLen from h)]
      simp [absSt, absObs, absSlot, absW]
  | writeFailed e =>
    dsimp only at hs
    show (match (absSt s).wSlot, (absSt s).wConn with | .pending k, false => _ | _, _ => none) = _ ∧ _
    cases hsl : s.wSlot with
    | idle => rw [hsl] at hs; cases hs
    | done j r => rw [hsl] at hs; cases hs
    | pending k =>
      rw [hsl] at hs
      dsimp only at hs
      split at hs <;> cases hs
      rename_i h
      rw [show (absSt s).wSlot = .pending k by unfold absSt; rw [hsl]; rfl]
      refine ⟨?_, hp⟩
      show (if _ then _ else _) = _
      rw [if_pos (asErr_ok h)]
      simp [absSt, absObs, absSlot, absW]
  | readEvent =>
    dsimp only at hs
    show (match (absSt s).stack, (absSt s).rSlot with | [], .done _ r => _ | _, _ => none) = _ ∧ _
    cases hu : s.user with
    | true => rw [hu] at hs; cases hs
    | false =>
      rw [hu] at hs
      cases hsl : s.rSlot with
      | idle => rw [hsl] at hs; cases hs
      | pending j => rw [hsl] at hs; cases hs
      | done k r =>
        rw [hsl] at hs
        cases hs
        rw [stack_nil hu, show (absSt s).rSlot = .done k (absR r) by unfold absSt; rw [hsl]; rfl]
        cases ha : s.alive with
        | false =>
          rw [if_neg (show ¬ (false = true) by decide)]
          refine ⟨?_, ?_⟩
          · show some (if (absSt s).alive = true then _ else _) = _
            rw [if_neg (show ¬ (absSt s).alive = true by rw [show (absSt s).alive = s.alive from rfl, ha]; decide)]
            simp [absSt, hsl, ha, hu, absSlot]
          · exact ⟨fun j e hk => (by cases hk; exact hp.1 _ _ hsl), hp.2⟩
        | true =>
          refine ⟨?_, ?_⟩
          · show some (if (absSt s).alive = true then _ else _) = _
            rw [if_pos (show (absSt s).alive = true from ha), if_pos rfl]
            rw [readEvent_abs s r hu (fun e he => hp.1 k e (by rw [hsl, he]))]
          · rw [if_pos rfl]
            have : (readEvent s r).rSlot = .idle ∧ (readEvent s r).wFreed = s.wFreed := by
              unfold readEvent
              cases r with
              | aborted => exact tryFree_same _
              | err e => exact callRead_same _ _ _
              | data b => dsimp only; split <;> exact callRead_same _ _ _
            exact ⟨fun k e hk => (by rw [this.1] at hk; cases hk), this.2.trans hp.2⟩
  | writeEvent =>
    dsimp only at hs
    show (match (absSt s).stack, (absSt s).wSlot with | [], .done _ r => _ | _, _ => none) = _ ∧ _
    cases hu : s.user with
    | true => rw [hu] at hs; cases hs
    | false =>
      rw [hu] at hs
      cases hsl : s.wSlot with
      | idle => rw [hsl] at hs; cases hs
      | pending j => rw [hsl] at hs; cases hs
      | done k r =>
        rw [hsl] at hs
        cases hs
        rw [stack_nil hu, show (absSt s).wSlot = .done k (absW r) by unfold absSt; rw [hsl]; rfl]
        cases ha : s.alive with
        | false =>
          rw [if_neg (show ¬ (false = true) by decide)]
          refine ⟨?_, ?_⟩
          · show some (if (absSt s).alive = true then _ else _) = _
            rw [if_neg (show ¬ (absSt s).alive = true by rw [show (absSt s).alive = s.alive from rfl, ha]; decide)]
            simp [absSt, hsl, ha, hu, absSlot]
          · exact hp
        | true =>
          refine ⟨?_, ?_⟩
          · show some (if (absSt s).alive = true then _ else _) = _
            rw [if_pos (show (absSt s).alive = true from ha), if_pos rfl, writeEvent_abs s r hu]
          · rw [if_pos rfl]
            have : (writeEvent s r).rSlot = s.rSlot ∧ (writeEvent s r).wFreed = s.wFreed := by
              unfold writeEvent
              cases r with
              | aborted => exact tryFree_same _
              | err e => exact callWrite_same _ _ _
              | ok b => exact callWrite_same _ _ _
            exact ⟨fun k e hk => (by rw [this.1] at hk; exact hp.1 k e hk), this.2.trans hp.2⟩

/-- Refinement: within the rules, a port behaves as a socket that is used within its rules. -/
theorem refines {s : St} (h : Reach Rules s) : Socket.Reach Socket.Rules (absSt s) ∧ Positive s := by
  induction h with
  | init => exact ⟨.init, fun k e hk => (by cases hk), rfl⟩
  | step h hr hs ih =>
    rename_i s s' m
    have hw : ∀ c q r a, m = .write c q r a → s.wSlot = .idle := by
      intro c q r a hm
      subst hm
      refine absSlot_idle.mp ((Socket.reach_inv ih.1).w.free fun k hk => ?_).1
      rw [show (absSt s).log = s.log.map absObs from rfl, answers_abs]
      exact hr.2.1 k ((startedW_abs k s.log).mp hk)
    obtain ⟨h1, h2⟩ := step_abs hr ih.2 hw hs
    exact ⟨.step ih.1 (rules_abs hr) h1, h2⟩

/-! ### Theorems -/

theorem asRead_zero {e : Int} (h : asRead e = 0) : e = 0 := by
  unfold asRead at h
  split at h
  · have := asErr_zero h; omega
  · exact h

theorem asRead_one {e : Int} (h : asRead e = 1) : e = 1 := by
  unfold asRead asErr at h
  split at h
  · split at h
    · omega
    · split at h <;> omega
  · exact h

theorem asRead_err {e x : Int} (hx : 0 < x) (h : asErr x = asRead e) : e = -x := by
  unfold asRead at h
  split at h
  · have := asErr_inj h; omega
  · unfold asErr at h
    split at h
    · omega
    · split at h <;> omega

theorem fits_abs {p : List Obs} {o : Obs} (h : Socket.Fits (p.map absObs) (absObs o)) (hpos : ∀ k e, .readFailed k e ∈ p → 0 < e) : Fits p o := by
  cases o with
  | readDone k e b =>
    obtain ⟨h1, h2⟩ := h
    refine ⟨fun hx => h1 ((close_abs p).mpr hx), ?_⟩
    rcases h2 with ⟨h2, h3, h4⟩ | ⟨h2, h3, h4⟩ | ⟨h2, h3⟩
    · rw [List.mem_map] at h2
      obtain ⟨x, hx, he⟩ := h2
      cases x <;> cases he
      exact .inl ⟨hx, h3, asRead_zero h4⟩
    · rw [List.mem_map] at h2
      obtain ⟨x, hx, he⟩ := h2
      cases x <;> cases he
      exact .inr (.inl ⟨hx, asRead_one h3, h4⟩)
    · rw [List.mem_map] at h2
      obtain ⟨x, hx, he⟩ := h2
      cases x with
      | readFailed j x =>
        injection he with e1 e2
        subst e1
        exact .inr (.inr ⟨x, hx, asRead_err (hpos _ _ hx) e2, h3⟩)
      | _ => cases he
  | writeDone k e n =>
    obtain ⟨h1, h2⟩ := h
    refine ⟨fun hx => h1 ((close_abs p).mpr hx), ?_⟩
    rcases h2 with ⟨h2, h3⟩ | ⟨h2, h3⟩
    · rw [List.mem_map] at h2
      obtain ⟨x, hx, he⟩ := h2
      cases x <;> cases he
      exact .inl ⟨hx, asErr_zero h3⟩
    · rw [List.mem_map] at h2
      obtain ⟨x, hx, he⟩ := h2
      cases x with
      | writeFailed j x =>
        injection he with e1 e2
        subst e1
        exact .inr ⟨x, hx, (asErr_inj e2).symm, h3⟩
      | _ => cases he
  | closed => exact ⟨(close_abs p).mp h.1, fun hx => h.2 ((closed_abs p).mpr hx)⟩
  | hook => exact ⟨(closed_abs p).mp h.1, fun hx => h.2 ((hook_abs p).mpr hx)⟩
  | _ => trivial

/-- What a step appends to the log. -/
theorem step_log {s s' : St} {m : Move} (hs : step s m = some s') : ∃ x, s'.log = s.log ++ x ∧ ∀ k e, .readFailed k e ∈ x → 0 < e := by
  have hub : ¬ s.ub = true := by intro h; unfold step at hs; rw [if_pos h] at hs; cases hs
  unfold step at hs
  rw [if_neg hub] at hs
  have tf : ∀ s : St, ∃ x, (tryFree s).log = s.log ++ x ∧ ∀ k e, .readFailed k e ∈ x → 0 < e := by
    intro s; unfold tryFree; split
    · exact ⟨_, rfl, by simp⟩
    · exact ⟨[], by simp, by simp⟩
  have cr : ∀ (s : St) e b, ∃ x, (callRead s e b).log = s.log ++ x ∧ ∀ k e, .readFailed k e ∈ x → 0 < e := by
    intro s e b; unfold callRead; split
    · exact ⟨[], by simp, by simp⟩
    · exact ⟨_, rfl, by simp⟩
  have cw : ∀ (s : St) e b, ∃ x, (callWrite s e b).log = s.log ++ x ∧ ∀ k e, .readFailed k e ∈ x → 0 < e := by
    intro s e b; unfold callWrite; split
    · exact ⟨[], by simp, by simp⟩
    · exact ⟨_, rfl, by simp⟩
  cases m with
  | enter => dsimp only at hs; split at hs <;> cases hs; exact ⟨[], by simp, by simp⟩
  | leave => dsimp only at hs; split at hs <;> cases hs; exact ⟨[], by simp, by simp⟩
  | read space r =>
    dsimp only at hs; split at hs <;> cases hs
    unfold read; dsimp only; split
    · exact ⟨[], by simp, by simp⟩
    · cases r with
      | failed e => exact ⟨_, rfl, by simp⟩
      | pending => exact ⟨_, rfl, by simp⟩
  | write chain mem r atOnce =>
    dsimp only at hs; split at hs <;> cases hs
    unfold write; dsimp only; split
    · exact ⟨_, rfl, by simp⟩
    · split
      · exact ⟨[], by simp, by simp⟩
      · cases r with
        | failed e => exact ⟨_, rfl, by simp⟩
        | pending => exact ⟨_, rfl, by simp⟩
  | close =>
    dsimp only at hs; split at hs <;> cases hs
    unfold close
    obtain ⟨x, h1, h2⟩ := tf { s with rSlot := s.rSlot.cancel .aborted, wSlot := s.wSlot.cancel .aborted, log := s.log ++ [.close] }
    exact ⟨[.close] ++ x, by rw [h1, List.append_assoc], by intro k e hk; rcases List.mem_append.mp hk with g | g; (cases g; contradiction); exact h2 k e g⟩
  | received b =>
    dsimp only at hs; split at hs
    · split at hs <;> cases hs; exact ⟨_, rfl, by simp⟩
    · cases hs
  | timeout => dsimp only at hs; split at hs <;> cases hs; exact ⟨_, rfl, by simp⟩
  | readFailed e =>
    dsimp only at hs; split at hs
    · split at hs
      · rename_i g; cases hs; exact ⟨_, rfl, by simpa using g.1⟩
      · cases hs
    · cases hs
  | sent n =>
    dsimp only at hs; split at hs
    · split at hs
      · cases hs; exact ⟨[], by simp, by simp⟩
      · split at hs <;> cases hs; exact ⟨_, rfl, by simp⟩
    · cases hs
  | writeFailed e =>
    dsimp only at hs; split at hs
    · split at hs <;> cases hs; exact ⟨_, rfl, by simp⟩
    · cases hs
  | readEvent =>
    dsimp only at hs; split at hs
    · cases hs
      split
      · unfold readEvent; dsimp only
        split
        · exact tf _
        · exact cr _ _ _
        · split <;> exact cr _ _ _
      · exact ⟨[], by simp, by simp⟩
    · cases hs
  | writeEvent =>
    dsimp only at hs; split at hs
    · cases hs
      split
      · unfold writeEvent; dsimp only
        split
        · exact tf _
        · exact cw _ _ _
        · exact cw _ _ _
      · exact ⟨[], by simp, by simp⟩
    · cases hs

theorem failed_positive {s : St} (h : Reach Rules s) : ∀ k e, .readFailed k e ∈ s.log → 0 < e := by
  induction h with
  | init => intro k e h; cases h
  | step h hr hs ih =>
    intro k e hk
    obtain ⟨x, h1, h2⟩ := step_log hs
    rw [h1] at hk
    rcases List.mem_append.mp hk with g | g
    · exact ih k e g
    · exact h2 k e g

/-- C59 (within the rules of use): every handler is called at most once, that of a refused operation never, it is told the truth, no handler is
called after `cio_uart_close`, the close hook is called only after that, once, and the library never uses what it has not set or a port that was
given back. -/
theorem answered_once_partial {s : St} (h : Reach Rules s) :
    (∀ k, answers k s.log ≤ 1) ∧ (∀ k, ¬ StartedR k s.log → ¬ StartedW k s.log → answers k s.log = 0) ∧ Truthful s.log ∧ s.ub = false := by
  obtain ⟨a1, a2, a3, a4⟩ := Socket.answered_once_partial (refines h).1
  refine ⟨fun k => ?_, fun k h1 h2 => ?_, fun p o post hl => ?_, a4⟩
  · rw [← answers_abs]; exact a1 k
  · rw [← answers_abs]; exact a2 k (fun x => h1 ((startedR_abs _ _).mp x)) (fun x => h2 ((startedW_abs _ _).mp x))
  · have := a3 (p.map absObs) (absObs o) (post.map absObs) (by rw [show (absSt s).log = s.log.map absObs from rfl, hl]; simp)
    exact fits_abs this fun k e hk => failed_positive h k e (by rw [hl]; exact List.mem_append_left _ hk)

theorem copyLoop_flatten (l : List Bytes) : ∀ (done rest : Bytes), rest.length = (l.map List.length).sum → copyLoop (done ++ rest) done.length l = done ++ l.flatten := by
  induction l with
  | nil =>
    intro done rest h
    have : rest = [] := List.length_eq_zero_iff.mp (by simpa using h)
    subst this; simp [copyLoop]
  | cons x l ih =>
    intro done rest h
    rw [List.map_cons, List.sum_cons] at h
    unfold copyLoop
    have : memcpy (done ++ rest) done.length x = (done ++ x) ++ rest.drop x.length := by
      unfold memcpy
      rw [List.take_left', List.drop_append]
      · rw [List.drop_eq_nil_of_le (by omega), Nat.add_sub_cancel_left]; simp
      · rfl
    rw [this, ← List.length_append, ih (done ++ x) (rest.drop x.length) (by rw [List.length_drop]; omega)]
    simp

theorem totalLength_eq (chain : List Bytes) : totalLength chain = (chain.map List.length).sum := by
  have : ∀ (l : List Bytes) n, l.foldl (fun n x => n + x.length) n = n + (l.map List.length).sum := by
    intro l
    induction l with
    | nil => intro n; rfl
    | cons x l ih => intro n; rw [List.foldl_cons, ih, List.map_cons, List.sum_cons]; omega
  unfold totalLength; rw [this]; omega

/-- C59 (chains of less than 4 GiB): a write hands the operating system the bytes of the whole chain, in order, in one piece. -/
theorem write_gives_chain_partial {s s' : St} {chain : List Bytes} {a : Bool} (hs : step s (.write chain true .pending a) = some s') (hu : s'.ub = false)
    (hl : chain.flatten.length < 4294967296) : s'.log = s.log ++ [.write s.next chain.flatten] := by
  have hsum : (chain.map List.length).sum = chain.flatten.length := by rw [List.length_flatten]
  have hg : gathered chain = chain.flatten := by
    have h1 := copyLoop_flatten chain [] (List.replicate (totalLength chain) 0) (by rw [List.length_replicate, totalLength_eq])
    rw [List.nil_append, List.nil_append, List.length_nil] at h1
    unfold gathered dword
    rw [h1, totalLength_eq, hsum, Nat.mod_eq_of_lt hl, List.take_length]
  unfold step at hs
  split at hs
  · cases hs
  · dsimp only at hs
    split at hs <;> cases hs
    unfold write at hu ⊢
    rw [hg] at *
    generalize chain.flatten = b at *
    dsimp only at hu ⊢
    rw [if_neg (by decide)] at hu ⊢
    by_cases h : s.wSlot = .idle
    · rw [if_neg (fun x => x h)]
    · rw [if_pos h] at hu; cases hu

/-- The bookkeeping of room and length. -/
structure Room (s : St) : Prop where
  r : ∀ k, s.rSlot = .pending k → .read k s.rSpace ∈ s.log
  w : ∀ k, s.wSlot = .pending k → ∃ b, .write k b ∈ s.log ∧ b.length = s.wLen

theorem reach_room {s : St} (h : Reach Rules s) : Room s := by
  have hR := Socket.reach_room (refines h).1
  refine ⟨fun k hk => ?_, fun k hk => ?_⟩
  · have := hR.r k (by show absSlot absR s.rSlot = _; rw [hk]; rfl)
    replace this : Socket.Obs.read k s.rSpace ∈ s.log.map absObs := this
    rw [List.mem_map] at this
    obtain ⟨o, ho, he⟩ := this
    cases o <;> cases he
    exact ho
  · have := hR.w k (by show absSlot absW s.wSlot = _; rw [hk]; rfl) rfl
    replace this : Socket.Obs.write k s.wLen ∈ s.log.map absObs := this
    rw [List.mem_map] at this
    obtain ⟨o, ho, he⟩ := this
    cases o with
    | write j b => injection he with e1 e2; subst e1; exact ⟨b, ho, e2⟩
    | _ => cases he

theorem op_abs_r {sl : Slot RRes} {k : Nat} (h : sl = .pending k ∨ ∃ r, sl = .done k r) : (absSlot absR sl).op = some k := by
  rcases h with rfl | ⟨r, rfl⟩ <;> rfl

theorem op_abs_w {sl : Slot WRes} {k : Nat} (h : sl = .pending k ∨ ∃ r, sl = .done k r) : (absSlot absW sl).op = some k := by
  rcases h with rfl | ⟨r, rfl⟩ <;> rfl

/-- C59 (within the rules of use): no read is forgotten.  Until the port is closed its handler was called, or its end waits for the event loop,
which will call it, or the operating system is still at it, and whatever comes of it is told to the handler. -/
theorem read_not_forgotten_partial {s : St} (h : Reach Rules s) (hc : .close ∉ s.log) (hidle : s.user = false) {k : Nat} (hk : StartedR k s.log) :
    answers k s.log = 1 ∨ (answers k s.log = 0 ∧
      ((∃ s' e b, run s [.readEvent] = some s' ∧ s'.log = s.log ++ [.readDone k e b]) ∨
       (∃ n, .read k n ∈ s.log ∧
         (∀ b, b ≠ [] → b.length ≤ n → ∃ s', run s [.received b, .readEvent] = some s' ∧ s'.log = s.log ++ [.received k b, .readDone k SUCCESS b]) ∧
         (∃ s', run s [.timeout, .readEvent] = some s' ∧ s'.log = s.log ++ [.timeout k, .readDone k EOF []]) ∧
         (∀ e, 0 < e → e ≠ ABORTED → ∃ s', run s [.readFailed e, .readEvent] = some s' ∧ s'.log = s.log ++ [.readFailed k e, .readDone k (-e) []])))) := by
  have hv := Socket.reach_inv (refines h).1
  have hub : s.ub = false := hv.ub
  have hc' : Socket.Obs.close ∉ s.log.map absObs := fun x => hc ((close_abs _).mp x)
  by_cases ho : s.rSlot = .pending k ∨ ∃ r, s.rSlot = .done k r
  · right
    obtain ⟨c1, c2, c3, c4⟩ := hv.r.cur k (op_abs_r ho)
    replace c2 : Socket.answers k (s.log.map absObs) = 0 := c2
    replace c4 : s.rHandler = some k := c4
    rw [answers_abs] at c2
    have ha : s.alive = true := by
      cases hx : s.alive with
      | true => rfl
      | false => exact absurd (hv.dead hx).1 hc'
    refine ⟨c2, ?_⟩
    rcases ho with hsl | ⟨r, hsl⟩
    · refine .inr ⟨s.rSpace, (reach_room h).r k hsl, fun b hb hl => ?_, ?_, fun e h1 h2 => ?_⟩
      · refine ⟨{ s with rSlot := .idle, rUse := s.rUse - 1, log := s.log ++ [.received k b, .readDone k SUCCESS b], user := true }, ?_, rfl⟩
        simp [run, step, hub, hsl, hl, hb, hidle, ha, readEvent, callRead, c4]
      · refine ⟨{ s with rSlot := .idle, rUse := s.rUse - 1, log := s.log ++ [.timeout k, .readDone k EOF []], user := true }, ?_, rfl⟩
        simp [run, step, hub, hsl, hidle, ha, readEvent, callRead, c4]
      · refine ⟨{ s with rSlot := .idle, rUse := s.rUse - 1, log := s.log ++ [.readFailed k e, .readDone k (-e) []], user := true }, ?_, rfl⟩
        simp [run, step, hub, hsl, hidle, ha, readEvent, callRead, c4, h1, h2]
    · left
      cases r with
      | aborted =>
        have : Socket.RDone k (absSt s).log .aborted := hv.r.done k .aborted (by show absSlot absR s.rSlot = _; rw [hsl]; rfl)
        exact absurd this hc'
      | err e =>
        refine ⟨{ s with rSlot := .idle, rUse := s.rUse - 1, log := s.log ++ [.readDone k (-e) []], user := true }, -e, [], ?_, rfl⟩
        simp [run, step, hub, hsl, hidle, ha, readEvent, callRead, c4]
      | data b =>
        by_cases hb : b = []
        · subst hb
          refine ⟨{ s with rSlot := .idle, rUse := s.rUse - 1, log := s.log ++ [.readDone k EOF []], user := true }, EOF, [], ?_, rfl⟩
          simp [run, step, hub, hsl, hidle, ha, readEvent, callRead, c4]
        · refine ⟨{ s with rSlot := .idle, rUse := s.rUse - 1, log := s.log ++ [.readDone k SUCCESS b], user := true }, SUCCESS, b, ?_, rfl⟩
          simp [run, step, hub, hsl, hidle, ha, readEvent, callRead, c4, hb]
  · left
    rw [← answers_abs]
    refine hv.r.old hc' k ((startedR_abs _ _).mpr hk) fun hx => ho ?_
    replace hx : (absSlot absR s.rSlot).op = some k := hx
    cases hsl : s.rSlot with
    | idle => rw [hsl] at hx; cases hx
    | pending j => rw [hsl] at hx; cases hx; exact .inl rfl
    | done j r => rw [hsl] at hx; cases hx; exact .inr ⟨r, rfl⟩

/-- C59 (within the rules of use): no write is forgotten. -/
theorem write_not_forgotten_partial {s : St} (h : Reach Rules s) (hc : .close ∉ s.log) (hidle : s.user = false) {k : Nat} (hk : StartedW k s.log) :
    answers k s.log = 1 ∨ (answers k s.log = 0 ∧
      ((∃ s' e m, run s [.writeEvent] = some s' ∧ s'.log = s.log ++ [.writeDone k e m]) ∨
       (∃ b, .write k b ∈ s.log ∧
         (∀ m, m ≤ b.length → ∃ s', run s [.sent m, .writeEvent] = some s' ∧ s'.log = s.log ++ [.sent k m, .writeDone k SUCCESS m]) ∧
         (∀ e, 0 < e → e ≠ ABORTED → ∃ s', run s [.writeFailed e, .writeEvent] = some s' ∧ s'.log = s.log ++ [.writeFailed k e, .writeDone k e 0])))) := by
  have hv := Socket.reach_inv (refines h).1
  have hub : s.ub = false := hv.ub
  have hc' : Socket.Obs.close ∉ s.log.map absObs := fun x => hc ((close_abs _).mp x)
  have hfr : s.wFreed = false := (refines h).2.2
  by_cases ho : s.wSlot = .pending k ∨ ∃ r, s.wSlot = .done k r
  · right
    obtain ⟨c1, c2, c3⟩ := hv.w.cur k (op_abs_w ho)
    obtain ⟨c4, c5, -⟩ := hv.w.kindW k (op_abs_w ho) rfl
    replace c2 : Socket.answers k (s.log.map absObs) = 0 := c2
    replace c4 : s.wHandler = some k := c4
    rw [answers_abs] at c2
    have ha : s.alive = true := by
      cases hx : s.alive with
      | true => rfl
      | false => exact absurd (hv.dead hx).1 hc'
    refine ⟨c2, ?_⟩
    rcases ho with hsl | ⟨r, hsl⟩
    · obtain ⟨b, hb, hbl⟩ := (reach_room h).w k hsl
      refine .inr ⟨b, hb, fun m hm => ?_, fun e h1 h2 => ?_⟩
      · rw [hbl] at hm
        refine ⟨{ s with wSlot := .idle, wUse := s.wUse - 1, log := s.log ++ [.sent k m, .writeDone k SUCCESS m], user := true }, ?_, rfl⟩
        simp [run, step, hub, hsl, hm, hfr, hidle, ha, writeEvent, callWrite, c4]
      · refine ⟨{ s with wSlot := .idle, wUse := s.wUse - 1, log := s.log ++ [.writeFailed k e, .writeDone k e 0], user := true }, ?_, rfl⟩
        simp [run, step, hub, hsl, hidle, ha, writeEvent, callWrite, c4, h1, h2]
    · left
      cases r with
      | aborted =>
        have : Socket.WDone k false (absSt s).log .aborted := hv.w.done k .aborted (by show absSlot absW s.wSlot = _; rw [hsl]; rfl)
        exact absurd this.1 hc'
      | err e =>
        refine ⟨{ s with wSlot := .idle, wUse := s.wUse - 1, log := s.log ++ [.writeDone k e 0], user := true }, e, 0, ?_, rfl⟩
        simp [run, step, hub, hsl, hidle, ha, writeEvent, callWrite, c4]
      | ok n =>
        refine ⟨{ s with wSlot := .idle, wUse := s.wUse - 1, log := s.log ++ [.writeDone k SUCCESS n], user := true }, SUCCESS, n, ?_, rfl⟩
        simp [run, step, hub, hsl, hidle, ha, writeEvent, callWrite, c4]
  · left
    rw [← answers_abs]
    refine hv.w.old hc' k ((startedW_abs _ _).mpr hk) fun hx => ho ?_
    replace hx : (absSlot absW s.wSlot).op = some k := hx
    cases hsl : s.wSlot with
    | idle => rw [hsl] at hx; cases hx
    | pending j => rw [hsl] at hx; cases hx; exact .inl rfl
    | done j r => rw [hsl] at hx; cases hx; exact .inr ⟨r, rfl⟩

/-- C59 (within the rules of use): closing completes.  After `cio_uart_close` the handle was closed and the hook called, or the event loop still
has packets of the cancelled operations, and does both when it has seen them. -/
theorem close_completes_partial {s : St} (h : Reach Rules s) (hc : .close ∈ s.log) (hidle : s.user = false) :
    .hook ∈ s.log ∨ ∃ ms s', (ms = [.readEvent] ∨ ms = [.writeEvent] ∨ ms = [.readEvent, .writeEvent]) ∧ run s ms = some s' ∧ s'.log = s.log ++ [.closed, .hook] := by
  have hv := Socket.reach_inv (refines h).1
  have hub : s.ub = false := hv.ub
  have hc' : Socket.Obs.close ∈ s.log.map absObs := (close_abs _).mpr hc
  cases hx : s.alive with
  | false => exact .inl ((hook_abs _).mp (hv.went hx).2)
  | true =>
    right
    have hr : s.rSlot = .idle ∨ ∃ k, s.rSlot = .done k .aborted := by
      cases hsl : s.rSlot with
      | idle => exact .inl rfl
      | pending k => exact absurd hc' (hv.r.pend k (by show absSlot absR s.rSlot = _; rw [hsl]; rfl)).1
      | done k r =>
        have := hv.r.done k (absR r) (by show absSlot absR s.rSlot = _; rw [hsl]; rfl)
        cases r with
        | aborted => exact .inr ⟨k, rfl⟩
        | data b => exact absurd hc' this.1
        | err e => exact absurd hc' this.1
    have hw : s.wSlot = .idle ∨ ∃ k, s.wSlot = .done k .aborted := by
      cases hsl : s.wSlot with
      | idle => exact .inl rfl
      | pending k => exact absurd hc' (hv.w.pend k (by show absSlot absW s.wSlot = _; rw [hsl]; rfl))
      | done k r =>
        have := hv.w.done k (absW r) (by show absSlot absW s.wSlot = _; rw [hsl]; rfl)
        cases r with
        | aborted => exact .inr ⟨k, rfl⟩
        | ok n => exact absurd hc' this.1
        | err e => exact absurd hc' this.1
    rcases hr with hr | ⟨k, hr⟩ <;> rcases hw with hw | ⟨j, hw⟩
    · have := hv.closing hc' hx
      rcases this with g | g
      · exact absurd (absSlot_idle.mpr hr) g
      · exact absurd (absSlot_idle.mpr hw) g
    · have c : s.wUse = 1 := (hv.w.cur j (op_abs_w (.inr ⟨_, hw⟩))).2.2
      have u : s.rUse = 0 := hv.r.idle (absSlot_idle.mpr hr)
      refine ⟨[.writeEvent], { s with wSlot := .idle, wUse := 0, alive := false, log := s.log ++ [.closed, .hook] }, .inr (.inl rfl), ?_, rfl⟩
      simp [run, step, hub, hidle, hx, hw, writeEvent, tryFree, c, u]
    · have c : s.rUse = 1 := (hv.r.cur k (op_abs_r (.inr ⟨_, hr⟩))).2.2.1
      have u : s.wUse = 0 := hv.w.idle (absSlot_idle.mpr hw)
      refine ⟨[.readEvent], { s with rSlot := .idle, rUse := 0, alive := false, log := s.log ++ [.closed, .hook] }, .inl rfl, ?_, rfl⟩
      simp [run, step, hub, hidle, hx, hr, readEvent, tryFree, c, u]
    · have c : s.rUse = 1 := (hv.r.cur k (op_abs_r (.inr ⟨_, hr⟩))).2.2.1
      have c' : s.wUse = 1 := (hv.w.cur j (op_abs_w (.inr ⟨_, hw⟩))).2.2
      refine ⟨[.readEvent, .writeEvent], { s with rSlot := .idle, rUse := 0, wSlot := .idle, wUse := 0, alive := false, log := s.log ++ [.closed, .hook] }, .inr (.inr rfl), ?_, rfl⟩
      simp [run, step, hub, hidle, hx, hr, hw, readEvent, writeEvent, tryFree, c, c']

/-- C59 (within the rules of use): when the close hook was called, the operating system has nothing of the port any more. -/
theorem hook_is_last_partial {s : St} (h : Reach Rules s) (hh : .hook ∈ s.log) : s.rSlot = .idle ∧ s.wSlot = .idle := by
  obtain ⟨h1, h2⟩ := Socket.hook_is_last_partial (refines h).1 ((hook_abs s.log).mpr hh)
  exact ⟨absSlot_idle.mp h1, absSlot_idle.mp h2⟩

theorem receivedBytes_abs (l : List Obs) : Socket.receivedBytes (l.map absObs) = receivedBytes l := by
  unfold Socket.receivedBytes receivedBytes
  induction l with
  | nil => rfl
  | cons o l ih => rw [List.map_cons, List.flatMap_cons, List.flatMap_cons, ih]; cases o <;> rfl

theorem deliveredBytes_abs (l : List Obs) : Socket.deliveredBytes (l.map absObs) = deliveredBytes l := by
  unfold Socket.deliveredBytes deliveredBytes
  induction l with
  | nil => rfl
  | cons o l ih => rw [List.map_cons, List.flatMap_cons, List.flatMap_cons, ih]; cases o <;> rfl

/-- C59 (within the rules of use): the handlers get the received bytes, in order; only the end that waits for the event loop is missing. -/
theorem bytes_in_order_partial {s : St} (h : Reach Rules s) :
    ∃ w, receivedBytes s.log = deliveredBytes s.log ++ w ∧ ((∀ k, StartedR k s.log → answers k s.log = 1) → w = []) := by
  obtain ⟨w, h1, h2⟩ := Socket.bytes_in_order_partial (refines h).1
  refine ⟨w, ?_, fun ha => h2 fun k hk => ?_⟩
  · rw [← receivedBytes_abs, ← deliveredBytes_abs]; exact h1
  · rw [show (absSt s).log = s.log.map absObs from rfl, answers_abs]
    exact ha k ((startedR_abs _ _).mp hk)

/-! ### What does not hold -/

/-- C59 fails when WriteFile does not take the bytes at once: they are taken from memory that was given back. -/
theorem pending_write_reads_freed_memory : ∃ s, run initial [.enter, .write [[1, 2]] true .pending false, .leave, .sent 2] = some s ∧ s.ub = true := ⟨_, rfl, rfl⟩

/-- C59 fails for failed writes: the handler is told a positive number; error 1 (ERROR_INVALID_FUNCTION) looks like the end of the stream. -/
theorem positive_write_error (e : Int) (he : 0 < e) (ha : e ≠ ABORTED) :
    ∃ s, run initial [.enter, .write [[1, 2]] true .pending true, .leave, .writeFailed e, .writeEvent] = some s ∧
      s.log = [.write 0 [1, 2], .writeFailed 0 e, .writeDone 0 e 0] := by
  refine ⟨{ initial with wLen := 2, wHandler := some 0, next := 1, user := true, log := [.write 0 [1, 2], .writeFailed 0 e, .writeDone 0 e 0] }, ?_, rfl⟩
  have hg : gathered [[1, 2]] = [1, 2] := by decide
  simp [run, step, initial, write, hg, he, ha, writeEvent, callWrite]

/-- C59 fails when nothing comes in for 2^32 - 2 ms: the end of the stream is reported. -/
theorem no_data_is_end : ∃ s, run initial [.enter, .read 10 .pending, .leave, .timeout, .readEvent] = some s ∧
    s.log = [.read 0 10, .timeout 0, .readDone 0 EOF []] := ⟨_, rfl, rfl⟩

/-- C59 fails when the port is closed while data waits for the event loop: the handler is called after `cio_uart_close`, the handle is never
closed and the hook never called. -/
theorem completion_after_close : ∃ s, run initial [.enter, .read 10 .pending, .received [1], .close, .leave, .readEvent, .leave] = some s ∧
    s.log = [.read 0 10, .received 0 [1], .close, .readDone 0 SUCCESS [1]] ∧ s.rSlot = .idle ∧ s.wSlot = .idle ∧ s.user = false ∧ s.ub = false :=
  ⟨_, rfl, rfl, rfl, rfl, rfl, rfl⟩

/-- C59 fails when two reads run at the same time. -/
theorem two_reads : ∃ s, run initial [.enter, .read 10 .pending, .read 10 .pending] = some s ∧ s.ub = true := ⟨_, rfl, rfl⟩

/-- C59 fails for a write that cannot get memory while another one is under way: the handler of the refused write is called. -/
theorem refused_write_answered : ∃ s, run initial [.enter, .write [[1]] true .pending true, .write [[2]] false .pending true, .leave, .sent 1, .writeEvent] = some s ∧
    s.log = [.write 0 [1], .refused 1 NO_BUFFER_SPACE, .sent 0 1, .writeDone 1 SUCCESS 1] := ⟨_, rfl, rfl⟩

/-- C59 fails for chains of 4 GiB and more: only the rest of the length modulo 2^32 is given to the operating system; of 4 GiB, nothing. -/
theorem large_write_cut (chain : List Bytes) : (gathered chain).length ≤ chain.flatten.length % 4294967296 := by
  unfold gathered dword
  rw [List.length_take, totalLength_eq, List.length_flatten]
  exact Nat.min_le_left _ _

/-! ### Non-vacuity -/

def startR : Obs → Option Nat
  | .read k _ => some k
  | _ => none

def startW : Obs → Option Nat
  | .write k _ => some k
  | _ => none

def allAnswered (f : Obs → Option Nat) (l : List Obs) : Bool := l.all fun o => match f o with | some k => answers k l == 1 | none => true

def rulesB (s : St) : Move → Bool
  | .read space _ => !(s.log.contains .close) && decide (0 < space) && decide (space < 4294967296) && allAnswered startR s.log
  | .write _ _ _ a => !(s.log.contains .close) && allAnswered startW s.log && a
  | .close => !(s.log.contains .close) && allAnswered reportOf s.log
  | _ => true

theorem allAnswered_iff {f : Obs → Option Nat} {l : List Obs} (h : allAnswered f l = true) : ∀ o ∈ l, ∀ k, f o = some k → answers k l = 1 := by
  intro o ho k hk
  unfold allAnswered at h
  rw [List.all_eq_true] at h
  have := h o ho
  rw [hk] at this
  simpa using this

theorem rulesB_sound {s : St} {m : Move} (h : rulesB s m = true) : Rules s m := by
  cases m with
  | read space r =>
    simp only [rulesB, Bool.and_eq_true, Bool.not_eq_true', List.contains_eq_mem, decide_eq_false_iff_not, decide_eq_true_eq] at h
    exact ⟨h.1.1.1, h.1.1.2, h.1.2, fun k ⟨n, hk⟩ => allAnswered_iff h.2 _ hk k rfl⟩
  | write chain mem r a =>
    simp only [rulesB, Bool.and_eq_true, Bool.not_eq_true', List.contains_eq_mem, decide_eq_false_iff_not] at h
    exact ⟨h.1.1, fun k ⟨n, hk⟩ => allAnswered_iff h.1.2 _ hk k rfl, h.2⟩
  | close =>
    simp only [rulesB, Bool.and_eq_true, Bool.not_eq_true', List.contains_eq_mem, decide_eq_false_iff_not] at h
    exact ⟨h.1, allAnswered_iff h.2⟩
  | _ => trivial

def runRules : St → List Move → Option St
  | s, [] => some s
  | s, m :: ms => if rulesB s m then (step s m).bind fun s => runRules s ms else none

theorem reach_runRules (ms : List Move) : ∀ {s s' : St}, Reach Rules s → runRules s ms = some s' → Reach Rules s' := by
  induction ms with
  | nil => intro s s' h hr; cases hr; exact h
  | cons x ms ih =>
    intro s s' h hr
    unfold runRules at hr
    split at hr
    · rename_i hb
      rw [Option.bind_eq_some_iff] at hr
      obtain ⟨t, h1, h2⟩ := hr
      exact ih (.step h (rulesB_sound hb) h1) h2
    · cases hr

/-- Reads and writes at the same time, a failed write, a refused read, no memory; closing with both under way. -/
def exampleMoves : List Move :=
  [.enter, .read 4 .pending, .write [[1, 2], [], [3]] true .pending true, .leave, .sent 2, .received [1, 2], .writeEvent, .write [[7]] false .pending true, .write [[4]] true .pending true,
   .leave, .readEvent, .read 4 (.failed 5), .read 2 .pending, .leave, .writeFailed 31, .received [3], .readEvent, .read 1 .pending, .leave, .writeEvent, .write [[9]] true .pending true,
   .close, .leave]

example : ∃ s, Reach Rules s ∧ s.user = false ∧ .close ∈ s.log ∧ .hook ∉ s.log ∧ s.log =
    [.read 0 4, .write 1 [1, 2, 3], .sent 1 2, .received 0 [1, 2], .writeDone 1 0 2, .refused 2 NO_BUFFER_SPACE, .write 3 [4], .readDone 0 0 [1, 2], .refused 4 (-5), .read 5 2,
     .writeFailed 3 31, .received 5 [3], .readDone 5 0 [3], .read 6 1, .writeDone 3 31 0, .write 7 [9], .close] := by
  refine ⟨(runRules initial exampleMoves).getD initial, reach_runRules exampleMoves .init ?_, ?_, ?_, ?_, ?_⟩ <;> decide

example : ∃ s, Reach Rules s ∧ s.alive = false ∧ .hook ∈ s.log := by
  refine ⟨(runRules initial (exampleMoves ++ [.writeEvent, .readEvent])).getD initial, reach_runRules (exampleMoves ++ [.writeEvent, .readEvent]) .init ?_, ?_, ?_⟩ <;> decide

example : ∃ s, Reach Rules s ∧ .close ∉ s.log ∧ s.user = false ∧ StartedR 0 s.log ∧ StartedW 1 s.log ∧ answers 0 s.log = 0 ∧ answers 1 s.log = 0 := by
  refine ⟨(runRules initial (exampleMoves.take 4)).getD initial, reach_runRules (exampleMoves.take 4) .init ?_, ?_, ?_, ⟨4, ?_⟩, ⟨[1, 2, 3], ?_⟩, ?_, ?_⟩ <;> decide

end Cio.Windows.UartIo
