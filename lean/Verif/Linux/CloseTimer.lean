import Verif.Linux.Objects
import Verif.Timer.Props
/-
A socket of the Linux port together with its close timer (socket.c with timer.c): the model `Cio.Socket` represents the timer by whether it is armed; here the timer is the one of the
model `Cio.Timer`, used as socket.c uses it.
-/
namespace Cio.Linux.CloseTimer

/-- `cio_timer_close` called by socket.c: the handler, if there is one, is told of the abort and does nothing (socket.c 305); `ok`: `timerfd_settime` succeeds. -/
def closeMoves (armed ok : Bool) : List Timer.Move :=
  .close ok :: if armed && ok then [.leave, .continue, .continue] else [.continue]

/-- `cio_timer_cancel` called by socket.c. -/
def cancelMoves (armed ok : Bool) : List Timer.Move :=
  .cancel ok :: if armed && ok then [.leave, .continue] else []

/-- The calls of timer.c that socket.c makes (103-125, 135-158, 311-355), as user code of the timer.  `timeout`: `close_timeout_ns`; `c1`, `c2`: whether `timerfd_settime` succeeds
when the timer is cancelled and closed. -/
def timerMoves (timeout : BitVec 64) (c1 c2 : Bool) (s : Socket.St) : Socket.Move → List Timer.Move
  | .close shutOk armOk soon regOk =>
    if s.peerClosed || !s.closeTimeout || !shutOk then closeMoves s.timerArmed c2
    else if !armOk then .arm timeout false soon :: closeMoves true c2
    else if soon then .arm timeout true true :: closeMoves false c2 ++ [.leave]
    else .arm timeout true false :: if regOk then [] else closeMoves true c2
  | .readable unregOk r =>
    if s.readCb = .drain && (!unregOk || drained s r) then cancelMoves s.timerArmed c1 ++ closeMoves (s.timerArmed && !c1) c2 else []
  | _ => []

/-- A socket and its close timer.  The kernel reports a timer as readable only when it has expired. -/
inductive Runs (timeout : BitVec 64) : Socket.St → Timer.St → Prop where
  | init : Runs timeout (Socket.initial (timeout != 0#64)) Timer.initial
  /-- Everything but the expiry of the timer. -/
  | move {s s' t t'} (m : Socket.Move) (c1 c2 : Bool) : Runs timeout s t → m ≠ .timeout → Socket.step s m = some s' → s'.ub = false →
      Timer.run t (.enter :: timerMoves timeout c1 c2 s m ++ [.leave]) = some t' → Runs timeout s' t'
  /-- Time passes. -/
  | expire {s t t'} : Runs timeout s t → Timer.step t .expire = some t' → Runs timeout s t'
  /-- The loop calls `timer_read`, and `read` fails: `close_timeout_handler` is told an error and does nothing. -/
  | failed {s t t' a} (e : Err) : Runs timeout s t → t.kern = .expired a → Timer.run t [.event (some e), .leave] = some t' → Runs timeout s t'
  /-- The loop calls `timer_read`: `close_timeout_handler` resets the connection. -/
  | timeout {s s' t t' a} (c2 : Bool) : Runs timeout s t → t.kern = .expired a → Socket.step s .timeout = some s' → s'.ub = false →
      Timer.run t (.event none :: closeMoves false c2 ++ [.leave]) = some t' → Runs timeout s' t'

/-- The timer while the socket is open. -/
structure Open (s : Socket.St) (t : Timer.St) : Prop where
  stack : t.stack = []
  alive : t.alive = true
  loop : t.inLoop = true
  ub : t.ub = false
  armed : s.timerArmed = t.handler.isSome
  kern : t.handler = none → t.kern = .idle

structure Closed (s : Socket.St) (t : Timer.St) : Prop where
  alive : t.alive = false
  loop : t.inLoop = false
  ub : t.ub = false
  stack : t.stack = []
  armed : s.timerArmed = false

structure Fits (s : Socket.St) (t : Timer.St) : Prop where
  sub : s.ub = false
  loop : s.alive = s.inLoop
  after : s.alive = true → .afterArm ∉ s.stack
  opened : s.alive = true → Open s t
  closed : s.alive = false → Closed s t

/-- What the timer part of `close_socket` does. -/
theorem close_run {t : Timer.St} {b ok : Bool} {k : List Timer.Item} (h1 : t.stack = .user b :: k) (h2 : t.alive = true) (h3 : t.inLoop = true) (h4 : t.ub = false) :
    ∃ t', Timer.run t (closeMoves t.handler.isSome ok) = some t' ∧ t'.alive = false ∧ t'.inLoop = false ∧ t'.ub = false ∧ t'.stack = .user b :: k := by
  obtain ⟨handler, kern, inLoop, alive, next, stack, ub, log⟩ := t
  dsimp only at h1 h2 h3 h4
  subst h1 h2 h3 h4
  cases handler with
  | none =>
    simp [closeMoves, Timer.run, Timer.step, Timer.close, Timer.cancelCore]
  | some a =>
    cases ok <;> simp [closeMoves, Timer.run, Timer.step, Timer.close, Timer.cancelCore, Timer.settime]

theorem run_append (a b : List Timer.Move) : ∀ t, Timer.run t (a ++ b) = (Timer.run t a).bind fun t => Timer.run t b := by
  induction a with
  | nil => intro t; rfl
  | cons x a ih =>
    intro t
    rw [List.cons_append, Timer.run, Timer.run]
    cases Timer.step t x with
    | none => rfl
    | some t => rw [Option.bind_some, Option.bind_some]; exact ih t

/-- Entering and leaving without a call changes nothing. -/
theorem idle_run {t : Timer.St} (h1 : t.stack = []) (h2 : t.ub = false) : Timer.run t [.enter, .leave] = some t := by
  obtain ⟨handler, kern, inLoop, alive, next, stack, ub, log⟩ := t
  dsimp only at h1 h2
  subst h1 h2
  rfl

theorem Fits.idle {s : Socket.St} {t : Timer.St} (h : Fits s t) : t.stack = [] ∧ t.ub = false := by
  cases ha : s.alive with
  | true => exact ⟨(h.opened ha).stack, (h.opened ha).ub⟩
  | false => exact ⟨(h.closed ha).stack, (h.closed ha).ub⟩

/-- The socket changes in something that is no concern of the timer. -/
theorem Fits.same {s s' : Socket.St} {t : Timer.St} (h : Fits s t) (e0 : s'.ub = s.ub) (e1 : s'.alive = s.alive) (e2 : s'.inLoop = s.inLoop) (e3 : s'.timerArmed = s.timerArmed)
    (e4 : .afterArm ∈ s'.stack → .afterArm ∈ s.stack) : Fits s' t := by
  refine ⟨by rw [e0]; exact h.sub, by rw [e1, e2]; exact h.loop, fun q r => h.after (by rw [← e1]; exact q) (e4 r), fun q => ?_, fun q => ?_⟩
  · have := h.opened (by rw [← e1]; exact q)
    exact ⟨this.stack, this.alive, this.loop, this.ub, by rw [e3]; exact this.armed, this.kern⟩
  · have := h.closed (by rw [← e1]; exact q)
    exact ⟨this.alive, this.loop, this.ub, this.stack, by rw [e3]; exact this.armed⟩

/-- `close_socket`. -/
theorem fits_closed {s : Socket.St} {t : Timer.St} (h0 : s.ub = false) (ha : s.alive = true) (h1 : t.alive = false) (h2 : t.inLoop = false) (h3 : t.ub = false) (h4 : t.stack = []) :
    Fits (Socket.closeSocket s) t := by
  unfold Socket.closeSocket Socket.guarded
  rw [if_pos ha]
  exact ⟨h0, rfl, (fun q => by cases q), (fun q => by cases q), fun _ => ⟨h1, h2, h3, h4, rfl⟩⟩

/-- The timer is closed by user code that is entered for it. -/
theorem enter_close {t : Timer.St} (ok : Bool) (h1 : t.stack = []) (h2 : t.alive = true) (h3 : t.inLoop = true) (h4 : t.ub = false) :
    ∃ t', Timer.run t (.enter :: closeMoves t.handler.isSome ok ++ [.leave]) = some t' ∧ t'.alive = false ∧ t'.inLoop = false ∧ t'.ub = false ∧ t'.stack = [] := by
  have he : Timer.step t .enter = some { t with stack := [.user false] } := by
    unfold Timer.step
    rw [if_neg (by rw [h4]; exact Bool.false_ne_true), h1]
  obtain ⟨t', r1, r2, r3, r4, r5⟩ := close_run (t := { t with stack := [.user false] }) (ok := ok) rfl h2 h3 h4
  refine ⟨{ t' with stack := [] }, ?_, r2, r3, r4, rfl⟩
  rw [List.cons_append, Timer.run, he, Option.bind_some, run_append, r1, Option.bind_some, Timer.run]
  have : Timer.step t' .leave = some { t' with stack := [] } := by
    unfold Timer.step
    rw [if_neg (by rw [r4]; exact Bool.false_ne_true), r5]
  rw [this]
  rfl

theorem settime_armed {T : BitVec 64} (hT : T ≠ 0#64) (s : Timer.St) (t : Nat) : Timer.settime s (Timer.convert T) t = { s with kern := .armed t } := by
  unfold Timer.settime
  rw [if_neg (fun q => hT ((Timer.convert_zero T).mp q))]

/-- User code entered for the timer arms it. -/
theorem enter_arm {t : Timer.St} {T : BitVec 64} (hT : T ≠ 0#64) (h1 : t.stack = []) (h2 : t.alive = true) (h4 : t.ub = false) :
    (∀ soon, ∃ t', Timer.run t [.enter, .arm T false soon] = some t' ∧ t'.alive = true ∧ t'.inLoop = t.inLoop ∧ t'.ub = false ∧ t'.stack = [.user false] ∧ t'.handler.isSome = true) ∧
    (∃ t', Timer.run t [.enter, .arm T true false] = some t' ∧ t'.alive = true ∧ t'.inLoop = t.inLoop ∧ t'.ub = false ∧ t'.stack = [.user false] ∧ t'.handler.isSome = true) ∧
    ∃ t', Timer.run t [.enter, .arm T true true] = some t' ∧ t'.alive = true ∧ t'.inLoop = t.inLoop ∧ t'.ub = false ∧ t'.stack = [.user false, .user false] ∧ t'.handler.isSome = false := by
  obtain ⟨handler, kern, inLoop, alive, next, stack, ub, log⟩ := t
  dsimp only at h1 h2 h4
  subst h1 h2 h4
  refine ⟨fun soon => ?_, ?_, ?_⟩ <;>
  simp [Timer.run, Timer.step, Timer.arm, settime_armed hT, Timer.expire, Timer.timerRead]

/-- User code entered for the timer cancels it. -/
theorem enter_cancel {t : Timer.St} (ok : Bool) (h1 : t.stack = []) (h2 : t.alive = true) (h4 : t.ub = false) :
    ∃ t', Timer.run t (.enter :: cancelMoves t.handler.isSome ok) = some t' ∧ t'.alive = true ∧ t'.inLoop = t.inLoop ∧ t'.ub = false ∧ t'.stack = [.user false] ∧
      t'.handler.isSome = (t.handler.isSome && !ok) := by
  obtain ⟨handler, kern, inLoop, alive, next, stack, ub, log⟩ := t
  dsimp only at h1 h2 h4
  subst h1 h2 h4
  cases handler <;> cases ok <;> simp [cancelMoves, Timer.run, Timer.step, Timer.cancel, Timer.cancelCore, Timer.settime]

theorem leave_run {t : Timer.St} {b : Bool} {k : List Timer.Item} (h1 : t.stack = .user b :: k) (h4 : t.ub = false) : Timer.run t [.leave] = some { t with stack := k } := by
  obtain ⟨handler, kern, inLoop, alive, next, stack, ub, log⟩ := t
  dsimp only at h1 h4
  subst h1 h4
  rfl

/-- The timer, which is being used by the socket, is closed. -/
theorem then_close {t t1 : Timer.St} {pre : List Timer.Move} {armed ok b : Bool} {k : List Timer.Item} (hp : Timer.run t pre = some t1) (h1 : t1.stack = .user b :: k) (h2 : t1.alive = true)
    (h3 : t1.inLoop = true) (h4 : t1.ub = false) (h5 : t1.handler.isSome = armed) :
    ∃ t', Timer.run t (pre ++ closeMoves armed ok ++ [.leave]) = some t' ∧ t'.alive = false ∧ t'.inLoop = false ∧ t'.ub = false ∧ t'.stack = k := by
  subst h5
  obtain ⟨t', r1, r2, r3, r4, r5⟩ := close_run (ok := ok) h1 h2 h3 h4
  refine ⟨{ t' with stack := k }, ?_, r2, r3, r4, rfl⟩
  rw [run_append, run_append, hp, Option.bind_some, r1, Option.bind_some]
  exact leave_run r5 r4

/-- Whatever the socket does, its calls of the timer's functions are possible, and socket and timer agree again behind it. -/
theorem move_fits {T : BitVec 64} {c1 c2 : Bool} {s s' : Socket.St} {t : Timer.St} {m : Socket.Move} (h : Fits s t) (hT : s.closeTimeout = true → T ≠ 0#64) (hm : m ≠ .timeout)
    (hs : Socket.step s m = some s') (hu : s'.ub = false) :
    ∃ t', Timer.run t (.enter :: timerMoves T c1 c2 s m ++ [.leave]) = some t' ∧ Fits s' t' := by
  have hidle : timerMoves T c1 c2 s m = [] → Fits s' t → ∃ t', Timer.run t (.enter :: timerMoves T c1 c2 s m ++ [.leave]) = some t' ∧ Fits s' t' := by
    intro h1 h2
    rw [h1]
    exact ⟨t, idle_run h.idle.1 h.idle.2, h2⟩
  unfold Socket.step at hs
  rw [if_neg (by rw [h.sub]; exact Bool.false_ne_true)] at hs
  cases m with
  | timeout => exact absurd rfl hm
  | peerSends d =>
    dsimp only at hs
    split at hs
    · cases hs
    · injection hs with hs; subst hs; exact hidle rfl (h.same rfl rfl rfl rfl id)
  | peerCloses => injection hs with hs; subst hs; exact hidle rfl (h.same rfl rfl rfl rfl id)
  | enter =>
    cases hk : s.stack with
    | nil => rw [hk] at hs; injection hs with hs; subst hs; exact hidle rfl (h.same rfl rfl rfl rfl (fun q => by simp at q))
    | cons i k => rw [hk] at hs; cases i <;> cases hs
  | leave =>
    cases hk : s.stack with
    | nil => rw [hk] at hs; cases hs
    | cons i k =>
      rw [hk] at hs
      cases i with
      | user => injection hs with hs; subst hs; exact hidle rfl (h.same rfl rfl rfl rfl (fun q => by rw [hk]; exact List.mem_cons_of_mem _ q))
      | afterArm => cases hs
  | read sp ok =>
    cases hk : s.stack with
    | nil => rw [hk] at hs; cases hs
    | cons i k =>
      rw [hk] at hs
      cases i with
      | afterArm => cases hs
      | user =>
        dsimp only at hs
        split at hs
        · injection hs with hs
          subst hs
          refine hidle rfl ?_
          unfold Socket.streamRead
          dsimp only
          split <;> exact h.same rfl rfl rfl rfl id
        · cases hs
  | write d a ok =>
    cases hk : s.stack with
    | nil => rw [hk] at hs; cases hs
    | cons i k =>
      rw [hk] at hs
      cases i with
      | afterArm => cases hs
      | user =>
        dsimp only at hs
        split at hs
        · injection hs with hs
          subst hs
          refine hidle rfl ?_
          unfold Socket.streamWrite
          dsimp only
          cases a with
          | sent c => exact h.same rfl rfl rfl rfl (fun q => by simpa [Socket.call] using q)
          | error e => exact h.same rfl rfl rfl rfl id
          | again =>
            dsimp only
            split <;> exact h.same rfl rfl rfl rfl id
        · cases hs
  | connect a ok =>
    cases hk : s.stack with
    | nil => rw [hk] at hs; cases hs
    | cons i k =>
      rw [hk] at hs
      cases i with
      | afterArm => cases hs
      | user =>
        dsimp only at hs
        split at hs
        · injection hs with hs
          subst hs
          refine hidle rfl ?_
          unfold Socket.connect
          cases a with
          | done => exact h.same rfl rfl rfl rfl (fun q => by simpa [Socket.call] using q)
          | error e => exact h.same rfl rfl rfl rfl id
          | inProgress =>
            dsimp only
            split <;> exact h.same rfl rfl rfl rfl id
        · cases hs
  | close a b c d =>
    cases hk : s.stack with
    | nil => rw [hk] at hs; cases hs
    | cons i k =>
      rw [hk] at hs
      cases i with
      | afterArm => cases hs
      | user =>
        dsimp only at hs
        by_cases ha : s.alive = true
        · rw [if_pos ha] at hs
          injection hs with hs
          subst hs
          have ho := h.opened ha
          have hplain : ∀ s1 : Socket.St, s1.alive = s.alive → s1.ub = s.ub →
              ∃ t', Timer.run t (.enter :: closeMoves s.timerArmed c2 ++ [.leave]) = some t' ∧ Fits (Socket.closeSocket s1) t' := by
            intro s1 e1 e2
            obtain ⟨t', r1, r2, r3, r4, r5⟩ := enter_close c2 ho.stack ho.alive ho.loop ho.ub
            rw [← ho.armed] at r1
            exact ⟨t', r1, fits_closed (by rw [e2]; exact h.sub) (by rw [e1]; exact ha) r2 r3 r4 r5⟩
          rw [timerMoves]
          unfold Socket.close
          dsimp only
          by_cases hp : s.peerClosed = true
          · rw [if_pos hp, if_pos (by rw [hp]; rfl)]
            exact hplain _ rfl rfl
          · rw [if_neg hp]
            by_cases ht : s.closeTimeout = true
            · rw [if_pos ht]
              obtain ⟨A1, ⟨t2, B1, B2, B3, B4, B5, B6⟩, t3, C1, C2, C3, C4, C5, C6⟩ := enter_arm (T := T) (hT ht) ho.stack ho.alive ho.ub
              unfold Socket.shutdownSocket Socket.resetConnection
              cases a with
              | false =>
                rw [if_pos (by simp)]
                exact hplain _ rfl rfl
              | true =>
                rw [if_neg (by simp [hp, ht])]
                simp only [Bool.not_true, Bool.false_eq_true, if_false]
                cases b with
                | false =>
                  simp only [Bool.not_false, if_true]
                  obtain ⟨t1, r0, r1, r2, r3, r4, r5⟩ := A1 c
                  obtain ⟨t', r6, r7, r8, r9, r10⟩ := then_close (ok := c2) r0 r4 r1 (by rw [r2]; exact ho.loop) r3 r5
                  exact ⟨t', r6, fits_closed h.sub ha r7 r8 r9 r10⟩
                | true =>
                  simp only [Bool.not_true, Bool.false_eq_true, if_false]
                  cases c with
                  | true =>
                    simp only [if_true]
                    obtain ⟨t', r6, r7, r8, r9, r10⟩ := then_close (ok := c2) C1 C5 C2 (by rw [C3]; exact ho.loop) C4 C6
                    refine ⟨{ t' with stack := [] }, ?_, fits_closed h.sub ha r7 r8 r9 rfl⟩
                    have : Timer.run t (([.enter, .arm T true true] ++ closeMoves false c2 ++ [.leave]) ++ [.leave]) = some { t' with stack := [] } := by
                      rw [run_append, r6, Option.bind_some]
                      exact leave_run r10 r9
                    exact this
                  | false =>
                    simp only [Bool.false_eq_true, if_false]
                    unfold Socket.shutdownTail Socket.guarded
                    dsimp only
                    rw [if_pos ha]
                    cases d with
                    | true =>
                      simp only [if_true]
                      refine ⟨{ t2 with stack := [] }, ?_, ?_⟩
                      · have : Timer.run t ([.enter, .arm T true false] ++ [.leave]) = some { t2 with stack := [] } := by
                          rw [run_append, B1, Option.bind_some]
                          exact leave_run B5 B4
                        exact this
                      · refine ⟨h.sub, h.loop, fun _ => ?_, fun _ => ⟨rfl, B2, by rw [← ho.loop]; exact B3, B4, B6.symm, ?_⟩, fun q => ?_⟩
                        · dsimp only; exact h.after ha
                        · intro q; dsimp only at q; rw [q] at B6; cases B6
                        · dsimp only at q; rw [ha] at q; cases q
                    | false =>
                      simp only [Bool.false_eq_true, if_false]
                      obtain ⟨t', r6, r7, r8, r9, r10⟩ := then_close (ok := c2) B1 B5 B2 (by rw [B3]; exact ho.loop) B4 B6
                      exact ⟨t', r6, fits_closed h.sub ha r7 r8 r9 r10⟩
            · rw [if_neg ht, if_pos (by simp [ht])]
              exact hplain _ rfl rfl
        · rw [if_neg ha] at hs; cases hs
  | readable a q =>
    cases hk : s.stack with
    | cons i k => rw [hk] at hs; cases i <;> cases hs
    | nil =>
      rw [hk] at hs
      dsimp only at hs
      by_cases hl : (s.inLoop && s.regIn) = true
      · rw [if_pos hl] at hs
        obtain ⟨hl1, hl2⟩ := Bool.and_eq_true_iff.mp hl
        have ha : s.alive = true := by rw [h.loop]; exact hl1
        have ho := h.opened ha
        have hboth : ∀ s1 : Socket.St, s1.alive = s.alive → s1.ub = s.ub →
            ∃ t', Timer.run t (.enter :: (cancelMoves s.timerArmed c1 ++ closeMoves (s.timerArmed && !c1) c2) ++ [.leave]) = some t' ∧ Fits (Socket.closeSocket s1) t' := by
          intro s1 e1 e2
          obtain ⟨t1, r1, r2, r3, r4, r5, r6⟩ := enter_cancel c1 ho.stack ho.alive ho.ub
          rw [← ho.armed] at r1 r6
          obtain ⟨t', q1, q2, q3, q4, q5⟩ := then_close (ok := c2) r1 r5 r2 (by rw [r3]; exact ho.loop) r4 r6
          refine ⟨t', ?_, fits_closed (by rw [e2]; exact h.sub) (by rw [e1]; exact ha) q2 q3 q4 q5⟩
          exact q1
        rw [timerMoves] at hidle ⊢
        cases hcb : s.readCb with
        | none => rw [hcb] at hs; injection hs with hs; subst hs; cases hu
        | read =>
          rw [hcb] at hs hidle
          cases hpr : s.pendRead with
          | none => rw [hpr] at hs; injection hs with hs; subst hs; cases hu
          | some v =>
            obtain ⟨u, sp⟩ := v
            rw [hpr] at hs
            injection hs with hs
            subst hs
            refine hidle (if_neg (by simp)) ?_
            unfold Socket.readCallback Socket.call
            dsimp only
            split
            · exact h.same rfl rfl rfl rfl (fun q => by simp [hk] at q)
            · split
              · exact h.same rfl rfl rfl rfl (fun q => by simp [hk] at q)
              · exact h.same rfl rfl rfl rfl (fun q => by simp [hk] at q)
              · split <;> exact h.same rfl rfl rfl rfl (fun q => by simp [hk] at q)
        | drain =>
          rw [hcb] at hs hidle
          injection hs with hs
          subst hs
          unfold Socket.drainCallback Socket.cancelAndReset Socket.resetConnection drained at *
          dsimp only at *
          cases a with
          | false =>
            rw [if_pos (by simp), if_pos (by simp)]
            exact hboth _ rfl rfl
          | true =>
            rw [if_neg (c := (!true) = true) (by simp)]
            rw [if_neg (c := (!true) = true) (by simp)] at hidle
            generalize he : Socket.osRead _ _ q = z at *
            cases z with
            | again =>
              exact hidle (by simp) (h.same rfl rfl rfl rfl (fun q => by simp [hk] at q))
            | error e =>
              rw [if_pos (by simp)]
              exact hboth _ rfl rfl
            | bytes c =>
              dsimp only at *
              by_cases hd : (Socket.taken { s with regIn := false } Socket.readCloseBufferSize c).length = 0
              · rw [if_pos hd, if_pos (by simp [hd])]
                exact hboth _ rfl rfl
              · rw [if_neg hd] at hidle ⊢
                exact hidle (by rw [if_neg]; simp only [decide_eq_false hd]; simp) (h.same rfl rfl rfl rfl (fun q => by simp [hk] at q))
      · rw [if_neg hl] at hs; cases hs
  | writable e =>
    cases hk : s.stack with
    | cons i k => rw [hk] at hs; cases i <;> cases hs
    | nil =>
      rw [hk] at hs
      dsimp only at hs
      split at hs
      · injection hs with hs
        refine hidle rfl ?_
        subst hs
        unfold Socket.writeCallback Socket.call at hu ⊢
        dsimp only at hu ⊢
        split
        · exact h.same rfl rfl rfl rfl (by simp)
        · exact h.same rfl rfl rfl rfl (by simp)
        · rename_i hw; rw [hw] at hu; cases hu
      · cases hs
  | «continue» ok =>
    cases hk : s.stack with
    | nil => rw [hk] at hs; cases hs
    | cons i k =>
      rw [hk] at hs
      cases i with
      | user => cases hs
      | afterArm =>
        injection hs with hs
        subst hs
        unfold Socket.shutdownTail Socket.guarded at hu
        dsimp only at hu
        by_cases ha : s.alive = true
        · exact absurd (by rw [hk]; exact List.mem_cons_self) (h.after ha)
        · rw [if_neg ha] at hu; cases hu

/-- `close_timeout_ns` does not change. -/
theorem closeTimeout_const {s s' : Socket.St} {m : Socket.Move} (hs : Socket.step s m = some s') : s'.closeTimeout = s.closeTimeout := by
  have hc : ∀ s : Socket.St, (Socket.closeSocket s).closeTimeout = s.closeTimeout := by
    intro s; unfold Socket.closeSocket Socket.guarded; split <;> rfl
  have ht : ∀ (s : Socket.St) b, (Socket.shutdownTail s b).closeTimeout = s.closeTimeout := by
    intro s b; unfold Socket.shutdownTail Socket.guarded Socket.resetConnection
    split
    · dsimp only
      split
      · rfl
      · rw [hc]
    · rfl
  unfold Socket.step at hs
  split at hs
  · cases hs
  · split at hs
    · split at hs
      · cases hs
      · injection hs with hs; subst hs; rfl
    · injection hs with hs; subst hs; rfl
    · injection hs with hs; subst hs; rfl
    · injection hs with hs; subst hs; rfl
    · split at hs
      · injection hs with hs; subst hs; unfold Socket.streamRead; dsimp only; split <;> rfl
      · cases hs
    · split at hs
      · injection hs with hs; subst hs; unfold Socket.streamWrite Socket.call; dsimp only
        split
        · rfl
        · split <;> rfl
        · rfl
      · cases hs
    · split at hs
      · injection hs with hs; subst hs; unfold Socket.connect Socket.call
        split
        · rfl
        · dsimp only; split <;> rfl
        · rfl
      · cases hs
    · split at hs
      · injection hs with hs; subst hs
        unfold Socket.close Socket.shutdownSocket Socket.resetConnection
        dsimp only
        repeat' split
        all_goals first | exact hc _ | exact ht _ _
      · cases hs
    · split at hs
      · split at hs
        · injection hs with hs; subst hs
          unfold Socket.readCallback Socket.call
          dsimp only
          repeat' split
          all_goals rfl
        · injection hs with hs; subst hs
          unfold Socket.drainCallback Socket.cancelAndReset Socket.resetConnection
          dsimp only
          repeat' split
          all_goals first | exact hc _ | rfl
        · injection hs with hs; subst hs; rfl
      · cases hs
    · split at hs
      · injection hs with hs; subst hs
        unfold Socket.writeCallback Socket.call
        dsimp only
        repeat' split
        all_goals rfl
      · cases hs
    · split at hs
      · injection hs with hs; subst hs; exact hc _
      · cases hs
    · injection hs with hs; subst hs; exact ht _ _
    · cases hs

theorem timeout_step {s : Socket.St} (hu : s.ub = false) (hk : s.stack = []) (ha : s.timerArmed = true) :
    Socket.step s .timeout = some (Socket.resetConnection { s with timerArmed := false }) := by
  unfold Socket.step
  rw [if_neg (by rw [hu]; exact Bool.false_ne_true), hk]
  dsimp only
  rw [if_pos ha, ← hk]

/-- The timer part of `timeout`. -/
theorem timeout_run {t : Timer.St} {a b : Nat} (c2 : Bool) (h1 : t.stack = []) (h2 : t.alive = true) (h3 : t.inLoop = true) (h4 : t.ub = false) (hk : t.kern = .expired a)
    (hh : t.handler = some b) : ∃ t', Timer.run t (.event none :: closeMoves false c2 ++ [.leave]) = some t' ∧ t'.alive = false ∧ t'.inLoop = false ∧ t'.ub = false ∧ t'.stack = [] := by
  obtain ⟨handler, kern, inLoop, alive, next, stack, ub, log⟩ := t
  dsimp only at h1 h2 h3 h4 hk hh
  subst h1 h2 h3 h4 hk hh
  simp [closeMoves, Timer.run, Timer.step, Timer.timerRead, Timer.close, Timer.cancelCore]

/-- The timer part of `failed`. -/
theorem failed_run {t : Timer.St} {b : Nat} (e : Err) (h1 : t.stack = []) (h3 : t.inLoop = true) (h4 : t.ub = false) (hh : t.handler = some b) :
    ∃ t', Timer.run t [.event (some e), .leave] = some t' ∧ t'.alive = t.alive ∧ t'.inLoop = true ∧ t'.ub = false ∧ t'.stack = [] ∧ t'.handler = some b := by
  obtain ⟨handler, kern, inLoop, alive, next, stack, ub, log⟩ := t
  dsimp only at h1 h3 h4 hh
  subst h1 h3 h4 hh
  simp [Timer.run, Timer.step, Timer.timerRead]

/-- Socket and timer agree, at any time. -/
theorem runs_fits {T : BitVec 64} {s : Socket.St} {t : Timer.St} (h : Runs T s t) : Fits s t ∧ (s.closeTimeout = true → T ≠ 0#64) := by
  induction h with
  | init =>
    refine ⟨⟨rfl, rfl, (fun _ q => by cases q), fun _ => ⟨rfl, rfl, rfl, rfl, rfl, fun _ => rfl⟩, (fun q => by cases q)⟩, fun q => ?_⟩
    have q : (T != 0#64) = true := q
    simpa using q
  | @move s s' t t' m c1 c2 _ hm hs hu hr ih =>
    obtain ⟨t1, r1, r2⟩ := move_fits (c1 := c1) (c2 := c2) ih.1 ih.2 hm hs hu
    rw [hr] at r1
    injection r1 with r1
    subst r1
    exact ⟨r2, fun q => ih.2 (by rw [← closeTimeout_const hs]; exact q)⟩
  | @expire s t t' _ hs ih =>
    refine ⟨?_, ih.2⟩
    have ih := ih.1
    unfold Timer.step at hs
    split at hs
    · cases hs
    · have hs : Timer.expire t = some t' := hs
      unfold Timer.expire at hs
      cases hk : t.kern with
      | armed a =>
        rw [hk] at hs
        injection hs with hs
        subst hs
        refine ⟨ih.sub, ih.loop, ih.after, fun q => ?_, fun q => ?_⟩
        · have := ih.opened q
          refine ⟨this.stack, this.alive, this.loop, this.ub, this.armed, fun q => ?_⟩
          have := this.kern q
          rw [hk] at this; cases this
        · have := ih.closed q
          exact ⟨this.alive, this.loop, this.ub, this.stack, this.armed⟩
      | _ => rw [hk] at hs; cases hs
  | @failed s t t' a e _ hk hr ih =>
    refine ⟨?_, ih.2⟩
    have ih := ih.1
    cases ha : s.alive with
    | true =>
      have ho := ih.opened ha
      cases hh : t.handler with
      | none => have := ho.kern hh; rw [hk] at this; cases this
      | some b =>
        obtain ⟨t1, r1, r2, r3, r4, r5, r6⟩ := failed_run e ho.stack ho.loop ho.ub hh
        rw [hr] at r1
        injection r1 with r1
        subst r1
        refine ⟨ih.sub, ih.loop, ih.after, fun _ => ⟨r5, by rw [r2]; exact ho.alive, r3, r4, by rw [r6, ← hh]; exact ho.armed, fun q => by rw [r6] at q; cases q⟩, fun q => by rw [ha] at q; cases q⟩
    | false =>
      have hc := ih.closed ha
      have : Timer.run t [.event (some e), .leave] = none := by
        have : Timer.step t (.event (some e)) = none := by
          unfold Timer.step
          rw [if_neg (by rw [hc.ub]; exact Bool.false_ne_true), hc.stack]
          dsimp only
          rw [if_neg (by rw [hc.loop]; exact Bool.false_ne_true)]
        rw [Timer.run, this]; rfl
      rw [hr] at this; cases this
  | @timeout s s' t t' a c2 _ hk hs hu hr ih =>
    refine ⟨?_, fun q => ih.2 (by rw [← closeTimeout_const hs]; exact q)⟩
    have ih := ih.1
    cases ha : s.alive with
    | true =>
      have ho := ih.opened ha
      cases hh : t.handler with
      | none => have := ho.kern hh; rw [hk] at this; cases this
      | some b =>
        obtain ⟨t1, r1, r2, r3, r4, r5⟩ := timeout_run c2 ho.stack ho.alive ho.loop ho.ub hk hh
        rw [hr] at r1
        injection r1 with r1
        subst r1
        have harm : s.timerArmed = true := by rw [ho.armed, hh]; rfl
        have hst : s.stack = [] := by
          unfold Socket.step at hs
          split at hs
          · cases hs
          · cases hk : s.stack with
            | nil => rfl
            | cons i k => rw [hk] at hs; cases i <;> cases hs
        rw [timeout_step ih.sub hst harm] at hs
        injection hs with hs
        subst hs
        exact fits_closed ih.sub ha r2 r3 r4 r5
    | false =>
      have hc := ih.closed ha
      exfalso
      unfold Socket.step at hs
      split at hs
      · cases hs
      · cases hk : s.stack with
        | cons i k => rw [hk] at hs; cases i <;> cases hs
        | nil =>
          rw [hk] at hs
          dsimp only at hs
          rw [if_neg (by rw [hc.armed]; exact Bool.false_ne_true)] at hs
          cases hs

/-- C93: the close timer of an open socket is armed exactly if the model of the socket says so, its memory is alive; the timer of a closed socket has been closed and is out of the loop. -/
theorem timer_as_socket_says {T : BitVec 64} {s : Socket.St} {t : Timer.St} (h : Runs T s t) :
    (s.alive = true → t.alive = true ∧ t.inLoop = true ∧ (s.timerArmed = true ↔ t.handler ≠ none)) ∧ (s.alive = false → t.alive = false ∧ t.inLoop = false) ∧ t.ub = false := by
  have hf := (runs_fits h).1
  refine ⟨fun q => ?_, fun q => ⟨(hf.closed q).alive, (hf.closed q).loop⟩, hf.idle.2⟩
  have ho := hf.opened q
  refine ⟨ho.alive, ho.loop, ?_⟩
  rw [ho.armed]
  cases t.handler <;> simp

/-- C93: whatever the socket does, what it asks of its timer is possible. -/
theorem timer_calls_possible {T : BitVec 64} {s s' : Socket.St} {t : Timer.St} (h : Runs T s t) {m : Socket.Move} (hm : m ≠ .timeout) (hs : Socket.step s m = some s') (hu : s'.ub = false)
    (c1 c2 : Bool) : ∃ t', Timer.run t (.enter :: timerMoves T c1 c2 s m ++ [.leave]) = some t' := by
  obtain ⟨t', r, -⟩ := move_fits (c1 := c1) (c2 := c2) (runs_fits h).1 (runs_fits h).2 hm hs hu
  exact ⟨t', r⟩

/-- C93: an expired timer which the loop can call is one the socket waits for: the connection can be reset, and the timer closed within its own handler. -/
theorem expiry_expected {T : BitVec 64} {s : Socket.St} {t : Timer.St} (h : Runs T s t) (hl : t.inLoop = true) {a : Nat} (hk : t.kern = .expired a) (hst : s.stack = []) (c2 : Bool) :
    ∃ s' t', Socket.step s .timeout = some s' ∧ s'.ub = false ∧ s'.alive = false ∧ Timer.run t (.event none :: closeMoves false c2 ++ [.leave]) = some t' ∧ t'.alive = false := by
  have hf := (runs_fits h).1
  cases ha : s.alive with
  | false => have := (hf.closed ha).loop; rw [hl] at this; cases this
  | true =>
    have ho := hf.opened ha
    cases hh : t.handler with
    | none => have := ho.kern hh; rw [hk] at this; cases this
    | some b =>
      obtain ⟨t1, r1, r2, -, -, -⟩ := timeout_run c2 ho.stack ho.alive ho.loop ho.ub hk hh
      have harm : s.timerArmed = true := by rw [ho.armed, hh]; rfl
      refine ⟨_, t1, timeout_step hf.sub hst harm, ?_, ?_, r1, r2⟩
      · unfold Socket.resetConnection Socket.closeSocket Socket.guarded; rw [if_pos (by exact ha)]; exact hf.sub
      · unfold Socket.resetConnection Socket.closeSocket Socket.guarded; rw [if_pos (by exact ha)]

/-- A socket with a close timeout is closed by the application, the peer does not close its side: the timer is armed, expires and may be called. -/
example : ∃ s t a, Runs 5#64 s t ∧ s.alive = true ∧ s.stack = [] ∧ s.timerArmed = true ∧ t.inLoop = true ∧ t.kern = .expired a := by
  have h0 : Runs 5#64 _ _ := .init
  have h1 := Runs.move .enter true true h0 (by decide) (s' := { Socket.initial true with stack := [.user] }) rfl rfl (t' := Timer.initial) rfl
  have h2 := Runs.move (.close true true false true) true true h1 (by decide)
    (s' := { Socket.initial true with stack := [.user], readCb := .drain, timerArmed := true, regIn := true, log := [.closeCalled] }) rfl rfl
    (t' := { Timer.initial with handler := some 0, kern := .armed 0, next := 1, log := [.armed 0 true] }) (by decide)
  have h3 := Runs.move .leave true true h2 (by decide)
    (s' := { Socket.initial true with readCb := .drain, timerArmed := true, regIn := true, log := [.closeCalled] }) rfl rfl
    (t' := { Timer.initial with handler := some 0, kern := .armed 0, next := 1, log := [.armed 0 true] }) rfl
  have h4 := Runs.expire h3 (t' := { Timer.initial with handler := some 0, kern := .expired 0, next := 1, log := [.armed 0 true, .expired 0] }) rfl
  exact ⟨_, _, 0, h4, rfl, rfl, rfl, rfl, rfl⟩

end Cio.Linux.CloseTimer
