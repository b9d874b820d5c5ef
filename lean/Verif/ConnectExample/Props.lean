import Verif.ConnectExample.Model
/-
C124: the connect example.
-/
namespace Cio.ConnectExample
open Socket (St Move Obs ConnRes ReadRes)

def isAnswer : Obs → Bool
  | .connectDone _ => true
  | _ => false

/-- How often `handle_connect` has been called. -/
def Sys.answers (s : Sys) : Nat := s.sock.log.countP isAnswer
/-- How often the program has called `cio_socket_close`. -/
def Sys.closeCalls (s : Sys) : Nat := s.sock.log.count .closeCalled
/-- How often the descriptor has been closed. -/
def Sys.fdCloses (s : Sys) : Nat := s.sock.log.count .fdClosed

/-- What is counted of a log. -/
def tally (l : List Obs) : Nat × Nat × Nat := (l.countP isAnswer, l.count .closeCalled, l.count .fdClosed)

/-- The socket between events, in whatever phase. -/
structure Calm (s : St) : Prop where
  stack : s.stack = []
  ub : s.ub = false
  timeout : s.closeTimeout = true
  cb : s.regIn = true → s.readCb = .drain
  peer : s.peerClosed = false
  dead : s.alive = false → s.regIn = false ∧ s.inLoop = false ∧ s.timerArmed = false
  opened : s.alive = true → (tally s.log).2.2 = 0
  closed : s.alive = false → 0 < (tally s.log).2.2
  quiet : (tally s.log).2.1 = 0 → s.alive = true ∧ s.regIn = false ∧ s.timerArmed = false
  out : s.regOut = true → s.writeCb = .connect

/-- `cio_socket_close` as the program calls it. -/
theorem calm_close {s : St} (h : Calm s) (a b c d : Bool) :
    Calm (closeIt s a b c d) ∧ (tally (closeIt s a b c d).log).1 = (tally s.log).1 ∧ (tally (closeIt s a b c d).log).2.1 = (tally s.log).2.1 + 1 ∧ (closeIt s a b c d).regOut = s.regOut := by
  obtain ⟨h1, h2, h4, h5, h6, h7, h8, h9, h10, h11⟩ := h
  cases ha : s.alive with
  | false =>
    simp only [closeIt, ha, closeAgain]
    refine ⟨⟨h1, h2, h4, h5, h6, fun _ => h7 ha, fun q => ?_, fun _ => ?_, fun q => ?_, h11⟩, ?_, ?_, ?_⟩
    · simp at q
    · simp [tally, List.count_append]
    · simp [tally, List.count_append] at q
    · simp [tally, List.countP_append, isAnswer]
    · simp [tally, List.count_append]
    · simp
  | true =>
    have h8 := h8 ha
    simp only [tally] at h8
    cases a <;> cases b <;> cases c <;> cases d <;>
      · refine ⟨⟨?_, ?_, ?_, ?_, ?_, ?_, ?_, ?_, ?_, ?_⟩, ?_, ?_, ?_⟩ <;>
          simp [closeIt, ha, Socket.close, h6, h4, Socket.shutdownSocket, Socket.shutdownTail, Socket.resetConnection, Socket.closeSocket, Socket.guarded, settled, h1, h2, tally,
            List.countP_append, List.count_append, isAnswer, h8] <;> exact h11

/-- What an event does to a socket without handlers: it stays as it was, or its descriptor is closed. -/
structure Same (s t : St) : Prop where
  answers : (tally t.log).1 = (tally s.log).1
  calls : (tally t.log).2.1 = (tally s.log).2.1
  regOut : t.regOut = s.regOut
  writeCb : t.writeCb = s.writeCb

theorem calm_closeSocket {s : St} (h : Calm s) (ha : s.alive = true) (hc : (tally s.log).2.1 ≠ 0) : Calm (settled (Socket.closeSocket s)) ∧ Same s (settled (Socket.closeSocket s)) := by
  obtain ⟨h1, h2, h4, h5, h6, h7, h8, h9, h10, h11⟩ := h
  have h8 := h8 ha
  simp only [tally] at h8 hc
  refine ⟨⟨?_, ?_, ?_, ?_, ?_, ?_, ?_, ?_, ?_, ?_⟩, ⟨?_, ?_, ?_, ?_⟩⟩ <;>
    simp [Socket.closeSocket, Socket.guarded, ha, settled, h1, h2, h4, h6, tally, List.countP_append, List.count_append, isAnswer, h8, hc]
  exact h11

/-- A change of what does not matter. -/
theorem Calm.with {s t : St} (h : Calm s) (e1 : t.stack = s.stack) (e2 : t.ub = s.ub) (e3 : t.closeTimeout = s.closeTimeout) (e4 : t.regIn = true → s.regIn = true) (e5 : t.readCb = s.readCb)
    (e6 : t.peerClosed = s.peerClosed) (e7 : t.alive = s.alive) (e8 : t.inLoop = s.inLoop) (e9 : t.timerArmed = true → s.timerArmed = true) (e10 : tally t.log = tally s.log)
    (e11 : t.regOut = s.regOut) (e12 : t.writeCb = s.writeCb) : Calm t := by
  have f : ∀ {a b : Bool}, (a = true → b = true) → b = false → a = false := fun {a b} h q => by cases a with | false => rfl | true => rw [h rfl] at q; cases q
  refine ⟨by rw [e1]; exact h.stack, by rw [e2]; exact h.ub, by rw [e3]; exact h.timeout, fun q => by rw [e5]; exact h.cb (e4 q), by rw [e6]; exact h.peer, fun q => ?_,
    fun q => ?_, fun q => ?_, fun q => ?_, fun q => ?_⟩
  · rw [e7] at q
    obtain ⟨d1, d2, d3⟩ := h.dead q
    exact ⟨f e4 d1, by rw [e8]; exact d2, f e9 d3⟩
  · rw [e10]; rw [e7] at q; exact h.opened q
  · rw [e10]; rw [e7] at q; exact h.closed q
  · rw [e10] at q
    obtain ⟨d1, d2, d3⟩ := h.quiet q
    exact ⟨by rw [e7]; exact d1, f e4 d2, f e9 d3⟩
  · rw [e12]; rw [e11] at q; exact h.out q

theorem settled_same {s : St} (h : s.stack = []) : settled s = s := by
  unfold settled
  rw [h]
  cases s; cases h; rfl

theorem calm_peerSends {s t : St} (h : Calm s) (d : List UInt8) (hs : Socket.step s (.peerSends d) = some t) : Calm t ∧ Same s t := by
  unfold Socket.step at hs
  rw [h.ub] at hs
  simp only [Bool.false_eq_true, if_false] at hs
  split at hs
  · cases hs
  · injection hs with hs
    subst hs
    have e : tally (s.log ++ [.peerSent d]) = tally s.log := by simp [tally, List.countP_append, List.count_append, isAnswer]
    exact ⟨h.with rfl h.ub.symm rfl id rfl rfl rfl rfl id e rfl rfl, ⟨by rw [e], by rw [e], rfl, rfl⟩⟩

theorem calm_peerCloses {s t : St} (h : Calm s) (hs : Socket.step s .peerCloses = some t) : Calm t ∧ Same s t := by
  unfold Socket.step at hs
  rw [h.ub] at hs
  simp only [Bool.false_eq_true, if_false] at hs
  injection hs with hs
  subst hs
  have e : tally (s.log ++ [.peerClosed]) = tally s.log := by simp [tally, List.countP_append, List.count_append, isAnswer]
  exact ⟨h.with rfl h.ub.symm rfl id rfl rfl rfl rfl id e rfl rfl, ⟨by rw [e], by rw [e], rfl, rfl⟩⟩

theorem calm_timeout {s t : St} (h : Calm s) (hs : Socket.step s .timeout = some t) : Calm (settled t) ∧ Same s (settled t) := by
  unfold Socket.step at hs
  rw [h.ub, h.stack] at hs
  simp only [Bool.false_eq_true, if_false] at hs
  split at hs
  · next g =>
    injection hs with hs
    subst hs
    have ha : s.alive = true := by
      cases q : s.alive with
      | true => rfl
      | false => rw [(h.dead q).2.2] at g; cases g
    have hc : (tally s.log).2.1 ≠ 0 := fun q => by rw [(h.quiet q).2.2] at g; cases g
    have h' : Calm { s with timerArmed := false, stack := [], ub := false } := h.with h.stack.symm h.ub.symm rfl id rfl rfl rfl rfl (fun q => nomatch q) rfl rfl rfl
    obtain ⟨k1, k2⟩ := calm_closeSocket h' ha hc
    exact ⟨k1, k2.answers, k2.calls, k2.regOut, k2.writeCb⟩
  · cases hs

theorem calm_readable {s t : St} (h : Calm s) (u : Bool) (r : ReadRes) (hs : Socket.step s (.readable u r) = some t) : Calm (settled t) ∧ Same s (settled t) := by
  unfold Socket.step at hs
  rw [h.ub, h.stack] at hs
  simp only [Bool.false_eq_true, if_false] at hs
  split at hs
  case isFalse => cases hs
  next g =>
    rw [Bool.and_eq_true] at g
    rw [h.cb g.2] at hs
    dsimp only at hs
    have ha : s.alive = true := by
      cases q : s.alive with
      | true => rfl
      | false => rw [(h.dead q).2.1] at g; exact absurd g.1 Bool.false_ne_true
    have hc : (tally s.log).2.1 ≠ 0 := fun q => by rw [(h.quiet q).2.1] at g; exact absurd g.2 Bool.false_ne_true
    have h0 : Calm { s with regIn := false } := h.with rfl rfl rfl (fun q => nomatch q) rfl rfl rfl rfl id rfl rfl rfl
    have h1 : Calm { s with regIn := false, timerArmed := false } := h0.with rfl rfl rfl id rfl rfl rfl rfl (fun q => nomatch q) rfl rfl rfl
    have stay : ∀ inc, Calm (settled { s with regIn := false, incoming := inc }) ∧ Same s (settled { s with regIn := false, incoming := inc }) := fun inc => by
      rw [settled_same (by exact h.stack)]
      exact ⟨h0.with rfl rfl rfl id rfl rfl rfl rfl id rfl rfl rfl, rfl, rfl, rfl, rfl⟩
    have shut : Calm (settled (Socket.closeSocket { s with regIn := false, timerArmed := false })) ∧ Same s (settled (Socket.closeSocket { s with regIn := false, timerArmed := false })) := by
      obtain ⟨k1, k2⟩ := calm_closeSocket h1 ha hc
      exact ⟨k1, k2.answers, k2.calls, k2.regOut, k2.writeCb⟩
    have hs : some (Socket.drainCallback s u r) = some t := by
      have hst := h.stack
      have hu := h.ub
      cases s
      cases hst; cases hu
      exact hs
    injection hs with hs
    rw [← hs]
    unfold Socket.drainCallback
    dsimp only
    split
    · exact shut
    · split
      · exact stay s.incoming
      · exact shut
      · split
        · exact shut
        · exact stay _

theorem calm_writable {s t : St} (h : Calm s) (e : Option Err) (hs : Socket.step s (.writable e) = some t) :
    Calm (settled t) ∧ (tally (settled t).log).1 = (tally s.log).1 + 1 ∧ (tally (settled t).log).2.1 = (tally s.log).2.1 ∧ (settled t).regOut = false ∧ s.regOut = true ∧ (settled t).alive = s.alive := by
  unfold Socket.step at hs
  rw [h.ub, h.stack] at hs
  simp only [Bool.false_eq_true, if_false] at hs
  split at hs
  case isFalse => cases hs
  next g =>
    rw [Bool.and_eq_true] at g
    injection hs with hs
    rw [← hs]
    have hcb := h.out g.2
    unfold Socket.writeCallback
    dsimp only
    rw [hcb]
    dsimp only
    have et : tally (s.log ++ [.connectDone (e.getD SUCCESS)]) = ((tally s.log).1 + 1, (tally s.log).2.1, (tally s.log).2.2) := by
      simp [tally, List.countP_append, List.count_append, isAnswer]
    have k : settled (Socket.call { s with regOut := false, writeCb := .connect, stack := [], ub := false } (.connectDone (e.getD SUCCESS))) =
        { s with regOut := false, writeCb := .connect, log := s.log ++ [.connectDone (e.getD SUCCESS)], stack := [], ub := false } := by
      simp [settled, Socket.call]
    rw [k]
    refine ⟨⟨rfl, rfl, h.timeout, h.cb, h.peer, h.dead, fun q => ?_, fun q => ?_, fun q => ?_, fun q => nomatch q⟩, ?_, ?_, rfl, g.2, rfl⟩
    · dsimp only; rw [et]; exact h.opened q
    · dsimp only; rw [et]; exact h.closed q
    · dsimp only at q; rw [et] at q; exact h.quiet q
    · dsimp only; rw [et]
    · dsimp only; rw [et]

theorem calm_connect {s : St} (h : Calm s) (r : ConnRes) (ok : Bool) : Calm (settled (Socket.connect s r ok)) ∧ (tally (settled (Socket.connect s r ok)).log).2.1 = (tally s.log).2.1 ∧
    (tally (settled (Socket.connect s r ok)).log).1 = (tally s.log).1 + (if r = .done then 1 else 0) ∧ (r = .done → (settled (Socket.connect s r ok)).regOut = s.regOut) := by
  obtain ⟨h1, h2, h4, h5, h6, h7, h8, h9, h10, h11⟩ := h
  simp only [tally] at h8 h9 h10
  cases r <;> cases ok <;>
    · refine ⟨⟨?_, ?_, ?_, ?_, ?_, ?_, ?_, ?_, ?_, ?_⟩, ?_, ?_, ?_⟩ <;>
        simp [Socket.connect, Socket.call, settled, h1, h2, h4, h6, tally, List.countP_append, List.count_append, isAnswer] <;> first | exact h5 | exact h7 | (simpa using h8) | (simpa using h9) | (simpa using h10) | exact h11

/-- The program. -/
structure Inv (s : Sys) : Prop where
  calm : Calm s.sock
  start : s.phase = .start → s.answers = 0 ∧ s.closeCalls = 0 ∧ s.sock.regOut = false ∧ s.cancels = s.signals
  handler : s.phase = .handler → s.answers = 1 ∧ s.closeCalls = 0 ∧ s.sock.regOut = false ∧ s.cancels = s.signals
  running : s.phase = .running → (s.answers = 0 ∧ s.closeCalls = 0 ∧ s.cancels = s.signals) ∨ (s.answers = 1 ∧ s.closeCalls = 1 ∧ s.sock.regOut = false ∧ s.cancels = s.signals + 1)
  closing : s.phase = .closing → s.answers ≤ 1 ∧ s.closeCalls = s.answers ∧ (0 < s.signals ∨ s.failure = true ∨ s.answers = 1)
  ended : s.phase = .ended → s.answers ≤ 1 ∧ s.closeCalls = s.answers + 1 ∧ (0 < s.signals ∨ s.failure = true ∨ s.answers = 1)

theorem init_inv : Inv initial := by
  refine ⟨⟨rfl, rfl, rfl, (fun q => nomatch q), rfl, (fun q => nomatch q), (fun _ => rfl), (fun q => nomatch q), (fun _ => ⟨rfl, rfl, rfl⟩), (fun q => nomatch q)⟩,
    (fun _ => ⟨rfl, rfl, rfl, rfl⟩), (fun q => nomatch q), (fun q => nomatch q), (fun q => nomatch q), (fun q => nomatch q)⟩

theorem same_inv {s : Sys} (h : Inv s) {k : St} (hc : Calm k) (hs : Same s.sock k) : Inv { s with sock := k } := by
  have e1 : Sys.answers { s with sock := k } = s.answers := hs.answers
  have e2 : Sys.closeCalls { s with sock := k } = s.closeCalls := hs.calls
  have e3 : k.regOut = s.sock.regOut := hs.regOut
  refine ⟨hc, ?_, ?_, ?_, ?_, ?_⟩
  · rw [e1, e2]; intro q; dsimp only; rw [e3]; exact h.start q
  · rw [e1, e2]; intro q; dsimp only; rw [e3]; exact h.handler q
  · rw [e1, e2]; intro q; dsimp only; rw [e3]; exact h.running q
  · rw [e1, e2]; exact h.closing
  · rw [e1, e2]; exact h.ended

theorem step_inv {s s' : Sys} {e : Ev} (h : Inv s) (hs : step s e = some s') : Inv s' := by
  cases e with
  | signal =>
    simp only [step] at hs
    split at hs
    · cases hs
    · next g =>
      injection hs with hs
      subst hs
      refine ⟨h.calm, fun q => ?_, fun q => ?_, fun q => ?_, fun q => ?_, fun q => absurd q g⟩
      · obtain ⟨a, b, c, d⟩ := h.start q; exact ⟨a, b, c, by dsimp only; omega⟩
      · obtain ⟨a, b, c, d⟩ := h.handler q; exact ⟨a, b, c, by dsimp only; omega⟩
      · rcases h.running q with ⟨a, b, c⟩ | ⟨a, b, c, d⟩
        · exact .inl ⟨a, b, by dsimp only; omega⟩
        · exact .inr ⟨a, b, c, by dsimp only; omega⟩
      · obtain ⟨a, b, -⟩ := h.closing q; exact ⟨a, b, .inl (Nat.succ_pos _)⟩
  | peerSends d =>
    obtain ⟨k, k1, k2⟩ := Option.map_eq_some_iff.1 hs
    subst k2
    obtain ⟨a, b⟩ := calm_peerSends h.calm d k1
    exact same_inv h a b
  | peerCloses =>
    obtain ⟨k, k1, k2⟩ := Option.map_eq_some_iff.1 hs
    subst k2
    obtain ⟨a, b⟩ := calm_peerCloses h.calm k1
    exact same_inv h a b
  | readable u r =>
    simp only [step] at hs
    split at hs
    · obtain ⟨k, k1, k2⟩ := Option.map_eq_some_iff.1 hs
      subst k2
      obtain ⟨a, b⟩ := calm_readable h.calm u r k1
      exact same_inv h a b
    · cases hs
  | timeout =>
    simp only [step] at hs
    split at hs
    · obtain ⟨k, k1, k2⟩ := Option.map_eq_some_iff.1 hs
      subst k2
      obtain ⟨a, b⟩ := calm_timeout h.calm k1
      exact same_inv h a b
    · cases hs
  | writable e =>
    simp only [step] at hs
    split at hs
    · next g =>
      obtain ⟨k, k1, k2⟩ := Option.map_eq_some_iff.1 hs
      subst k2
      obtain ⟨a, b, c, d, f, -⟩ := calm_writable h.calm e k1
      refine ⟨a, (fun q => nomatch q), fun _ => ?_, (fun q => nomatch q), (fun q => nomatch q), (fun q => nomatch q)⟩
      rcases h.running g with ⟨r1, r2, r3⟩ | ⟨-, -, r3, -⟩
      · refine ⟨?_, ?_, d, r3⟩
        · show (tally _).1 = 1; rw [b]; show s.answers + 1 = 1; rw [r1]
        · show (tally _).2.1 = 0; rw [c]; exact r2
      · rw [r3] at f; cases f
    · cases hs
  | stop ok =>
    simp only [step] at hs
    split at hs
    · next g =>
      injection hs with hs
      subst hs
      refine ⟨h.calm, (fun q => nomatch q), (fun q => nomatch q), (fun q => nomatch q), fun _ => ?_, (fun q => nomatch q)⟩
      show s.answers ≤ 1 ∧ s.closeCalls = s.answers ∧ (0 < s.signals ∨ (s.failure || !ok) = true ∨ s.answers = 1)
      rcases h.running g.1 with ⟨r1, r2, r3⟩ | ⟨r1, r2, -, -⟩
      · refine ⟨by omega, by omega, ?_⟩
        cases ok with
        | false => exact .inr (.inl (by simp))
        | true => exact .inl (by have := g.2 rfl; omega)
      · exact ⟨by omega, by omega, .inr (.inr r1)⟩
    · cases hs
  | close a b c d =>
    simp only [step] at hs
    split at hs
    · next g =>
      injection hs with hs
      subst hs
      obtain ⟨k1, k2, k3, -⟩ := calm_close h.calm a b c d
      obtain ⟨r1, r2, r3⟩ := h.closing g
      refine ⟨k1, (fun q => nomatch q), (fun q => nomatch q), (fun q => nomatch q), (fun q => nomatch q), fun _ => ?_⟩
      have e1 : Sys.answers { s with phase := .ended, sock := closeIt s.sock a b c d } = s.answers := k2
      have e2 : Sys.closeCalls { s with phase := .ended, sock := closeIt s.sock a b c d } = s.closeCalls + 1 := k3
      rw [e1, e2]
      exact ⟨r1, by rw [r2], r3⟩
    · cases hs
  | handle a b c d =>
    simp only [step] at hs
    split at hs
    · next g =>
      injection hs with hs
      subst hs
      obtain ⟨k1, k2, k3, k4⟩ := calm_close h.calm a b c d
      obtain ⟨r1, r2, r3, r4⟩ := h.handler g
      refine ⟨k1, (fun q => nomatch q), (fun q => nomatch q), fun _ => .inr ⟨?_, ?_, ?_, ?_⟩, (fun q => nomatch q), (fun q => nomatch q)⟩
      · exact k2.trans r1
      · exact k3.trans (by show s.closeCalls + 1 = 1; rw [r2])
      · exact k4.trans r3
      · show s.cancels + 1 = s.signals + 1; rw [r4]
    · cases hs
  | connect r ok =>
    simp only [step] at hs
    split at hs
    case isFalse => cases hs
    next g =>
      obtain ⟨k1, k2, k3, k4⟩ := calm_connect h.calm r ok
      obtain ⟨r1, r2, r3, r4⟩ := h.start g
      have k2 : (tally (settled (Socket.connect s.sock r ok)).log).2.1 = 0 := k2.trans r2
      have k3 : (tally (settled (Socket.connect s.sock r ok)).log).1 = if r = .done then 1 else 0 := k3.trans (by show s.answers + _ = _; rw [r1, Nat.zero_add])
      have bad : r ≠ .done → Inv { s with phase := .closing, sock := settled (Socket.connect s.sock r ok), failure := true } := fun q => by
        rw [if_neg q] at k3
        refine ⟨k1, (fun q => nomatch q), (fun q => nomatch q), (fun q => nomatch q), fun _ => ⟨?_, ?_, .inr (.inl rfl)⟩, (fun q => nomatch q)⟩
        · exact Nat.le_trans (Nat.le_of_eq k3) (Nat.zero_le 1)
        · exact k2.trans k3.symm
      cases r with
      | done =>
        injection hs with hs
        subst hs
        exact ⟨k1, (fun q => nomatch q), fun _ => ⟨k3, k2, (k4 rfl).trans r3, r4⟩, (fun q => nomatch q), (fun q => nomatch q), (fun q => nomatch q)⟩
      | error e => cases ok <;> (injection hs with hs; subst hs; exact bad (fun q => nomatch q))
      | inProgress =>
        cases ok with
        | false => injection hs with hs; subst hs; exact bad (fun q => nomatch q)
        | true =>
          injection hs with hs
          subst hs
          exact ⟨k1, (fun q => nomatch q), (fun q => nomatch q), fun _ => .inl ⟨k3, k2, r4⟩, (fun q => nomatch q), (fun q => nomatch q)⟩

theorem reach_inv {s : Sys} (h : Reach s) : Inv s := by
  induction h with
  | init => exact init_inv
  | step _ hs ih => exact step_inv ih hs

/-- C124: the result of the connection attempt is reported at most once, and the use of the socket before it is closed is without undefined behaviour. -/
theorem one_answer {s : Sys} (h : Reach s) : s.answers ≤ 1 ∧ s.sock.ub = false := by
  have i := reach_inv h
  refine ⟨?_, i.calm.ub⟩
  cases hp : s.phase with
  | start => have := (i.start hp).1; omega
  | handler => have := (i.handler hp).1; omega
  | running => rcases i.running hp with ⟨a, -⟩ | ⟨a, -⟩ <;> omega
  | closing => exact (i.closing hp).1
  | ended => exact (i.ended hp).1

/-- C124: the program comes to its end only if there is an answer, a signal, or a failure of `cio_socket_connect` or of the event loop. -/
theorem ends_only {s : Sys} (h : Reach s) (hp : s.phase = .closing ∨ s.phase = .ended) : s.answers = 1 ∨ 0 < s.signals ∨ s.failure = true := by
  have i := reach_inv h
  rcases hp with hp | hp
  · rcases (i.closing hp).2.2 with q | q | q
    · exact .inr (.inl q)
    · exact .inr (.inr q)
    · exact .inl q
  · rcases (i.ended hp).2.2 with q | q | q
    · exact .inr (.inl q)
    · exact .inr (.inr q)
    · exact .inl q

/-- C124: after an answer or a signal the event loop ends as soon as it looks at its eventfd. -/
theorem goes_on {s : Sys} (h : Reach s) (hp : s.phase = .running) (ha : s.answers = 1 ∨ 0 < s.signals) : ∃ s', step s (.stop true) = some s' ∧ s'.phase = .closing := by
  have hc : 0 < s.cancels := by
    rcases (reach_inv h).running hp with ⟨a, -, c⟩ | ⟨a, -, -, c⟩ <;> omega
  exact ⟨_, if_pos ⟨hp, fun _ => hc⟩, rfl⟩

/-- C124, partial: the socket is closed exactly once if there was no answer.
Missing: executions in which the connection attempt is answered, where the claim is false (`answered_closes_twice`). -/
theorem closes_once_partial {s : Sys} (h : Reach s) (hp : s.phase = .ended) (ha : s.answers = 0) : s.closeCalls = 1 := by
  have := ((reach_inv h).ended hp).2.1
  omega

/-- C124 is false: whenever the connection attempt was answered, successfully or not, the program closes its socket twice. -/
theorem answered_closes_twice {s : Sys} (h : Reach s) (hp : s.phase = .ended) (ha : s.answers = 1) : s.closeCalls = 2 := by
  have := ((reach_inv h).ended hp).2.1
  omega

theorem run_reach (es : List Ev) {s s' : Sys} (h : Reach s) (hr : run s es = some s') : Reach s' := by
  induction es generalizing s with
  | nil => simp only [run, Option.some.injEq] at hr; subst hr; exact h
  | cons e es ih =>
    obtain ⟨t, t1, t2⟩ := Option.bind_eq_some_iff.1 hr
    exact ih (.step h t1) t2

/-- What makes the program fail: `cio_socket_connect` returns an error, or the event loop does. -/
def fails : Ev → Bool
  | .connect .done _ => false
  | .connect .inProgress ok => !ok
  | .connect _ _ => true
  | .stop ok => !ok
  | _ => false

theorem step_failure {s s' : Sys} {e : Ev} (hs : step s e = some s') : s'.failure = (s.failure || fails e) := by
  cases e with
  | connect r ok =>
    simp only [step] at hs
    split at hs
    · cases r <;> cases ok <;> (injection hs with hs; subst hs; simp [fails])
    · cases hs
  | handle a b c d => simp only [step] at hs; split at hs <;> first | (injection hs with hs; subst hs; simp [fails]; done) | cases hs
  | signal => simp only [step] at hs; split at hs <;> first | (injection hs with hs; subst hs; simp [fails]; done) | cases hs
  | close a b c d => simp only [step] at hs; split at hs <;> first | (injection hs with hs; subst hs; simp [fails]; done) | cases hs
  | stop ok => simp only [step] at hs; split at hs <;> first | (injection hs with hs; subst hs; simp [fails]; done) | cases hs
  | peerSends d => obtain ⟨k, -, hs⟩ := Option.map_eq_some_iff.1 hs; subst hs; simp [fails]
  | peerCloses => obtain ⟨k, -, hs⟩ := Option.map_eq_some_iff.1 hs; subst hs; simp [fails]
  | readable u r =>
    simp only [step] at hs
    split at hs
    · obtain ⟨k, -, hs⟩ := Option.map_eq_some_iff.1 hs; subst hs; simp [fails]
    · cases hs
  | writable r =>
    simp only [step] at hs
    split at hs
    · obtain ⟨k, -, hs⟩ := Option.map_eq_some_iff.1 hs; subst hs; simp [fails]
    · cases hs
  | timeout =>
    simp only [step] at hs
    split at hs
    · obtain ⟨k, -, hs⟩ := Option.map_eq_some_iff.1 hs; subst hs; simp [fails]
    · cases hs

/-- C124: the exit status: the program ends with EXIT_FAILURE exactly if `cio_socket_connect` or the event loop returned an error; not if the connection attempt failed later. -/
theorem exit_status {es : List Ev} {s : Sys} (hr : run initial es = some s) : s.failure = true ↔ ∃ e ∈ es, fails e = true := by
  have key : ∀ (es : List Ev) (t : Sys), run t es = some s → s.failure = (t.failure || es.any fails) := by
    intro es
    induction es with
    | nil => intro t h; simp only [run, Option.some.injEq] at h; subst h; simp
    | cons e es ih =>
      intro t h
      obtain ⟨t', h1, h2⟩ := Option.bind_eq_some_iff.1 h
      rw [ih t' h2, step_failure h1, List.any_cons, Bool.or_assoc]
  rw [key es initial hr]
  show (false || es.any fails) = true ↔ _
  rw [Bool.false_or, List.any_eq_true]

/-- The connection is refused (ECONNREFUSED): the socket is closed by `handle_connect`, and once more by `main`. -/
def refused : List Ev := [.connect .inProgress true, .writable (some (-111)), .handle false true false true, .stop true, .close false true false true]

/-- The connection succeeds: `handle_connect` begins to close, `main` begins once more, and then the event loop that is to finish it is destroyed. -/
def connected : List Ev := [.connect .inProgress true, .writable none, .handle true true false true, .stop true, .close true true false true]

/-- A signal arrives while the program waits for its connection. -/
def interrupted : List Ev := [.connect .inProgress true, .signal, .stop true, .close false true false true]

/-- The connection succeeds and the peer closes it while the program waits for the loop to see that it was cancelled: the descriptor is closed, and once more by `main`. -/
def answered : List Ev := [.connect .inProgress true, .writable none, .handle true true false true, .peerCloses, .readable true (.bytes 1), .stop true, .close true true false true]

/-- The same if the close timer expires. -/
def late : List Ev := [.connect .inProgress true, .writable none, .handle true true false true, .timeout, .stop true, .close true true false true]

/-- The same if the close timer expires while it is armed. -/
def soon : List Ev := [.connect .done true, .handle true true true true, .stop true, .close true true false true]

def view (s : Sys) : Phase × Nat × Nat × Nat := (s.phase, s.answers, s.closeCalls, s.fdCloses)

theorem refused_view : (run initial refused).map view = some (.ended, 1, 2, 2) := by decide +kernel
theorem connected_view : (run initial connected).map view = some (.ended, 1, 2, 0) := by decide +kernel
theorem interrupted_view : (run initial interrupted).map view = some (.ended, 0, 1, 1) := by decide +kernel

theorem answered_view : (run initial (answered.take 5)).map view = some (.running, 1, 1, 1) ∧ (run initial answered).map view = some (.ended, 1, 2, 2) := by decide +kernel
theorem late_view : (run initial (late.take 4)).map view = some (.running, 1, 1, 1) ∧ (run initial late).map view = some (.ended, 1, 2, 2) := by decide +kernel
theorem soon_log : (run initial soon).map (fun s => (view s, s.sock.log)) =
    some ((.ended, 1, 2, 3), [.connectStarted, .connectDone 0, .closeCalled, .fdClosed, .hook, .fdClosed, .closeCalled, .fdClosed]) := by decide +kernel

theorem of_view {es : List Ev} {v : Phase × Nat × Nat × Nat} (h : (run initial es).map view = some v) : ∃ s, Reach s ∧ view s = v := by
  obtain ⟨s, h1, h2⟩ := Option.map_eq_some_iff.1 h
  exact ⟨s, run_reach es .init h1, h2⟩

/-- After a refused connection the descriptor is closed a second time, when the number may belong to something else. -/
theorem descriptor_closed_twice : ∃ s, Reach s ∧ s.phase = .ended ∧ s.answers = 1 ∧ s.fdCloses = 2 := by
  obtain ⟨s, h1, h2⟩ := of_view refused_view
  simp only [view, Prod.mk.injEq] at h2
  exact ⟨s, h1, h2.1, h2.2.1, h2.2.2.2⟩

/-- After a successful connection the program can come to its end without ever having closed the descriptor: the event loop is destroyed while the socket waits for the peer. -/
theorem descriptor_never_closed : ∃ s, Reach s ∧ s.phase = .ended ∧ s.answers = 1 ∧ s.fdCloses = 0 := by
  obtain ⟨s, h1, h2⟩ := of_view connected_view
  simp only [view, Prod.mk.injEq] at h2
  exact ⟨s, h1, h2.1, h2.2.1, h2.2.2.2⟩

/-- The hypotheses of `closes_once_partial` are met. -/
example : ∃ s, Reach s ∧ s.phase = .ended ∧ s.answers = 0 ∧ s.closeCalls = 1 ∧ s.fdCloses = 1 := by
  obtain ⟨s, h1, h2⟩ := of_view interrupted_view
  simp only [view, Prod.mk.injEq] at h2
  exact ⟨s, h1, h2⟩

end Cio.ConnectExample
