import Verif.WsExample.Model
import Verif.WsQueue.Core
/-
What holds in every execution of the program: only its two kinds of messages are accepted, and it never begins to close.
-/
namespace Cio.WsExample
open Cio.WsQueue

/-- What an event may be. -/
def okEv : Ev → Prop
  | .accepted _ k p cont op fin n => (k = .message ∧ p = [12] ∧ cont = false ∧ (op = 1 ∨ op = 2) ∧ fin = true ∧ n = 12) ∨
      (k = .ping ∧ p = [4] ∧ cont = false ∧ op = 9 ∧ fin = true ∧ n = 4)
  | .sent k h _ _ _ _ _ => k = .close → h = .null
  | _ => True

structure A (w : World) : Prop where
  sc : w.selfClose = false
  timer : w.timer = false
  fw : w.fragmentedWrite = true
  ch : (w.jobs .close).handler = .null
  pp : ∀ t, (w.jobs .pong).handler ≠ .user t
  evs : ∀ e ∈ w.log, okEv e

theorem A.congr {w w' : World} (a : A w) (h1 : w'.selfClose = w.selfClose) (h2 : w'.timer = w.timer) (h3 : w'.fragmentedWrite = w.fragmentedWrite)
    (h4 : (w'.jobs .close).handler = (w.jobs .close).handler) (h5 : (w'.jobs .pong).handler = (w.jobs .pong).handler) (h6 : w'.log = w.log) : A w' :=
  ⟨by rw [h1]; exact a.sc, by rw [h2]; exact a.timer, by rw [h3]; exact a.fw, by rw [h4]; exact a.ch, by rw [h5]; exact a.pp, by rw [h6]; exact a.evs⟩

theorem A.log {w : World} (a : A w) (e : Ev) (h : okEv e) : A (log w e) :=
  ⟨a.sc, a.timer, a.fw, a.ch, a.pp, fun x hx => by rcases List.mem_cons.mp hx with rfl | hx; exact h; exact a.evs x hx⟩

/-- A job is changed, but not its handler. -/
theorem A.set {w : World} (a : A w) (k : Kind) (j : Job) (h : j.handler = (w.jobs k).handler) : A (setJob w k j) := by
  refine a.congr rfl rfl rfl ?_ ?_ rfl
  · simp only [setJob]; split
    · subst k; exact h
    · rfl
  · simp only [setJob]; split
    · subst k; exact h
    · rfl

/-- A job of the program is filled in. -/
theorem A.fill {w : World} (a : A w) (k : Kind) (j : Job) (h1 : k ≠ .close) (h2 : k = .pong → ∀ t, j.handler ≠ .user t) : A (setJob w k j) := by
  refine ⟨a.sc, a.timer, a.fw, ?_, ?_, a.evs⟩
  · rw [setJob_other w k .close j (Ne.symm h1)]; exact a.ch
  · by_cases hk : k = .pong
    · subst hk; rw [setJob_self]; exact h2 rfl
    · rw [setJob_other w k .pong j (Ne.symm hk)]; exact a.pp

theorem a_handleError {w : World} (a : A w) (st : List Item) : A (handleError w st).w := by
  unfold handleError
  split
  · exact a
  · exact A.log (a.congr (w' := { w with closedByError := true }) rfl rfl rfl rfl rfl rfl) _ trivial

theorem a_callHandler {w : World} (a : A w) (h : Handler) (r : Res) (ch : List Elem) (st : List Item) : A (callHandler w h r ch st).w := by
  unfold callHandler
  cases h with
  | null => exact a
  | stale => exact a.congr (w' := { w with ub := true }) rfl rfl rfl rfl rfl rfl
  | user t => exact a.log _ trivial
  | pongWritten =>
    simp only [WsQueue.pongWritten]
    split
    · exact a_handleError a _
    · exact a.congr (w' := { w with reading := true }) rfl rfl rfl rfl rfl rfl

theorem a_dequeue {w w' : World} {k : Kind} (a : A w) (h : dequeue w = some (k, w')) : A w' := by
  unfold dequeue at h
  split at h
  · cases h
  · injection h with h; injection h with _ h2; rw [← h2]; exact a.congr rfl rfl rfl rfl rfl rfl

theorem a_fault {s : State} (a : A s.w) : A (fault s).w := a.congr rfl rfl rfl rfl rfl rfl

theorem a_onWritten {w : World} (a : A w) (r : Res) (st : List Item) : A (onWritten w r st).w := by
  unfold onWritten
  cases hd : dequeue w with
  | none => exact a_fault (s := ⟨w, st⟩) a
  | some p =>
    obtain ⟨k, w1⟩ := p
    have h := a_dequeue a hd
    simp only
    have h2 : A (setJob w1 k { w1.jobs k with wbh := none }) := h.set _ _ rfl
    generalize setJob w1 k { w1.jobs k with wbh := none } = w2 at h2
    cases w2.bsHandler with
    | messageWritten =>
      simp only
      split
      · exact a_fault (s := ⟨w2, st⟩) h2
      · exact a_callHandler h2 _ _ _ _
    | closeWritten => exact h2
    | closeWrittenImmediate => exact h2
    | responseCloseWritten => exact h2

theorem a_sendFrame {w : World} (a : A w) (k : Kind) (len : Nat) (tr : Outcome) (st : List Item) : A (sendFrame w k len tr st).1.w := by
  unfold sendFrame
  cases hw : (w.jobs k).wbh with
  | none => exact a_fault (s := ⟨w, st⟩) a
  | some chain =>
    have h1 : A { setJob w k { w.jobs k with wbh := some (if (w.jobs k).cont then chain else .hdr :: chain) } with bsHandler := (w.jobs k).streamHandler } :=
      (a.set k { w.jobs k with wbh := some (if (w.jobs k).cont then chain else .hdr :: chain) } rfl).congr rfl rfl rfl rfl rfl rfl
    have he : okEv (Ev.sent k (w.jobs k).handler (w.jobs k).cont (w.jobs k).opcode (w.jobs k).lastFrame (if (w.jobs k).cont then 0 else len) chain) :=
      fun hk => by subst hk; exact a.ch
    cases tr with
    | now r => exact a_onWritten (h1.log _ he) _ _
    | later => exact A.log (w := { setJob w k { w.jobs k with wbh := some (if (w.jobs k).cont then chain else .hdr :: chain) } with bsHandler := (w.jobs k).streamHandler, pend := true }) (h1.congr rfl rfl rfl rfl rfl rfl) _ he
    | refuse => exact h1

theorem a_enqueue {w : World} (a : A w) (k : Kind) (len : Nat) (tr : Outcome) (st : List Item) : A (enqueue w k len tr st).1.w := by
  unfold enqueue
  cases hf : w.first with
  | none =>
    have h : A (sendFrame { w with first := some k, last := some k } k len tr st).1.w :=
      a_sendFrame (w := { w with first := some k, last := some k }) (a.congr rfl rfl rfl rfl rfl rfl) _ _ _ _
    simp only
    generalize sendFrame { w with first := some k, last := some k } k len tr st = p at h
    obtain ⟨s, ok⟩ := p
    cases ok
    · exact a_handleError h _
    · exact h
  | some _ =>
    cases hl : w.last with
    | none => exact a_fault (s := ⟨w, st⟩) a
    | some l => exact (a.set l { w.jobs l with next := some k } rfl).congr rfl rfl rfl rfl rfl rfl

/-- The calls the program makes. -/
def Mine : Call → Prop
  | .first n p l _ => n = 12 ∧ p = [12] ∧ l = true
  | .ping p => p = [4]
  | .read => True
  | _ => False

theorem a_doCall {w : World} (a : A w) (c : Call) (hc : Mine c) (tr : Outcome) (st : List Item) : A (doCall w c tr st).w := by
  cases c with
  | first n p l b =>
    obtain ⟨rfl, rfl, rfl⟩ := hc
    simp only [doCall]
    split
    · exact a.log _ trivial
    · refine a_enqueue ?_ _ _ _ _
      refine A.log ?_ _ (.inl ⟨rfl, rfl, rfl, ?_, rfl, rfl⟩)
      · refine A.congr (w := setJob w .message _) (A.fill a .message { w.jobs .message with
          wbh := some ([12].map .usr), handler := .user w.tickets, opcode := if w.fragmentedWrite then if b then 2 else 1 else 0, lastFrame := true, streamHandler := .messageWritten, cont := false }
          (by simp) (by simp)) rfl rfl ?_ rfl rfl rfl
        simp only [setJob, a.fw, if_true]
      · rw [a.fw]; cases b <;> simp
  | ping p =>
    obtain rfl : p = [4] := hc
    simp only [doCall]
    split
    · exact a.log _ trivial
    · split
      · exact a.log _ trivial
      · refine a_enqueue ?_ _ _ _ _
        refine A.log ?_ _ (.inr ⟨rfl, rfl, rfl, rfl, rfl, rfl⟩)
        exact A.congr (w := setJob w .ping { w.jobs .ping with
          wbh := some ([4].map .usr), handler := .user w.tickets, opcode := 9, lastFrame := true, streamHandler := .messageWritten })
          (A.fill a .ping _ (by simp) (by simp)) rfl rfl rfl rfl rfl rfl
  | read => exact a.congr rfl rfl rfl rfl rfl rfl
  | cont p => exact hc.elim
  | pong p => exact hc.elim
  | close n b => exact hc.elim

theorem a_prepareClose {w : World} (a : A w) (n : Nat) (sh : StreamHandler) : A (prepareClose w n .null sh) := by
  unfold prepareClose
  refine a.set _ _ ?_
  exact a.ch.symm

theorem a_arrive {w : World} (a : A w) (x : Act) (tr : Outcome) (st : List Item) : A (arrive w x tr st).w := by
  cases x with
  | gotPing n =>
    refine a_enqueue ?_ _ _ _ _
    exact A.fill (w := { w with reading := false }) (a.congr rfl rfl rfl rfl rfl rfl) .pong _ (by simp) (by simp)
  | gotClose n =>
    simp only [arrive]
    split
    · rename_i h; rw [a.sc] at h; cases h
    · exact a_enqueue (a_prepareClose (w := { w with reading := false }) (a.congr rfl rfl rfl rfl rfl rfl) _ _) _ _ _ _
  | fail => exact a_handleError (w := { w with reading := false }) (a.congr rfl rfl rfl rfl rfl rfl) _
  | gotData => exact a.congr rfl rfl rfl rfl rfl rfl
  | gotPong => exact a
  | call _ => exact a
  | ret => exact a
  | written _ => exact a
  | timer => exact a

theorem a_step {s : State} (a : A s.w) (c : Choice) (hc : ∀ call, c.act = .call call → Mine call) : A (step s c).w := by
  unfold step
  split
  · exact a
  · split
    · split
      · split
        · exact a.congr rfl (by simp only [a.timer]) rfl rfl rfl rfl
        · exact a
      · split
        · exact a_onWritten (w := { s.w with pend := false }) (a.congr rfl rfl rfl rfl rfl rfl) _ _
        · exact a
      · split
        · rename_i h _; exact a_doCall a _ (hc _ h) _ _
        · exact a_fault a
      · exact a
      · split
        · exact a_arrive a _ _ _
        · exact a
    · split
      · exact a
      · split
        · rename_i h _; exact a_doCall a _ (hc _ h) _ _
        · exact a_fault a
      · exact a
    · split
      · exact a
      · exact a
      · exact a
      · exact a
      · split
        · exact a_arrive a _ _ _
        · exact a
    · exact a
    · split
      · exact a_fault a
      · split
        · exact a_fault a
        · rename_i k rest _ _ _ chain _
          have h := a_sendFrame a k (total chain) c.tr rest
          generalize sendFrame s.w k (total chain) c.tr rest = p at h
          obtain ⟨s', ok⟩ := p
          cases ok
          · exact a_handleError h _
          · exact h
    · split
      · exact a_fault a
      · split
        · exact a
        · rename_i k w1 h
          exact a_callHandler ((a_dequeue a h).set k { w1.jobs k with wbh := none } rfl) _ _ _ _
    · split
      · exact a_fault a
      · rename_i rest _ _
        have h := a_enqueue (a_prepareClose a errReason .closeWrittenImmediate) .close (2 + errReason) c.tr rest
        generalize enqueue (prepareClose s.w errReason .null .closeWrittenImmediate) .close (2 + errReason) c.tr rest = p at h
        obtain ⟨s', ok⟩ := p
        cases ok
        · exact h
        · exact h
    · split
      · exact a_fault a
      · exact a_callHandler a _ _ _ _
    · exact A.log (w := { s.w with closes := s.w.closes + 1 }) (a.congr rfl rfl rfl rfl rfl rfl) _ trivial

/-! ### Steps of the program -/

theorem settle_q (p : Prog) (q' : State) (b : Bool) : (settle p q' b).q = q' := by
  unfold settle
  split
  · rfl
  · split
    · split
      · unfold pingWritten; split
        · rfl
        · split <;> rfl
      · rfl
    · rfl

theorem settle_owes (p : Prog) (q' : State) (b : Bool) : (settle p q' b).owes = p.owes := by
  unfold settle
  split
  · rfl
  · split
    · split
      · unfold pingWritten; split
        · rfl
        · split <;> rfl
      · rfl
    · rfl

/-- What a step of the program does to the websocket: nothing, or one step of it, in which the program makes one of its calls or none. -/
theorem appStep_q (p : Prog) (e : Event) : (appStep p e).q = p.q ∨ ∃ c : Choice, (∀ call, c.act = .call call → Mine call) ∧ (appStep p e).q = step p.q c := by
  have ho : ∀ a, (outside p a e).q = p.q ∨ ∃ c : Choice, (∀ call, c.act = .call call → Mine call) ∧ (outside p a e).q = step p.q c := by
    intro a
    cases a with
    | call c => exact .inl rfl
    | gotPing n =>
      simp only [outside]
      split
      · exact .inr ⟨⟨.gotPing n, e.tr⟩, by simp, settle_q _ _ _⟩
      · exact .inl rfl
    | gotData =>
      simp only [outside]; split
      · exact .inr ⟨⟨.gotData, e.tr⟩, by simp, settle_q _ _ _⟩
      · exact .inr ⟨⟨.gotData, e.tr⟩, by simp, settle_q _ _ _⟩
    | ret =>
      simp only [outside]; split
      · exact .inr ⟨⟨.ret, e.tr⟩, by simp, settle_q _ _ _⟩
      · exact .inr ⟨⟨.ret, e.tr⟩, by simp, settle_q _ _ _⟩
    | written r =>
      simp only [outside]; split
      · exact .inr ⟨⟨.written r, e.tr⟩, by simp, settle_q _ _ _⟩
      · exact .inr ⟨⟨.written r, e.tr⟩, by simp, settle_q _ _ _⟩
    | gotPong =>
      simp only [outside]; split
      · exact .inr ⟨⟨.gotPong, e.tr⟩, by simp, settle_q _ _ _⟩
      · exact .inr ⟨⟨.gotPong, e.tr⟩, by simp, settle_q _ _ _⟩
    | gotClose n =>
      simp only [outside]; split
      · exact .inr ⟨⟨.gotClose n, e.tr⟩, by simp, settle_q _ _ _⟩
      · exact .inr ⟨⟨.gotClose n, e.tr⟩, by simp, settle_q _ _ _⟩
    | fail =>
      simp only [outside]; split
      · exact .inr ⟨⟨.fail, e.tr⟩, by simp, settle_q _ _ _⟩
      · exact .inr ⟨⟨.fail, e.tr⟩, by simp, settle_q _ _ _⟩
    | timer =>
      simp only [outside]; split
      · exact .inr ⟨⟨.timer, e.tr⟩, by simp, settle_q _ _ _⟩
      · exact .inr ⟨⟨.timer, e.tr⟩, by simp, settle_q _ _ _⟩
  unfold appStep
  split
  · split
    · split
      · split
        · exact .inr ⟨⟨.call (.ping [4]), e.tr⟩, fun call h => by injection h with h; subst h; rfl, settle_q _ _ _⟩
        · exact .inl rfl
      · exact .inl rfl
    · exact ho _
  · split
    · exact .inr ⟨⟨.call (.first 12 [12] true p.binary), e.tr⟩, fun call h => by injection h with h; subst h; exact ⟨rfl, rfl, rfl⟩, settle_q _ _ _⟩
    · exact .inr ⟨⟨.ret, e.tr⟩, by simp, settle_q _ _ _⟩
  · split
    · exact .inl rfl
    · exact ho _
  · exact .inr ⟨⟨.ret, e.tr⟩, by simp, settle_q _ _ _⟩

theorem a_init : A ({} : World) := ⟨rfl, rfl, rfl, rfl, by simp, by simp⟩

theorem reachable_a {p : Prog} (h : Reachable p) : A p.q.w := by
  induction h with
  | connect i a =>
    unfold onConnect
    split
    · exact a_init
    · split
      · exact a_init
      · exact a_step (s := {}) a_init _ (fun call h => by injection h with h; subst h; trivial)
  | step p e _ ih =>
    rcases appStep_q p e with h | ⟨c, hc, h⟩
    · rw [h]; exact ih
    · rw [h]; exact a_step ih c hc

end Cio.WsExample
