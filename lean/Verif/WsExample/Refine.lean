import Verif.WsExample.Never
import Verif.WsQueue.Props
import Verif.WsQueue.Mono
/-
As long as the connection has not failed, the program keeps to the rules of use of a websocket (`WsQueue.Reach`), so what is proved there holds.
-/
namespace Cio.WsExample
open Cio.WsQueue

/-- Neither the turn to read nor the number of answers has changed. -/
def Same (w w' : World) : Prop := w'.turn = w.turn ∧ hellos w'.log = hellos w.log

theorem Same.refl (w : World) : Same w w := ⟨rfl, rfl⟩
theorem Same.trans {a b c : World} (h : Same a b) (h' : Same b c) : Same a c := ⟨h'.1.trans h.1, h'.2.trans h.2⟩
theorem Same.after {a b c : World} (h' : Same b c) (h : Same a b) : Same a c := h.trans h'

theorem same_handleError (w : World) (st : List Item) : Same w (handleError w st).w := by
  unfold handleError
  split
  · exact Same.refl _
  · exact ⟨rfl, rfl⟩

theorem same_callHandler (w : World) (h : Handler) (r : Res) (ch : List Elem) (st : List Item) : Same w (callHandler w h r ch st).w := by
  unfold callHandler
  cases h with
  | null => exact Same.refl _
  | stale => exact ⟨rfl, rfl⟩
  | user t => exact ⟨rfl, rfl⟩
  | pongWritten =>
    simp only [WsQueue.pongWritten]
    split
    · exact same_handleError _ _
    · exact ⟨rfl, rfl⟩

theorem same_dequeue {w w' : World} {k : Kind} (h : dequeue w = some (k, w')) : Same w w' := by
  unfold dequeue at h
  split at h
  · cases h
  · simp at h; rw [← h.2]; exact ⟨rfl, rfl⟩

theorem same_onWritten (w : World) (r : Res) (st : List Item) : Same w (onWritten w r st).w := by
  unfold onWritten
  cases hd : dequeue w with
  | none => exact ⟨rfl, rfl⟩
  | some p =>
    obtain ⟨k, w1⟩ := p
    have h := same_dequeue hd
    simp only
    have h2 : Same w (setJob w1 k { w1.jobs k with wbh := none }) := h
    generalize setJob w1 k { w1.jobs k with wbh := none } = w2 at h2
    cases w2.bsHandler with
    | messageWritten =>
      simp only
      split
      · exact h2
      · exact h2.trans (same_callHandler _ _ _ _ _)
    | closeWritten => exact h2
    | closeWrittenImmediate => exact h2
    | responseCloseWritten => exact h2

theorem same_sendFrame (w : World) (k : Kind) (len : Nat) (tr : Outcome) (st : List Item) : Same w (sendFrame w k len tr st).1.w := by
  unfold sendFrame
  cases (w.jobs k).wbh with
  | none => exact ⟨rfl, rfl⟩
  | some chain =>
    cases tr with
    | now r => exact same_onWritten (log { setJob w k _ with bsHandler := _ } _) _ _
    | later => exact ⟨rfl, rfl⟩
    | refuse => exact ⟨rfl, rfl⟩

theorem same_enqueue (w : World) (k : Kind) (len : Nat) (tr : Outcome) (st : List Item) : Same w (enqueue w k len tr st).1.w := by
  unfold enqueue
  cases w.first with
  | none =>
    have h : Same w (sendFrame { w with first := some k, last := some k } k len tr st).1.w := same_sendFrame { w with first := some k, last := some k } _ _ _ _
    simp only
    generalize sendFrame { w with first := some k, last := some k } k len tr st = p at h
    obtain ⟨s, ok⟩ := p
    cases ok
    · exact h.trans (same_handleError _ _)
    · exact h
  | some _ =>
    cases w.last with
    | none => exact ⟨rfl, rfl⟩
    | some l => exact ⟨rfl, rfl⟩

theorem same_ping (w : World) (p : List Nat) (tr : Outcome) (st : List Item) : Same w (doCall w (.ping p) tr st).w := by
  simp only [doCall]
  split
  · exact ⟨rfl, rfl⟩
  · split
    · exact ⟨rfl, rfl⟩
    · exact Same.after (same_enqueue _ _ _ _ _) ⟨rfl, rfl⟩

theorem first_effect (w : World) (n : Nat) (p : List Nat) (l b : Bool) (tr : Outcome) (st : List Item) :
    (doCall w (.first n p l b) tr st).w.turn = w.turn ∧ hellos (doCall w (.first n p l b) tr st).w.log ≤ hellos w.log + 1 := by
  simp only [doCall]
  split
  · exact ⟨rfl, Nat.le_succ _⟩
  · refine ⟨(same_enqueue _ _ _ _ _).1, ?_⟩
    rw [(same_enqueue _ _ _ _ _).2]
    exact Nat.le_refl _

theorem same_arrive (w : World) (a : Act) (tr : Outcome) (st : List Item) (h : a ≠ .gotData) : Same w (arrive w a tr st).w := by
  cases a with
  | gotData => exact absurd rfl h
  | gotPing n => exact Same.after (same_enqueue _ _ _ _ _) ⟨rfl, rfl⟩
  | gotClose n =>
    simp only [arrive]
    split
    · exact ⟨rfl, rfl⟩
    · exact Same.after (same_enqueue _ _ _ _ _) ⟨rfl, rfl⟩
  | fail => exact Same.after (same_handleError _ _) ⟨rfl, rfl⟩
  | _ => exact ⟨rfl, rfl⟩

theorem same_step (s : State) (c : Choice) (h1 : ∀ call, c.act ≠ .call call) (h2 : c.act ≠ .gotData) : Same s.w (step s c).w := by
  unfold step
  split
  · exact Same.refl _
  · split
    · split
      · split <;> exact ⟨rfl, rfl⟩
      · split
        · exact Same.after (same_onWritten _ _ _) ⟨rfl, rfl⟩
        · exact ⟨rfl, rfl⟩
      · rename_i h; exact absurd h (h1 _)
      · exact ⟨rfl, rfl⟩
      · split
        · exact same_arrive _ _ _ _ h2
        · exact ⟨rfl, rfl⟩
    · split
      · exact ⟨rfl, rfl⟩
      · rename_i h; exact absurd h (h1 _)
      · exact ⟨rfl, rfl⟩
    · split
      · exact ⟨rfl, rfl⟩
      · exact ⟨rfl, rfl⟩
      · exact ⟨rfl, rfl⟩
      · exact ⟨rfl, rfl⟩
      · split
        · exact same_arrive _ _ _ _ h2
        · exact ⟨rfl, rfl⟩
    · exact ⟨rfl, rfl⟩
    · split
      · exact ⟨rfl, rfl⟩
      · split
        · exact ⟨rfl, rfl⟩
        · rename_i k rest _ _ _ chain _
          have h := same_sendFrame s.w k (total chain) c.tr rest
          generalize sendFrame s.w k (total chain) c.tr rest = p at h
          obtain ⟨s', ok⟩ := p
          cases ok
          · exact h.trans (same_handleError _ _)
          · exact h
    · split
      · exact ⟨rfl, rfl⟩
      · split
        · exact ⟨rfl, rfl⟩
        · rename_i h
          exact (same_dequeue h).trans (Same.after (same_callHandler _ _ _ _ _) ⟨rfl, rfl⟩)
    · split
      · exact ⟨rfl, rfl⟩
      · rename_i rest _ _
        have h := Same.trans (a := s.w) ⟨rfl, rfl⟩ (same_enqueue (prepareClose s.w errReason .null .closeWrittenImmediate) .close (2 + errReason) c.tr rest)
        generalize enqueue (prepareClose s.w errReason .null .closeWrittenImmediate) .close (2 + errReason) c.tr rest = p at h
        obtain ⟨s', ok⟩ := p
        cases ok
        · exact h
        · exact h
    · split
      · exact ⟨rfl, rfl⟩
      · exact same_callHandler _ _ _ _ _
    · exact ⟨rfl, rfl⟩

/-! ### What is known while the connection has not failed -/

theorem calm_of {s : State} (h : Reach s) (a : A s.w) (he : s.w.closedByError = false) (h0 : s.w.closes = 0)
    (hst : s.stack = [] ∨ s.stack.head? = some .input ∨ s.stack.head? = some (.user false)) : s.w.ub = false ∧ ∃ q u, Calm s.w s.stack q u := by
  have hub : s.w.ub = false := no_ub_partial h (by rw [Clean, he]; simp) he h0
  refine ⟨hub, ?_⟩
  have hi := reach_inv h
  rcases hi with ⟨h1, _⟩ | ⟨h1, _⟩ | ⟨_, hp⟩
  · rw [he] at h1; cases h1
  · rw [hub] at h1; cases h1
  · generalize s.stack = st at hp hst
    generalize s.w = w at *
    cases hp with
    | calm _ q u c => exact ⟨q, u, c⟩
    | errAbort b rest q _ h2 => rw [he] at h2; cases h2
    | errClose rest _ h2 => rw [he] at h2; cases h2
    | errored _ q' _ h2 => rw [he] at h2; cases h2
    | immAbort res rest q _ h2 => rw [he] at h2; cases h2
    | immCall res rest _ h2 => rw [he] at h2; cases h2
    | closeAbort b res rest q t _ _ _ _ h2 => rw [a.sc] at h2; cases h2
    | closeCall res rest t _ _ _ h2 => rw [a.sc] at h2; cases h2
    | respAbort b rest q _ => cases b <;> simp [pre] at hst
    | closing rest q _ => simp at hst
    | dead _ q _ h2 => omega

theorem pong_in_queue {w : World} {st : List Item} {q u : List Kind} (c : Calm w st q u) (a : A w) (h : .pong ∈ q) : (w.jobs .pong).handler = .pongWritten := by
  have := c.base.core.ok .pong h
  rcases this.1 with ⟨t, h⟩ | h
  · exact absurd h (a.pp t)
  · exact h

structure Link (p : Prog) : Prop where
  reach : Reach p.q
  top : p.owes = true → p.q.stack.head? = some (.user false) ∧ p.q.w.closes = 0
  one : hellos p.q.w.log + (if p.owes then 1 else 0) ≤ 1
  turn : 0 < hellos p.q.w.log + (if p.owes then 1 else 0) → p.q.w.turn = true

/-- A step of the websocket in which neither the program calls nor data arrive. -/
theorem Link.lib {p : Prog} (l : Link p) (b : Bool) (c : Choice) (h1 : ∀ call, c.act ≠ .call call) (h2 : c.act ≠ .gotData)
    (ho : p.owes = false) (hr : Reach (step p.q c)) : Link (settle p (step p.q c) b) := by
  obtain ⟨s1, s2⟩ := same_step p.q c h1 h2
  refine ⟨?_, ?_, ?_, ?_⟩
  · rw [settle_q]; exact hr
  · rw [settle_owes, ho]; simp
  · rw [settle_q, settle_owes, s2]; exact l.one
  · rw [settle_q, settle_owes, s2, s1]; exact l.turn

theorem reach_plain {s : State} {c : Choice} (h : Reach s) (h1 : ∀ call, c.act ≠ .call call) (h2 : ∀ n, c.act ≠ .gotPing n) : Reach (step s c) := by
  refine Reach.step s c h ?_
  unfold Allowed
  split
  · rename_i h'; exact absurd h' (h1 _)
  · rename_i h'; exact absurd h' (h2 _)
  · trivial

theorem step_deaf {s : State} {c : Choice} (h : isPeer c.act = true) (hst : s.stack = [] ∨ s.stack.head? = some .input) (hr : ¬ (s.w.reading = true ∧ s.w.closes = 0)) : step s c = s := by
  obtain ⟨w, st⟩ := s
  cases st with
  | nil =>
    unfold step
    split
    · rfl
    · dsimp only at *
      cases hact : c.act <;> rw [hact] at h <;> first | (simp [isPeer] at h; done) | (simp only [if_neg hr])
  | cons i rest =>
    rcases hst with hst | hst
    · cases hst
    · simp only [List.head?_cons, Option.some.injEq] at hst
      subst hst
      unfold step
      split
      · rfl
      · dsimp only at *
        cases hact : c.act <;> rw [hact] at h <;> first | (simp [isPeer] at h; done) | (simp only [if_neg hr])

theorem step_hear {s : State} (tr : Outcome) (hub : s.w.ub = false) (hst : s.stack = [] ∨ s.stack.head? = some .input) (hr : s.w.reading = true ∧ s.w.closes = 0) :
    step s ⟨.gotData, tr⟩ = ⟨{ s.w with reading := false, turn := true }, .user false :: s.stack⟩ := by
  obtain ⟨w, st⟩ := s
  cases st with
  | nil => unfold step; rw [if_neg (by rw [hub]; simp)]; dsimp only at *; rw [if_pos hr]; rfl
  | cons i rest =>
    rcases hst with hst | hst
    · cases hst
    · simp only [List.head?_cons, Option.some.injEq] at hst
      subst hst
      unfold step; rw [if_neg (by rw [hub]; simp)]; dsimp only at *; rw [if_pos hr]; rfl

theorem Link.outside {p : Prog} (l : Link p) (a : A p.q.w) (he : p.q.w.closedByError = false) (hst : p.q.stack = [] ∨ p.q.stack.head? = some .input)
    (x : Act) (e : Event) : Link (outside p x e) := by
  have ho : p.owes = false := by
    cases h : p.owes with
    | false => rfl
    | true =>
      have := (l.top h).1
      rcases hst with hst | hst
      · rw [hst] at this; cases this
      · rw [hst] at this; cases this
  have plain : ∀ y : Act, (∀ call, y ≠ .call call) → (∀ n, y ≠ .gotPing n) → y ≠ .gotData → Link (settle p (step p.q ⟨y, e.tr⟩) e.armOk) := fun y h1 h2 h3 =>
    l.lib e.armOk ⟨y, e.tr⟩ h1 h3 ho (reach_plain l.reach h1 h2)
  have deaf : ∀ y : Act, y ≠ .gotData → hears p y = false := by
    intro y hy
    unfold hears
    have : (y == Act.gotData) = false := by simpa using hy
    rw [this]; rfl
  cases x with
  | call c => exact l
  | gotPing n =>
    simp only [WsExample.outside]
    split
    · rename_i hn
      refine l.lib e.armOk ⟨.gotPing n, e.tr⟩ (by simp) (by simp) ho ?_
      by_cases hr : p.q.w.reading = true ∧ p.q.w.closes = 0
      · refine Reach.step _ _ l.reach ?_
        obtain ⟨_, q, u, c⟩ := calm_of l.reach a he hr.2 (hst.imp id .inl)
        refine ⟨?_, hn⟩
        by_cases hq : Kind.pong ∈ q
        · have := (c.tok.t2 hq (pong_in_queue c a hq)).1
          rw [hr.1] at this; cases this
        · exact c.base.core.free .pong hq (by simp)
      · rw [step_deaf (by rfl) hst hr]; exact l.reach
    · exact l
  | gotData =>
    simp only [WsExample.outside]
    split
    · rename_i hh
      have hr : p.q.w.reading = true ∧ p.q.w.closes = 0 := by simpa [hears] using hh
      obtain ⟨hub, q, u, c⟩ := calm_of l.reach a he hr.2 (hst.imp id .inl)
      have hturn := c.tok.t1 hr.1
      have h0 : hellos p.q.w.log = 0 := by
        have := l.turn
        rw [hturn, ho] at this
        simp at this
        exact this
      have hs := step_hear e.tr hub hst hr
      have hr2 : Reach (step p.q ⟨.gotData, e.tr⟩) := reach_plain l.reach (by simp) (by simp)
      refine ⟨?_, ?_, ?_, ?_⟩
      · dsimp only; rw [settle_q]; exact hr2
      · intro _; dsimp only; rw [settle_q, hs]; exact ⟨rfl, hr.2⟩
      · dsimp only; rw [settle_q, hs]; dsimp only; rw [h0]; simp
      · intro _; dsimp only; rw [settle_q, hs]
    · rename_i hh
      have hr : ¬ (p.q.w.reading = true ∧ p.q.w.closes = 0) := by simpa [hears] using hh
      rw [step_deaf (by rfl) hst hr]
      refine ⟨?_, ?_, ?_, ?_⟩
      · rw [settle_q]; exact l.reach
      · rw [settle_owes, ho]; simp
      · rw [settle_q, settle_owes]; exact l.one
      · rw [settle_q, settle_owes]; exact l.turn
  | ret => simp only [WsExample.outside, deaf .ret (by simp)]; exact plain _ (by simp) (by simp) (by simp)
  | written r => simp only [WsExample.outside, deaf (.written r) (by simp)]; exact plain _ (by simp) (by simp) (by simp)
  | gotPong => simp only [WsExample.outside, deaf .gotPong (by simp)]; exact plain _ (by simp) (by simp) (by simp)
  | gotClose n => simp only [WsExample.outside, deaf (.gotClose n) (by simp)]; exact plain _ (by simp) (by simp) (by simp)
  | fail => simp only [WsExample.outside, deaf .fail (by simp)]; exact plain _ (by simp) (by simp) (by simp)
  | timer => simp only [WsExample.outside, deaf .timer (by simp)]; exact plain _ (by simp) (by simp) (by simp)

theorem Link.appStep {p : Prog} (l : Link p) (a : A p.q.w) (he : p.q.w.closedByError = false) (e : Event) : Link (appStep p e) := by
  unfold WsExample.appStep
  split
  · rename_i hst
    have ho : p.owes = false := by
      cases h : p.owes with
      | false => rfl
      | true => have := (l.top h).1; rw [hst] at this; cases this
    split
    · split
      · rename_i hh
        split
        · have hub := (calm_of l.reach a he hh.2 (.inl hst)).1
          have hr : Reach (step p.q ⟨.call (.ping [4]), e.tr⟩) := Reach.step _ _ l.reach ⟨by rw [hst]; simp, he, hh.2, trivial⟩
          have hsame : Same p.q.w (step p.q ⟨.call (.ping [4]), e.tr⟩).w := by
            unfold WsQueue.step
            rw [if_neg (by rw [hub]; simp), hst]
            dsimp only
            rw [if_pos hh.2]
            exact same_ping _ _ _ _
          refine ⟨?_, ?_, ?_, ?_⟩
          · rw [settle_q]; exact hr
          · rw [settle_owes]; dsimp only; rw [ho]; simp
          · rw [settle_q, settle_owes, hsame.2]; exact l.one
          · rw [settle_q, settle_owes, hsame.2, hsame.1]; exact l.turn
        · exact ⟨l.reach, l.top, l.one, l.turn⟩
      · exact l
    · exact l.outside a he (.inl hst) _ _
  · rename_i err rest hst
    split
    · rename_i ho
      obtain ⟨ht, h0⟩ := l.top ho
      have hub := (calm_of l.reach a he h0 (.inr (.inr ht))).1
      have hr : Reach (step p.q ⟨.call (.first 12 [12] true p.binary), e.tr⟩) := Reach.step _ _ l.reach ⟨by rw [ht]; simp, he, h0, trivial⟩
      have heff : (step p.q ⟨.call (.first 12 [12] true p.binary), e.tr⟩).w.turn = p.q.w.turn ∧
          hellos (step p.q ⟨.call (.first 12 [12] true p.binary), e.tr⟩).w.log ≤ hellos p.q.w.log + 1 := by
        unfold WsQueue.step
        rw [if_neg (by rw [hub]; simp), hst]
        dsimp only
        rw [if_pos h0]
        exact first_effect _ _ _ _ _ _ _
      have h1 := l.one
      rw [ho, if_pos rfl] at h1
      refine ⟨?_, ?_, ?_, ?_⟩
      · rw [settle_q]; exact hr
      · rw [settle_owes]; simp
      · rw [settle_q, settle_owes]; simp only [if_false, Bool.false_eq_true]; have := heff.2; omega
      · intro _; rw [settle_q, heff.1]
        exact l.turn (by rw [ho, if_pos rfl]; omega)
    · rename_i ho
      exact l.lib e.armOk ⟨.ret, e.tr⟩ (by simp) (by simp) (by simpa using ho) (reach_plain l.reach (by simp) (by simp))
  · rename_i rest hst
    split
    · exact l
    · exact l.outside a he (.inr (by rw [hst]; rfl)) _ _
  · rename_i h1 h2 h3
    have ho : p.owes = false := by
      cases h : p.owes with
      | false => rfl
      | true =>
        have := (l.top h).1
        cases hst : p.q.stack with
        | nil => exact absurd hst h1
        | cons i rest =>
          rw [hst] at this
          simp only [List.head?_cons, Option.some.injEq] at this
          subst this
          exact absurd hst (h2 _ _)
    exact l.lib e.armOk ⟨.ret, e.tr⟩ (by simp) (by simp) ho (reach_plain l.reach (by simp) (by simp))

theorem cbe_back {p : Prog} {e : Event} (h : (appStep p e).q.w.closedByError = false) : p.q.w.closedByError = false := by
  rcases appStep_q p e with h' | ⟨c, _, h'⟩
  · rw [h'] at h; exact h
  · rw [h'] at h
    cases hc : p.q.w.closedByError with
    | false => rfl
    | true => rw [(keeps_step p.q c).1 hc] at h; cases h

theorem reachable_link {p : Prog} (h : Reachable p) (he : p.q.w.closedByError = false) : Link p := by
  induction h with
  | connect i a =>
    have h0 : Link {} := ⟨Reach.init, by simp, by simp [hellos], by simp [hellos]⟩
    unfold onConnect
    split
    · exact ⟨h0.1, h0.2, h0.3, h0.4⟩
    · split
      · exact ⟨h0.1, h0.2, h0.3, h0.4⟩
      · exact ⟨Reach.step {} ⟨.call .read, .later⟩ Reach.init ⟨by simp, rfl, rfl, rfl⟩, by simp, by simp [hellos, WsQueue.step, doCall], by simp [hellos, WsQueue.step, doCall]⟩
  | step p e hr ih => exact (ih (cbe_back he)).appStep (reachable_a hr) (cbe_back he) e

end Cio.WsExample
