import Verif.WsExample.Props
/-
C102: after a ping that failed nothing happens any more; the write buffer of a ping; cases.
-/
namespace Cio.WsExample
open Cio.WsQueue

/-- When the answer has been given, nothing is being written and the ping timer is not running (a ping could not be written), nothing happens on the
connection any more, for ever, and it is not closed. -/
theorem frozen {p : Prog} (h : Reachable p) (he : .onError ∉ p.q.w.log) (hh : 0 < hellos p.q.w.log) (hst : p.q.stack = []) (hp : p.q.w.pend = false)
    (ha : p.armed = false) (es : List Event) : appRun p es = p := by
  have one : ∀ e, appStep p e = p := by
    intro e
    have a := reachable_a h
    have hset : ∀ b, settle p p.q b = p := by
      intro b; unfold settle; rw [if_pos rfl]
    cases hw : e.what with
    | ping ok =>
      unfold appStep
      rw [hst]
      dsimp only
      rw [hw]
      dsimp only
      rw [if_neg (by rw [ha]; simp)]
    | other x =>
      by_cases hx : isPeer x = true
      · exact deaf_after_hello_partial h he hh hst x hx e hw
      · unfold appStep
        rw [hst]
        dsimp only
        rw [hw]
        dsimp only
        have hs : ∀ tr, (∀ call, x ≠ .call call) → step p.q ⟨x, tr⟩ = p.q := by
          intro tr hc
          unfold step
          split
          · rfl
          · rw [hst]
            dsimp only
            cases x with
            | timer => dsimp only; rw [if_neg (by rw [a.timer]; simp)]
            | written r => dsimp only; rw [if_neg (by rw [hp]; simp)]
            | call c => exact absurd rfl (hc c)
            | ret => rfl
            | gotData => exact absurd rfl hx
            | gotPing n => exact absurd rfl hx
            | gotPong => exact absurd rfl hx
            | gotClose n => exact absurd rfl hx
            | fail => exact absurd rfl hx
        cases x with
        | call c => rfl
        | gotPing n => exact absurd rfl hx
        | gotData => exact absurd rfl hx
        | gotPong => exact absurd rfl hx
        | gotClose n => exact absurd rfl hx
        | fail => exact absurd rfl hx
        | ret => unfold outside; dsimp only; rw [hs _ (by simp), hset]; rfl
        | written r => unfold outside; dsimp only; rw [hs _ (by simp), hset]; rfl
        | timer => unfold outside; dsimp only; rw [hs _ (by simp), hset]; rfl
  induction es with
  | nil => rfl
  | cons e es ih => show appRun (appStep p e) es = p; rw [one]; exact ih

/-! ### No write is pending if every write is done or refused at once -/

def NoPend (w w' : World) : Prop := w.pend = false → w'.pend = false

theorem np_handleError (w : World) (st : List Item) : NoPend w (handleError w st).w := by
  unfold handleError
  split
  · exact id
  · exact id

theorem np_callHandler (w : World) (h : Handler) (r : Res) (ch : List Elem) (st : List Item) : NoPend w (callHandler w h r ch st).w := by
  unfold callHandler
  cases h with
  | null => exact id
  | stale => exact id
  | user t => exact id
  | pongWritten =>
    simp only [WsQueue.pongWritten]
    split
    · exact np_handleError _ _
    · exact id

theorem np_dequeue {w w' : World} {k : Kind} (h : dequeue w = some (k, w')) : NoPend w w' := by
  unfold dequeue at h
  split at h
  · cases h
  · simp at h; rw [← h.2]; exact id

theorem np_onWritten (w : World) (r : Res) (st : List Item) : NoPend w (onWritten w r st).w := by
  unfold onWritten
  cases hd : dequeue w with
  | none => exact id
  | some p =>
    obtain ⟨k, w1⟩ := p
    have h := np_dequeue hd
    simp only
    have h2 : NoPend w (setJob w1 k { w1.jobs k with wbh := none }) := h
    generalize setJob w1 k { w1.jobs k with wbh := none } = w2 at h2
    cases w2.bsHandler with
    | messageWritten =>
      simp only
      split
      · exact h2
      · exact fun h => np_callHandler _ _ _ _ _ (h2 h)
    | closeWritten => exact h2
    | closeWrittenImmediate => exact h2
    | responseCloseWritten => exact h2

theorem np_sendFrame (w : World) (k : Kind) (len : Nat) (tr : Outcome) (st : List Item) (ht : tr ≠ .later) : NoPend w (sendFrame w k len tr st).1.w := by
  unfold sendFrame
  cases (w.jobs k).wbh with
  | none => exact id
  | some chain =>
    cases tr with
    | now r => exact np_onWritten (log { setJob w k _ with bsHandler := _ } _) _ _
    | later => exact absurd rfl ht
    | refuse => exact id

theorem np_enqueue (w : World) (k : Kind) (len : Nat) (tr : Outcome) (st : List Item) (ht : tr ≠ .later) : NoPend w (enqueue w k len tr st).1.w := by
  unfold enqueue
  cases w.first with
  | none =>
    have h : NoPend w (sendFrame { w with first := some k, last := some k } k len tr st).1.w := np_sendFrame { w with first := some k, last := some k } _ _ _ _ ht
    simp only
    generalize sendFrame { w with first := some k, last := some k } k len tr st = p at h
    obtain ⟨s, ok⟩ := p
    cases ok
    · exact fun h' => np_handleError _ _ (h h')
    · exact h
  | some _ =>
    cases w.last with
    | none => exact id
    | some l => exact id

theorem np_doCall (w : World) (c : Call) (hc : Mine c) (tr : Outcome) (st : List Item) (ht : tr ≠ .later) : NoPend w (doCall w c tr st).w := by
  intro h0
  cases c with
  | first n p l b =>
    simp only [doCall]
    split
    · exact h0
    · exact np_enqueue _ _ _ _ _ ht h0
  | ping p =>
    simp only [doCall]
    split
    · exact h0
    · split
      · exact h0
      · exact np_enqueue _ _ _ _ _ ht h0
  | read => exact h0
  | cont p => exact hc.elim
  | pong p => exact hc.elim
  | close n b => exact hc.elim

theorem np_arrive (w : World) (a : Act) (tr : Outcome) (st : List Item) (ht : tr ≠ .later) : NoPend w (arrive w a tr st).w := by
  intro h0
  cases a with
  | gotPing n => exact np_enqueue _ _ _ _ _ ht h0
  | gotClose n =>
    simp only [arrive]
    split
    · exact h0
    · exact np_enqueue _ _ _ _ _ ht h0
  | fail => exact np_handleError _ _ h0
  | gotData => exact h0
  | gotPong => exact h0
  | call _ => exact h0
  | ret => exact h0
  | written _ => exact h0
  | timer => exact h0

theorem np_step (s : State) (c : Choice) (ht : c.tr ≠ .later) (hc : ∀ call, c.act = .call call → Mine call) : NoPend s.w (step s c).w := by
  intro h0
  unfold step
  split
  · exact h0
  · split
    · split
      · split <;> exact h0
      · split
        · exact np_onWritten { s.w with pend := false } _ _ rfl
        · exact h0
      · split
        · rename_i h _; exact np_doCall _ _ (hc _ h) _ _ ht h0
        · exact h0
      · exact h0
      · split
        · exact np_arrive _ _ _ _ ht h0
        · exact h0
    · split
      · exact h0
      · split
        · rename_i h _; exact np_doCall _ _ (hc _ h) _ _ ht h0
        · exact h0
      · exact h0
    · split
      · exact h0
      · exact h0
      · exact h0
      · exact h0
      · split
        · exact np_arrive _ _ _ _ ht h0
        · exact h0
    · exact h0
    · split
      · exact h0
      · split
        · exact h0
        · rename_i k rest _ _ _ chain _
          have h := np_sendFrame s.w k (total chain) c.tr rest ht h0
          generalize sendFrame s.w k (total chain) c.tr rest = p at h
          obtain ⟨s', ok⟩ := p
          cases ok
          · exact np_handleError _ _ h
          · exact h
    · split
      · exact h0
      · split
        · exact h0
        · rename_i k w1 h
          have h1 : w1.pend = false := np_dequeue h h0
          exact np_callHandler (setJob w1 k { w1.jobs k with wbh := none }) _ _ _ _ h1
    · split
      · exact h0
      · rename_i rest _ _
        have h := np_enqueue (prepareClose s.w errReason .null .closeWrittenImmediate) .close (2 + errReason) c.tr rest ht h0
        generalize enqueue (prepareClose s.w errReason .null .closeWrittenImmediate) .close (2 + errReason) c.tr rest = p at h
        obtain ⟨s', ok⟩ := p
        cases ok
        · exact h
        · exact h
    · split
      · exact h0
      · exact np_callHandler _ _ _ _ _ h0
    · exact h0

/-- As `appStep_q`, with what the transport does. -/
theorem appStep_tr (p : Prog) (e : Event) :
    (appStep p e).q = p.q ∨ ∃ a : Act, (∀ call, a = .call call → Mine call) ∧ (appStep p e).q = step p.q ⟨a, e.tr⟩ := by
  have ho : ∀ a, (outside p a e).q = p.q ∨ ∃ x : Act, (∀ call, x = .call call → Mine call) ∧ (outside p a e).q = step p.q ⟨x, e.tr⟩ := by
    intro a
    unfold outside
    split
    · exact .inl rfl
    · split
      · exact .inr ⟨_, by simp, settle_q _ _ _⟩
      · exact .inl rfl
    · rename_i h1 _
      split
      · exact .inr ⟨_, fun call hc => absurd hc (h1 call), settle_q _ _ _⟩
      · exact .inr ⟨_, fun call hc => absurd hc (h1 call), settle_q _ _ _⟩
  unfold appStep
  split
  · split
    · split
      · split
        · exact .inr ⟨.call (.ping [4]), fun call h => by injection h with h; subst h; rfl, settle_q _ _ _⟩
        · exact .inl rfl
      · exact .inl rfl
    · exact ho _
  · split
    · exact .inr ⟨.call (.first 12 [12] true p.binary), fun call h => by injection h with h; subst h; exact ⟨rfl, rfl, rfl⟩, settle_q _ _ _⟩
    · exact .inr ⟨.ret, by simp, settle_q _ _ _⟩
  · split
    · exact .inl rfl
    · exact ho _
  · exact .inr ⟨.ret, by simp, settle_q _ _ _⟩

theorem noPend_run (es : List Event) : ∀ p : Prog, p.q.w.pend = false → (∀ e ∈ es, e.tr ≠ .later) → (appRun p es).q.w.pend = false := by
  induction es with
  | nil => intro p h _; exact h
  | cons e es ih =>
    intro p h hl
    refine ih (appStep p e) ?_ (fun e he => hl e (List.mem_cons_of_mem _ he))
    rcases appStep_tr p e with h' | ⟨a, ha, h'⟩
    · rw [h']; exact h
    · rw [h']; exact np_step _ _ (hl e List.mem_cons_self) ha h

/-- If no write ever has to wait for the socket, the library never holds a write buffer of a ping that does not exist any more. -/
theorem not_dangling_partial (initOk armOk : Bool) (es : List Event) (hl : ∀ e ∈ es, e.tr ≠ .later) (he : .onError ∉ (appRun (onConnect initOk armOk) es).q.w.log)
    (hc : .closed ∉ (appRun (onConnect initOk armOk) es).q.w.log) : ¬ Dangling (appRun (onConnect initOk armOk) es) := by
  rintro ⟨hst, hd⟩
  have hp := noPend_run es (onConnect initOk armOk) (by cases initOk <;> cases armOk <;> rfl) hl
  have h : Reachable (appRun (onConnect initOk armOk) es) := (Reachable.connect initOk armOk).run es
  generalize appRun (onConnect initOk armOk) es = p at *
  have hcb := not_failed h he
  have h0 : p.q.w.closes = 0 := by rw [← (reachable_sup h).2.2.1]; exact (hooks_mem _).mpr hc
  obtain ⟨_, q, u, cm⟩ := calm_of (reachable_link h hcb).reach (reachable_a h) hcb h0 (.inl hst)
  have hs := cm.send
  cases hs with
  | idle h1 h2 =>
    rw [cm.base.core.free .ping (by simp) (by simp)] at hd
    cases hd
  | flight k u h1 => rw [hp] at h1; cases h1
  | wait k u _ h2 => rw [hst] at h2; cases h2

/-- A message is answered: the frame with "Hello World!" is given to the transport, of the type of the message, if the transport takes it. -/
theorem message_answered {p : Prog} (h : Reachable p) (he : .onError ∉ p.q.w.log) (hc : .closed ∉ p.q.w.log) (hst : p.q.stack = []) (hr : p.q.w.reading = true)
    (hp : p.q.w.pend = false) (e1 e2 : Event) (hw : e1.what = .other .gotData) (ht : e2.tr ≠ .refuse) :
    ∃ t, .sent .message (.user t) false (if e1.binary then 2 else 1) true 12 [.usr 12] ∈ (appStep (appStep p e1) e2).q.w.log := by
  have hcb := not_failed h he
  have a := reachable_a h
  have h0 : p.q.w.closes = 0 := by rw [← (reachable_sup h).2.2.1]; exact (hooks_mem _).mpr hc
  obtain ⟨hub, q, u, cm⟩ := calm_of (reachable_link h hcb).reach a hcb h0 (.inl hst)
  have hq : q = [] := by
    have hs := cm.send
    cases hs with
    | idle h1 h2 => rfl
    | flight k u h1 => rw [hp] at h1; cases h1
    | wait k u _ h2 => rw [hst] at h2; cases h2
  have hf : p.q.w.first = none := by have := cm.base.core.first; rw [hq] at this; exact this
  have hm : (p.q.w.jobs .message).wbh = none := cm.base.core.free .message (by rw [hq]; simp) (by simp)
  have hb : hears p .gotData = true := by unfold hears; rw [hr, h0]; rfl
  have h1 : (appStep p e1).q = ⟨{ p.q.w with reading := false, turn := true }, [.user false]⟩ ∧ (appStep p e1).owes = true ∧ (appStep p e1).binary = e1.binary := by
    unfold appStep
    rw [hst]
    dsimp only
    rw [hw]
    dsimp only
    unfold outside
    dsimp only
    rw [if_pos hb]
    dsimp only
    rw [settle_q, step_hear e1.tr hub (.inl hst) ⟨hr, h0⟩, hst]
    exact ⟨rfl, rfl, rfl⟩
  obtain ⟨hq1, ho1, hb1⟩ := h1
  refine ⟨p.q.w.tickets, ?_⟩
  have hfw := a.fw
  generalize appStep p e1 = p1 at *
  unfold appStep
  rw [hq1]
  dsimp only
  rw [if_pos ho1, settle_q]
  unfold step
  dsimp only
  rw [if_neg (by rw [hub]; simp), if_pos h0, hb1]
  simp only [doCall]
  rw [if_neg (by rw [hm]; simp), hfw]
  unfold enqueue
  simp only [log, setJob]
  rw [hf]
  simp only [sendFrame, if_true, List.map]
  cases htr : e2.tr with
  | refuse => exact absurd htr ht
  | later => simp [log, setJob]
  | now r => simp [onWritten, dequeue, setJob, log, callHandler]

end Cio.WsExample
