import Verif.WsQueue.PongSpec
import Verif.WsQueue.ContentStep
/-
C21: invariant of answered pings.
-/
namespace Cio.WsQueue

/-- The answer that is still to be sent. -/
def waiting (j : Job) : List Frame :=
  match j.handler, j.wbh with
  | .pongWritten, some ch => if ch.head? = some .hdr then [] else [(j.cont, j.opcode, j.lastFrame, total ch, ch)]
  | _, _ => []

/-- The answer has been given to the transport and is not yet written. -/
def inFlight (j : Job) : Prop := j.handler = .pongWritten ∧ ∃ ch, j.wbh = some (.hdr :: ch)

structure P (w : World) (ps : List Frame) : Prop where
  cont : (w.jobs .pong).cont = false
  eq : w.closedByError = false → answers w.log ++ waiting (w.jobs .pong) = ps
  pre : answers w.log <+: ps
  fl : w.closedByError = false → inFlight (w.jobs .pong) → w.pend = true ∧ w.first = some .pong
  hd : w.closedByError = false → w.pend = true → w.first = some .pong → waiting (w.jobs .pong) = []

theorem waiting_congr {j j' : Job} (h1 : j'.handler = j.handler) (h2 : j'.wbh = j.wbh) (h3 : j'.cont = j.cont) (h4 : j'.opcode = j.opcode)
    (h5 : j'.lastFrame = j.lastFrame) : waiting j' = waiting j := by simp only [waiting, h1, h2, h3, h4, h5]

theorem waiting_none {j : Job} (h : j.wbh = none) : waiting j = [] := by unfold waiting; rw [h]; split <;> simp_all
theorem waiting_user {j : Job} (h : j.handler ≠ .pongWritten) : waiting j = [] := by unfold waiting; split <;> simp_all
theorem not_inFlight_none {j : Job} (h : j.wbh = none) : ¬ inFlight j := by rintro ⟨_, _, h'⟩; rw [h] at h'; cases h'

/-- Nothing of interest has changed. -/
theorem P.same {w w' : World} {ps : List Frame} (h : P w ps) (he : w.closedByError = true → w'.closedByError = true) (hl : answers w'.log = answers w.log)
    (hj : w'.jobs .pong = w.jobs .pong) (hp : w'.pend = w.pend) (hf : w'.first = w.first) : P w' ps := by
  have he' : w'.closedByError = false → w.closedByError = false := by
    intro h0; cases h1 : w.closedByError with
    | false => rfl
    | true => rw [he h1] at h0; cases h0
  exact ⟨by rw [hj]; exact h.cont, fun h0 => by rw [hl, hj]; exact h.eq (he' h0), by rw [hl]; exact h.pre, fun h0 => by rw [hj, hp, hf]; exact h.fl (he' h0),
    fun h0 => by rw [hj, hp, hf]; exact h.hd (he' h0)⟩

/-- After an error nothing is claimed but the prefix. -/
theorem P.error {w w' : World} {ps : List Frame} (hc : (w.jobs .pong).cont = false) (h : answers w.log <+: ps) (he : w'.closedByError = true)
    (hl : answers w'.log = answers w.log) (hj : (w'.jobs .pong).cont = (w.jobs .pong).cont) : P w' ps :=
  have hn : w'.closedByError ≠ false := by rw [he]; simp
  ⟨(by rw [hj]; exact hc), fun h0 => absurd h0 hn, (by rw [hl]; exact h), fun h0 => absurd h0 hn, fun h0 => absurd h0 hn⟩

theorem P.handleError {w : World} {ps : List Frame} (hc : (w.jobs .pong).cont = false) (h : answers w.log <+: ps) (st : List Item) : P (handleError w st).w ps := by
  unfold WsQueue.handleError
  split
  · rename_i h0; exact P.error hc h h0 rfl rfl
  · exact P.error hc h rfl rfl rfl

/-- The handler of a job that was dropped is called. -/
theorem P.callHandler {w : World} {ps : List Frame} (hd : Handler) (r : Res) (ch : List Elem) (st : List Item) (hc : (w.jobs .pong).cont = false)
    (hpre : answers w.log <+: ps) (h : hd ≠ .pongWritten ∨ r = .success → P w ps) : P (callHandler w hd r ch st).w ps := by
  cases hd with
  | null => exact h (.inl (by simp))
  | stale => exact (h (.inl (by simp))).same id rfl rfl rfl rfl
  | user t => exact (h (.inl (by simp))).same id rfl rfl rfl rfl
  | pongWritten =>
    simp only [WsQueue.callHandler, pongWritten]
    split
    · exact P.handleError hc hpre st
    · rename_i hr
      exact (h (.inr (by simpa using hr))).same id rfl rfl rfl rfl

theorem drop_pong (w : World) (k : Kind) (f : Option Kind) :
    (setJob { w with first := f } k { w.jobs k with wbh := none }).jobs .pong = if k = .pong then { w.jobs .pong with wbh := none } else w.jobs .pong := by
  rw [setJob_jobs]
  by_cases e : k = .pong
  · subst e; simp
  · rw [if_neg (fun h => e h.symm), if_neg e]

/-- The first job is dropped.  `hw`: nothing is lost; `hp`: nothing is in flight behind. -/
theorem P.drop {w : World} {ps : List Frame} (h : P w ps) (k : Kind) (f : Option Kind) (b : Bool)
    (hw : w.closedByError = false → k = .pong → waiting (w.jobs .pong) = [])
    (hp : w.closedByError = false → k ≠ .pong → ¬ inFlight (w.jobs .pong))
    (hpend : w.closedByError = false → b = true → waiting (w.jobs .pong) = []) :
    P (setJob { w with pend := b, first := f } k { w.jobs k with wbh := none }) ps := by
  by_cases e : k = .pong
  · subst e
    have hn : waiting ((setJob { w with pend := b, first := f } .pong { w.jobs .pong with wbh := none }).jobs .pong) = [] := waiting_none (by rw [setJob_self])
    refine ⟨by rw [setJob_self]; exact h.cont, fun h0 => ?_, h.pre, fun _ hi => ?_, fun _ _ _ => hn⟩
    · rw [hn, ← h.eq h0, hw h0 rfl]; rfl
    · exact absurd hi (not_inFlight_none (by rw [setJob_self]))
  · have hj : (setJob { w with pend := b, first := f } k { w.jobs k with wbh := none }).jobs .pong = w.jobs .pong := setJob_other _ _ _ _ (fun h => e h.symm)
    refine ⟨by rw [hj]; exact h.cont, fun h0 => by rw [hj]; exact h.eq h0, h.pre, fun h0 hi => ?_, fun h0 h1 _ => ?_⟩
    · rw [hj] at hi; exact absurd hi (hp h0 e)
    · rw [hj]; exact hpend h0 h1

theorem P.written {w : World} {ps : List Frame} {k : Kind} (hf : w.first = some k)
    (h : ∀ f, P (setJob { w with first := f } k { w.jobs k with wbh := none }) ps) (r : Res) (st : List Item) : P (WsQueue.onWritten w r st).w ps := by
  cases hd : dequeue w with
  | none => unfold dequeue at hd; rw [hf] at hd; cases hd
  | some p =>
    obtain ⟨k', w1⟩ := p
    obtain ⟨hf', f, rfl⟩ := dequeue_form hd
    rw [hf] at hf'
    injection hf' with hf'
    subst hf'
    rw [onWritten_dequeue hd]
    have hK := h f
    generalize setJob { w with first := f } k { w.jobs k with wbh := none } = W at hK ⊢
    cases w.bsHandler with
    | messageWritten =>
      simp only
      split
      · exact hK.same id rfl rfl rfl rfl
      · exact P.callHandler _ _ _ _ hK.cont hK.pre (fun _ => hK)
    | closeWritten => exact hK
    | closeWrittenImmediate => exact hK
    | responseCloseWritten => exact hK

/-- The transport reports the end of a write. -/
theorem P.onWritten {w : World} {ps : List Frame} (h : P w ps) (hp : w.pend = true) (r : Res) (st : List Item) : P (onWritten { w with pend := false } r st).w ps := by
  obtain hf | ⟨k, hf⟩ : w.first = none ∨ ∃ k, w.first = some k := by cases w.first <;> simp
  · skip
    have hd : dequeue ({ w with pend := false } : World) = none := by unfold dequeue; rw [show ({ w with pend := false } : World).first = none from hf]
    unfold WsQueue.onWritten
    rw [hd]
    refine ⟨h.cont, h.eq, h.pre, fun h0 hi => ?_, fun h0 h1 => by cases h1⟩
    have := (h.fl h0 hi).2
    rw [hf] at this; cases this
  · refine P.written (w := { w with pend := false }) (k := k) hf (fun f => ?_) r st
    refine h.drop k f false (fun h0 e => h.hd h0 hp (by rw [hf, e])) (fun h0 e hi => ?_) (fun _ h => by cases h)
    have := (h.fl h0 hi).2
    rw [hf] at this
    injection this with this
    exact e this

theorem answers_other (e : Ev) (l : List Ev) (h : ∀ c o f a p, e ≠ .sent .pong .pongWritten c o f a p) : answers (e :: l) = answers l := by
  have : answersR (e :: l) = answersR l := by
    rw [answersR]
    exact fun c o f a p he => h c o f a p he
  rw [answers, this]; rfl

theorem answers_pong (c : Bool) (o : Nat) (f : Bool) (a : Nat) (p : List Elem) (l : List Ev) :
    answers (.sent .pong .pongWritten c o f a p :: l) = answers l ++ [(c, o, f, a, p)] := by simp [answers, answersR]

theorem inFlight_rechain (j : Job) (ch : List Elem) : waiting { j with wbh := some (.hdr :: ch) } = [] := by
  unfold waiting
  cases j.handler <;> rfl

/-- `send_frame`, called for the first job when nothing is being written. -/
theorem P.sendFrame {w : World} {k : Kind} {ps : List Frame} (h : P w ps) (hf : w.first = some k) (hpend : w.closedByError = false → w.pend = false) (hcb : w.closedByError = true → k ≠ .pong)
    (hn : w.closedByError = false → ¬ inFlight (w.jobs .pong)) (len : Nat) (tr : Outcome) (st : List Item)
    (hlen : k = .pong → ∀ ch, (w.jobs .pong).handler = .pongWritten → (w.jobs .pong).wbh = some ch → len = total ch) :
    ((sendFrame w k len tr st).2 = true → P (sendFrame w k len tr st).1.w ps) ∧
      ((sendFrame w k len tr st).2 = false → ((sendFrame w k len tr st).1.w.jobs .pong).cont = false ∧ answers (sendFrame w k len tr st).1.w.log <+: ps) := by
  cases hw : (w.jobs k).wbh with
  | none =>
    have e : WsQueue.sendFrame w k len tr st = (fault ⟨w, st⟩, true) := by unfold WsQueue.sendFrame; rw [hw]
    rw [e]
    exact ⟨fun _ => h.same id rfl rfl rfl rfl, fun h => (by cases h)⟩
  | some chain =>
    rw [sendFrame_eq w k chain hw]
    generalize hch : (if (w.jobs k).cont then chain else .hdr :: chain) = ch'
    -- the world with the event, whatever `pend` is
    have key : ∀ b, (b = false ∨ b = true) → P (log { rechain w k ch' with pend := b } (.sent k (w.jobs k).handler (w.jobs k).cont (w.jobs k).opcode (w.jobs k).lastFrame
        (if (w.jobs k).cont then 0 else len) chain)) ps ∨ (b = false ∧ k = .pong) := by
      intro b hb
      by_cases e : k = .pong
      · subst e
        rw [h.cont] at hch
        have hch : .hdr :: chain = ch' := by simpa using hch
        subst hch
        rcases hb with rfl | rfl
        · exact .inr ⟨rfl, rfl⟩
        · left
          have hcb : w.closedByError = false := by
            cases h1 : w.closedByError with
            | false => rfl
            | true => exact absurd rfl (hcb h1)
          have hj : (rechain w .pong (.hdr :: chain)).jobs .pong = { w.jobs .pong with wbh := some (.hdr :: chain) } := rechain_self _ _ _
          have heq : answers (.sent .pong (w.jobs .pong).handler (w.jobs .pong).cont (w.jobs .pong).opcode (w.jobs .pong).lastFrame
              (if (w.jobs .pong).cont then 0 else len) chain :: w.log) = ps := by
            by_cases hp : (w.jobs .pong).handler = .pongWritten
            · rw [hp, answers_pong, h.cont]
              have := h.eq hcb
              have hnh : chain.head? ≠ some .hdr := by
                intro hh
                refine hn hcb ⟨hp, chain.tail, ?_⟩
                cases chain with
                | nil => cases hh
                | cons x l => simp at hh; subst hh; exact hw
              unfold waiting at this
              rw [hp, hw] at this
              simp only [if_neg hnh] at this
              rw [← this, h.cont, hlen rfl chain hp hw]
              simp
            · rw [answers_other]
              · have := h.eq hcb
                rw [waiting_user hp] at this
                simpa using this
              · intro c o f a p he
                injection he with _ h2
                exact hp h2
          refine ⟨?_, fun _ => ?_, ?_, fun _ _ => ⟨rfl, hf⟩, fun _ _ _ => ?_⟩
          · show ((rechain w .pong (.hdr :: chain)).jobs .pong).cont = false
            rw [hj]; exact h.cont
          · show answers (_ :: w.log) ++ waiting ((rechain w .pong (.hdr :: chain)).jobs .pong) = ps
            rw [heq, hj, inFlight_rechain, List.append_nil]
          · show answers (_ :: w.log) <+: ps
            rw [heq]; exact List.prefix_rfl
          · show waiting ((rechain w .pong (.hdr :: chain)).jobs .pong) = []
            rw [hj, inFlight_rechain]
      · left
        have hj : (rechain w k ch').jobs .pong = w.jobs .pong := rechain_other _ _ _ _ (fun h => e h.symm)
        have hl : ∀ hh c o f a p, answers (.sent k hh c o f a p :: w.log) = answers w.log := by
          intro hh c o f a p
          refine answers_other _ _ ?_
          intro c o f a p he
          injection he with h1
          exact e h1
        refine ⟨?_, fun h0 => ?_, ?_, fun h0 hi => ?_, fun _ _ hf' => ?_⟩
        · show ((rechain w k ch').jobs .pong).cont = false
          rw [hj]; exact h.cont
        · show answers (_ :: w.log) ++ waiting ((rechain w k ch').jobs .pong) = ps
          rw [hl, hj]; exact h.eq h0
        · show answers (_ :: w.log) <+: ps
          rw [hl]; exact h.pre
        · have hi : inFlight ((rechain w k ch').jobs .pong) := hi
          rw [hj] at hi
          exact absurd hi (hn h0)
        · have hf' : w.first = some .pong := hf'
          rw [hf] at hf'
          injection hf' with hf'
          exact absurd hf' e
    cases tr with
    | now r =>
      refine ⟨fun _ => ?_, fun h => (by cases h)⟩
      rcases key true (.inr rfl) with k1 | k1
      · -- `pend` was true in `k1`; it is irrelevant for what follows
        refine P.written (w := log (rechain w k ch') _) (k := k) hf (fun f => ?_) r st
        generalize Ev.sent k (w.jobs k).handler (w.jobs k).cont (w.jobs k).opcode (w.jobs k).lastFrame (if (w.jobs k).cont then 0 else len) chain = e at k1 ⊢
        by_cases ek : k = .pong
        · subst ek
          refine ⟨?_, fun h0 => ?_, k1.pre, fun _ hi => ?_, fun _ _ _ => ?_⟩
          · rw [setJob_self]; exact k1.cont
          · rw [waiting_none (by rw [setJob_self])]
            have h1 := k1.eq h0
            rw [k1.hd h0 rfl hf] at h1
            exact h1
          · exact absurd hi (not_inFlight_none (by rw [setJob_self]))
          · exact waiting_none (by rw [setJob_self])
        · have hj1 : (rechain w k ch').jobs .pong = w.jobs .pong := rechain_other _ _ _ _ (fun h => ek h.symm)
          have hj : (setJob { log (rechain w k ch') e with first := f } k { (log (rechain w k ch') e).jobs k with wbh := none }).jobs .pong = w.jobs .pong := by
            rw [setJob_other _ _ _ _ (fun h => ek h.symm)]
            exact hj1
          refine ⟨by rw [hj]; exact h.cont, fun h0 => ?_, k1.pre, fun h0 hi => ?_, fun h0 hp => ?_⟩
          · rw [hj]
            have := k1.eq h0
            rw [show (log { rechain w k ch' with pend := true } e).jobs .pong = (rechain w k ch').jobs .pong from rfl, hj1] at this
            exact this
          · rw [hj] at hi; exact absurd hi (hn h0)
          · have hp : w.pend = true := hp
            rw [hpend h0] at hp; cases hp
      · exact absurd k1.1 (by simp)
    | later =>
      refine ⟨fun _ => ?_, fun h => (by cases h)⟩
      rcases key true (.inr rfl) with k1 | k1
      · exact k1
      · exact absurd k1.1 (by simp)
    | refuse =>
      refine ⟨fun h => (by cases h), fun _ => ⟨?_, h.pre⟩⟩
      show ((rechain w k ch').jobs .pong).cont = false
      rw [rechain_cont]; exact h.cont

/-- `enqueue_job`.  The world before the job was filled in satisfies the invariant up to the answer. -/
theorem P.enqueue {w : World} {k : Kind} {ps : List Frame} (h : P w ps) (hpend : w.first = none → (w.closedByError = false → w.pend = false) ∧ (w.closedByError = true → k ≠ .pong))
    (len : Nat) (tr : Outcome) (st : List Item)
    (hlen : k = .pong → ∀ ch, (w.jobs .pong).handler = .pongWritten → (w.jobs .pong).wbh = some ch → len = total ch) :
    P (enqueue w k len tr st).1.w ps := by
  unfold WsQueue.enqueue
  split
  · rename_i hf
    have h1 : ∀ h0, ¬ inFlight (w.jobs .pong) := fun h0 hi => by
      have := (h.fl h0 hi).2
      rw [hf] at this; cases this
    have hs := P.sendFrame (w := ({ w with first := some k, last := some k } : World)) (k := k) (ps := ps)
      ⟨h.cont, h.eq, h.pre, fun h0 hi => absurd hi (h1 h0), fun h0 hp => by rw [(hpend hf).1 h0] at hp; cases hp⟩
      rfl (hpend hf).1 (hpend hf).2 h1 len tr st hlen
    generalize WsQueue.sendFrame { w with first := some k, last := some k } k len tr st = p at hs
    obtain ⟨s, ok⟩ := p
    cases ok
    · exact P.handleError (hs.2 rfl).1 (hs.2 rfl).2 _
    · exact hs.1 rfl
  · split
    · exact h.same id rfl rfl rfl rfl
    · rename_i k' hf l _
      have hj : ∀ k', (if Kind.pong = l then { w.jobs l with next := some k' } else w.jobs .pong).wbh = (w.jobs .pong).wbh ∧
          (if Kind.pong = l then { w.jobs l with next := some k' } else w.jobs .pong).handler = (w.jobs .pong).handler ∧
          (if Kind.pong = l then { w.jobs l with next := some k' } else w.jobs .pong).cont = (w.jobs .pong).cont ∧
          waiting (if Kind.pong = l then { w.jobs l with next := some k' } else w.jobs .pong) = waiting (w.jobs .pong) := by
        intro k'
        by_cases e : Kind.pong = l
        · subst e; rw [if_pos rfl]; exact ⟨rfl, rfl, rfl, waiting_congr rfl rfl rfl rfl rfl⟩
        · rw [if_neg e]; exact ⟨rfl, rfl, rfl, rfl⟩
      obtain ⟨j1, j2, j3, j4⟩ := hj k
      refine ⟨?_, fun h0 => ?_, h.pre, fun h0 hi => ?_, fun h0 h1 h2 => ?_⟩
      · show (if Kind.pong = l then _ else _ : Job).cont = false
        rw [j3]; exact h.cont
      · show answers w.log ++ waiting (if Kind.pong = l then _ else _ : Job) = ps
        rw [j4]; exact h.eq h0
      · refine h.fl h0 ?_
        have hi : inFlight (if Kind.pong = l then { w.jobs l with next := some k } else w.jobs .pong) := hi
        exact ⟨by rw [← j2]; exact hi.1, by rw [← j1]; exact hi.2⟩
      · show waiting (if Kind.pong = l then _ else _ : Job) = []
        rw [j4]; exact h.hd h0 h1 h2

end Cio.WsQueue
