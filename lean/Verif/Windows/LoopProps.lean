import Verif.Windows.LoopModel
/-
Property theorems for the event loop of the Windows port (C53).
-/
namespace Cio.Windows.Loop

/-! ### Specification -/

/-- The notifiers for which packets were queued, in order. -/
def posts (l : List Obs) : List Nat := l.filterMap fun o => match o with
  | .posted n => some n
  | _ => none

/-- The notifiers whose callbacks were called, in order. -/
def calls (l : List Obs) : List Nat := l.filterMap fun o => match o with
  | .call n => some n
  | _ => none

/-- The notifiers whose packets still wait in the completion port, in order. -/
def waitingEvents (q : List Msg) : List Nat := q.filterMap fun m => match m with
  | .ev n _ => some n
  | .stop => none

/-- The loop was cancelled. -/
def Cancelled (l : List Obs) : Prop := ∃ own, .cancel own ∈ l

/-- `cio_eventloop_run` was called and has not returned yet. -/
def running (l : List Obs) : Bool := l.foldl (fun r o => match o with
  | .start => true
  | .done _ => false
  | _ => r) false

/-- All states. -/
inductive Reach : St → Prop
  | init : Reach initial
  | step {s s' : St} {m : Move} (h : Reach s) (hs : step s m = some s') : Reach s'

/-! ### Invariant -/

theorem posts_append (l k : List Obs) : posts (l ++ k) = posts l ++ posts k := by unfold posts; simp
theorem calls_append (l k : List Obs) : calls (l ++ k) = calls l ++ calls k := by unfold calls; simp
theorem waiting_append (l k : List Msg) : waitingEvents (l ++ k) = waitingEvents l ++ waitingEvents k := by unfold waitingEvents; simp

/-- The calls behind the first cancellation, and whether that was made by the thread of the loop. -/
def after : List Obs → Option (List Nat)
  | [] => none
  | .cancel _ :: l => some (calls l)
  | _ :: l => after l

/-- The cancellation by the thread of the loop: calls behind it. -/
def afterOwn : List Obs → Option (List Nat)
  | [] => none
  | .cancel true :: l => some (calls l)
  | _ :: l => afterOwn l

theorem after_snoc (l : List Obs) (o : Obs) : after (l ++ [o]) = match after l with
    | some c => some (c ++ calls [o])
    | none => match o with
      | .cancel _ => some []
      | _ => none := by
  induction l with
  | nil => cases o <;> rfl
  | cons x l ih =>
    cases x with
    | cancel b => simp only [List.cons_append, after, calls_append]
    | _ => simp only [List.cons_append, after]; exact ih

theorem afterOwn_snoc (l : List Obs) (o : Obs) : afterOwn (l ++ [o]) = match afterOwn l with
    | some c => some (c ++ calls [o])
    | none => match o with
      | .cancel true => some []
      | _ => none := by
  induction l with
  | nil => cases o with
    | cancel b => cases b <;> rfl
    | _ => rfl
  | cons x l ih =>
    cases x with
    | cancel b =>
      cases b with
      | true => simp only [List.cons_append, afterOwn, calls_append]
      | false => simp only [List.cons_append, afterOwn]; exact ih
    | _ => simp only [List.cons_append, afterOwn]; exact ih

theorem after_none (l : List Obs) : after l = none ↔ ¬ Cancelled l := by
  induction l with
  | nil => simp [after, Cancelled]
  | cons x l ih =>
    cases x with
    | cancel b => simp [after, Cancelled]
    | _ => simp only [after, ih, Cancelled, List.mem_cons]; simp

theorem after_none_own {l : List Obs} (h : after l = none) : afterOwn l = none := by
  induction l with
  | nil => rfl
  | cons x l ih =>
    cases x with
    | cancel b => simp [after] at h
    | _ => simp only [after] at h; simp only [afterOwn]; exact ih h

structure Inv (s : St) : Prop where
  order : posts s.log = calls s.log ++ waitingEvents s.queue
  go : s.goAhead = true ↔ after s.log = none
  stop : s.thread = .waiting → s.goAhead = false → .stop ∈ s.queue
  stopGo : .stop ∈ s.queue → s.goAhead = false
  few : ∀ c, after s.log = some c → c.length ≤ 1
  idle : ∀ c, after s.log = some c → s.thread = .waiting → c = []
  own : ∀ c, afterOwn s.log = some c → c = [] ∧ s.thread ≠ .waiting
  doneC : ∀ p e post, s.log = p ++ .done e :: post → Cancelled p ∧ e = SUCCESS

theorem snoc_split {α : Type} {l p post : List α} {o x : α} (h : l ++ [o] = p ++ x :: post) : (l = p ∧ o = x) ∨ ∃ post', l = p ++ x :: post' := by
  rcases List.append_eq_append_iff.mp h with ⟨c, h1, h2⟩ | ⟨c, h1, h2⟩
  · cases c with
    | nil =>
      simp only [List.nil_append, List.append_nil, List.cons.injEq] at h1 h2
      exact .inl ⟨h1.symm, h2.1⟩
    | cons y ys => simp at h2
  · cases c with
    | nil =>
      simp only [List.nil_append, List.append_nil, List.cons.injEq] at h1 h2
      exact .inl ⟨h1, h2.1.symm⟩
    | cons y ys =>
      simp only [List.cons_append, List.cons.injEq] at h2
      obtain ⟨rfl, rfl⟩ := h2
      exact .inr ⟨ys, h1⟩

theorem doneC_snoc {l : List Obs} (h : ∀ p e post, l = p ++ .done e :: post → Cancelled p ∧ e = SUCCESS) {o : Obs}
    (ho : ∀ e, o = .done e → Cancelled l ∧ e = SUCCESS) : ∀ p e post, l ++ [o] = p ++ .done e :: post → Cancelled p ∧ e = SUCCESS := by
  intro p e post hl
  rcases snoc_split hl with ⟨rfl, hx⟩ | ⟨q, hq⟩
  · exact ho e hx
  · exact h p e q hq

/-- An observation that is neither a packet, nor a cancellation, nor a call, nor a return. -/
theorem Inv.log {s : St} (h : Inv s) (t : Thread) (o : Obs) (ho : o = .start ∨ (o = .done SUCCESS ∧ s.goAhead = false)) (ht : t ≠ .waiting) :
    Inv { s with thread := t, log := s.log ++ [o] } := by
  have hc : calls [o] = [] := by rcases ho with rfl | ⟨rfl, -⟩ <;> rfl
  have hp : posts [o] = [] := by rcases ho with rfl | ⟨rfl, -⟩ <;> rfl
  have ha : after (s.log ++ [o]) = after s.log := by
    rw [after_snoc]
    rcases ho with rfl | ⟨rfl, -⟩ <;> cases after s.log <;> simp [calls]
  have hb : afterOwn (s.log ++ [o]) = afterOwn s.log := by
    rw [afterOwn_snoc]
    rcases ho with rfl | ⟨rfl, -⟩ <;> cases afterOwn s.log <;> simp [calls]
  refine ⟨?_, ?_, fun hw => absurd hw ht, h.stopGo, ?_, fun _ _ hw => absurd hw ht, ?_, ?_⟩
  · show posts (s.log ++ [o]) = calls (s.log ++ [o]) ++ _
    rw [posts_append, calls_append, hp, hc]; simpa using h.order
  · show s.goAhead = true ↔ after (s.log ++ [o]) = none
    rw [ha]; exact h.go
  · intro c hc; exact h.few c (ha ▸ hc)
  · intro c hc; exact ⟨(h.own c (hb ▸ hc)).1, ht⟩
  · refine doneC_snoc h.doneC fun e he => ?_
    rcases ho with rfl | ⟨rfl, hg⟩
    · cases he
    · cases he
      refine ⟨?_, rfl⟩
      refine Classical.byContradiction fun hn => ?_
      have := h.go.mpr ((after_none _).mpr hn)
      rw [hg] at this; cases this

theorem Inv.head {s : St} (h : Inv s) : Inv (loopHead s) := by
  unfold loopHead
  by_cases hg : s.goAhead = true
  · rw [if_pos hg]
    have hn := h.go.mp hg
    refine ⟨h.order, h.go, fun _ hf => ?_, h.stopGo, ?_, ?_, ?_, h.doneC⟩
    · have : s.goAhead = false := hf
      rw [hg] at this; cases this
    · intro c hc; rw [show after s.log = none from hn] at hc; cases hc
    · intro c hc; rw [show after s.log = none from hn] at hc; cases hc
    · intro c hc; rw [show afterOwn s.log = none from after_none_own hn] at hc; cases hc
  · rw [if_neg hg]
    exact h.log .outside (.done SUCCESS) (.inr ⟨rfl, by simpa using hg⟩) (by simp)

theorem Inv.step {s s' : St} {m : Move} (h : Inv s) (hs : step s m = some s') : Inv s' := by
  cases m with
  | post n ok =>
    simp only [Loop.step, Option.some.injEq] at hs
    subst hs
    have ha : after (s.log ++ [.posted n]) = after s.log := by rw [after_snoc]; cases after s.log <;> simp [calls]
    have hb : afterOwn (s.log ++ [.posted n]) = afterOwn s.log := by rw [afterOwn_snoc]; cases afterOwn s.log <;> simp [calls]
    refine ⟨?_, ?_, ?_, ?_, ?_, ?_, ?_, ?_⟩
    · show posts (s.log ++ [.posted n]) = calls (s.log ++ [.posted n]) ++ waitingEvents (s.queue ++ [.ev n ok])
      rw [posts_append, calls_append, waiting_append, h.order]
      simp [posts, calls, waitingEvents]
    · show s.goAhead = true ↔ after (s.log ++ [.posted n]) = none
      rw [ha]; exact h.go
    · intro hw hg; simp [h.stop hw hg]
    · intro hm; exact h.stopGo (by simpa using hm)
    · intro c hc; exact h.few c (ha ▸ hc)
    · intro c hc; exact h.idle c (ha ▸ hc)
    · intro c hc; exact h.own c (hb ▸ hc)
    · exact doneC_snoc h.doneC (by simp)
  | cancel =>
    simp only [Loop.step] at hs
    split at hs <;> cases hs
    rename_i hw
    have ha : after (s.log ++ [.cancel true]) = some ((after s.log).getD []) := by rw [after_snoc]; cases after s.log <;> simp [calls]
    have hb : afterOwn (s.log ++ [.cancel true]) = some ((afterOwn s.log).getD []) := by rw [afterOwn_snoc]; cases afterOwn s.log <;> simp [calls]
    refine ⟨?_, ?_, fun hw' => absurd hw' hw, fun _ => rfl, ?_, fun _ _ hw' => absurd hw' hw, ?_, ?_⟩
    · show posts (s.log ++ [.cancel true]) = calls (s.log ++ [.cancel true]) ++ waitingEvents (s.queue ++ [.stop])
      rw [posts_append, calls_append, waiting_append, h.order]
      simp [posts, calls, waitingEvents]
    · show false = true ↔ after (s.log ++ [.cancel true]) = none
      rw [ha]; simp
    · intro c hc
      replace hc := ha.symm.trans hc
      cases hc
      cases hx : after s.log with
      | none => simp
      | some d => exact h.few d hx
    · intro c hc
      replace hc := hb.symm.trans hc
      cases hc
      refine ⟨?_, hw⟩
      cases hx : afterOwn s.log with
      | none => simp
      | some d => exact (h.own d hx).1
    · exact doneC_snoc h.doneC (by simp)
  | cancelOther =>
    simp only [Loop.step, Option.some.injEq] at hs
    subst hs
    have ha : after (s.log ++ [.cancel false]) = some ((after s.log).getD []) := by rw [after_snoc]; cases after s.log <;> simp [calls]
    have hb : afterOwn (s.log ++ [.cancel false]) = afterOwn s.log := by rw [afterOwn_snoc]; cases afterOwn s.log <;> simp [calls]
    refine ⟨?_, ?_, fun _ _ => by simp [cancel], fun _ => rfl, ?_, ?_, ?_, ?_⟩
    · show posts (s.log ++ [.cancel false]) = calls (s.log ++ [.cancel false]) ++ waitingEvents (s.queue ++ [.stop])
      rw [posts_append, calls_append, waiting_append, h.order]
      simp [posts, calls, waitingEvents]
    · show false = true ↔ after (s.log ++ [.cancel false]) = none
      rw [ha]; simp
    · intro c hc
      replace hc := ha.symm.trans hc
      cases hc
      cases hx : after s.log with
      | none => simp
      | some d => exact h.few d hx
    · intro c hc hw
      replace hc := ha.symm.trans hc
      cases hc
      cases hx : after s.log with
      | none => simp
      | some d => exact h.idle d hx hw
    · intro c hc
      replace hc := hb.symm.trans hc
      exact h.own c hc
    · exact doneC_snoc h.doneC (by simp)
  | start =>
    simp only [Loop.step] at hs
    split at hs <;> cases hs
    rename_i ho
    have h1 := h.log .outside .start (.inl rfl) (by simp)
    have e : ({ s with thread := .outside, log := s.log ++ [.start] } : St) = { s with log := s.log ++ [.start] } := by
      cases s; simp only [] at ho; subst ho; rfl
    rw [e] at h1
    exact h1.head
  | get =>
    simp only [Loop.step] at hs
    split at hs <;> cases hs
    rename_i m q hw hq
    have nocall (hown : afterOwn s.log = none) (n : Nat) (b : Bool) (hm : m = .ev n b) :
        Inv { s with queue := q, thread := .inside, log := s.log ++ [.call n] } := by
      refine ⟨?_, ?_, by simp, ?_, ?_, by simp, ?_, ?_⟩
      · show posts (s.log ++ [.call n]) = calls (s.log ++ [.call n]) ++ waitingEvents q
        rw [posts_append, calls_append, h.order, hq, hm]
        simp [posts, calls, waitingEvents]
      · show s.goAhead = true ↔ after (s.log ++ [.call n]) = none
        rw [h.go, after_snoc]
        cases after s.log <;> simp
      · intro hm'; exact h.stopGo (by rw [hq]; exact List.mem_cons_of_mem _ hm')
      · intro c hc
        rw [show after _ = _ from after_snoc _ _] at hc
        cases hx : after s.log with
        | none => rw [hx] at hc; simp at hc
        | some d =>
          rw [hx] at hc
          have := h.idle d hx hw
          subst this
          simp [calls] at hc
          subst hc; simp
      · intro c hc
        rw [show afterOwn _ = _ from afterOwn_snoc _ _, hown] at hc
        simp at hc
      · exact doneC_snoc h.doneC (by simp)
    have hown : afterOwn s.log = none := by
      cases hx : afterOwn s.log with
      | none => rfl
      | some d => exact absurd hw (h.own d hx).2
    unfold dispatch
    cases m with
    | ev n b => cases b <;> exact nocall hown n _ rfl
    | stop =>
      have hg : s.goAhead = false := h.stopGo (by rw [hq]; simp)
      refine Inv.log (s := { s with queue := q, thread := .inside }) ⟨?_, h.go, by simp, ?_, h.few, by simp, ?_, h.doneC⟩ .outside (.done SUCCESS) (.inr ⟨rfl, hg⟩) (by simp)
      · have := h.order; rw [hq] at this; simpa [waitingEvents] using this
      · intro _; exact hg
      · intro c hc; exact ⟨(h.own c hc).1, by simp⟩
  | portError =>
    simp only [Loop.step] at hs
    split at hs <;> cases hs
    exact h.head
  | leave =>
    simp only [Loop.step] at hs
    split at hs <;> cases hs
    exact h.head

theorem Reach.inv {s : St} (h : Reach s) : Inv s := by
  induction h with
  | init => refine ⟨rfl, by simp [initial, after], by simp [initial], by simp [initial], by simp [initial, after], by simp [initial, after], by simp [initial, afterOwn], ?_⟩
            intro p e post hl; simp [initial] at hl
  | step _ hs ih => exact ih.step hs

theorem after_split (p : List Obs) (b : Bool) (mid : List Obs) : ∃ c, after (p ++ .cancel b :: mid) = some (c ++ calls mid) := by
  induction p with
  | nil => exact ⟨[], rfl⟩
  | cons x p ih =>
    cases x with
    | cancel b' => exact ⟨calls p, by simp [after, calls_append, show ∀ l, calls (.cancel b :: l) = calls l from fun _ => rfl]⟩
    | _ => simpa only [List.cons_append, after] using ih

theorem afterOwn_split (p mid : List Obs) : ∃ c, afterOwn (p ++ .cancel true :: mid) = some (c ++ calls mid) := by
  induction p with
  | nil => exact ⟨[], rfl⟩
  | cons x p ih =>
    cases x with
    | cancel b' =>
      cases b' with
      | true => exact ⟨calls p, by simp [afterOwn, calls_append, show ∀ l, calls (.cancel true :: l) = calls l from fun _ => rfl]⟩
      | false => simpa only [List.cons_append, afterOwn] using ih
    | _ => simpa only [List.cons_append, afterOwn] using ih

/-! ### Theorems -/

/-- C53.  Every packet leads to one call of its callback, in the order of queueing; what was not called yet is still in the completion
port.  For every use of the loop. -/
theorem dispatched_in_order {s : St} (h : Reach s) : posts s.log = calls s.log ++ waitingEvents s.queue := h.inv.order

/-- C53.  As long as the loop is not cancelled and runs, the next packet is called. -/
theorem loop_goes_on {s : St} (h : Reach s) (hw : s.thread = .waiting) (hc : ¬ Cancelled s.log) {n : Nat} {ns : List Nat}
    (hq : waitingEvents s.queue = n :: ns) : ∃ s', step s .get = some s' ∧ s'.log = s.log ++ [.call n] ∧ waitingEvents s'.queue = ns := by
  have hg := h.inv.go.mpr ((after_none _).mpr hc)
  cases hqq : s.queue with
  | nil => rw [hqq] at hq; cases hq
  | cons m q =>
    cases m with
    | stop =>
      have := h.inv.stopGo (by rw [hqq]; simp)
      rw [hg] at this; cases this
    | ev k b =>
      rw [hqq] at hq
      have hq' : k :: waitingEvents q = n :: ns := hq
      injection hq' with h1 h2
      subst h1
      refine ⟨dispatch { s with queue := q } (.ev k b), ?_, ?_, ?_⟩
      · unfold step; simp only [hw, hqq]
      · cases b <;> rfl
      · cases b <;> exact h2

theorem running_snoc (l : List Obs) (o : Obs) : running (l ++ [o]) = match o with
    | .start => true
    | .done _ => false
    | _ => running l := by
  unfold running
  rw [List.foldl_append]
  cases o <;> rfl

theorem running_head (s : St) (hr : running s.log = true) : running (loopHead s).log = true ↔ (loopHead s).thread ≠ .outside := by
  unfold loopHead
  split
  · simp [hr]
  · simp [running_snoc]

theorem Reach.runs {s : St} (h : Reach s) : running s.log = true ↔ s.thread ≠ .outside := by
  induction h with
  | init => decide
  | @step s s' m h hs ih =>
    cases m with
    | post n ok => cases hs; simp only [running_snoc]; exact ih
    | cancel =>
      simp only [Loop.step] at hs
      split at hs
      · cases hs
      · cases hs; simp only [Loop.cancel, running_snoc]; exact ih
    | cancelOther => cases hs; simp only [Loop.cancel, running_snoc]; exact ih
    | start =>
      simp only [Loop.step] at hs
      split at hs
      · cases hs; exact running_head _ (by simp only [running_snoc])
      · cases hs
    | get =>
      simp only [Loop.step] at hs
      split at hs
      · next hw _ =>
        have hr := ih.mpr (by rw [hw]; simp)
        cases hs
        unfold dispatch
        split <;> simp [running_snoc, hr]
      · cases hs
    | portError =>
      simp only [Loop.step] at hs
      split at hs
      · next hw => cases hs; exact running_head _ (ih.mpr (by rw [hw]; simp))
      · cases hs
    | leave =>
      simp only [Loop.step] at hs
      split at hs
      · next hw => cases hs; exact running_head _ (ih.mpr (by rw [hw]; simp))
      · cases hs

/-- C53.  While `cio_eventloop_run` is executing it never hangs: either a callback is being executed, and when it returns the loop goes on, or the next packet is
taken out as soon as there is one; and when it is not executing it can be called. -/
theorem loop_never_stuck {s : St} (h : Reach s) :
    (running s.log = true → (∃ s', step s .leave = some s') ∨ ∀ m q, s.queue = m :: q → ∃ s', step s .get = some s' ∧ s'.queue = q) ∧
    (running s.log = false → ∃ s', step s .start = some s' ∧ (¬ Cancelled s.log → running s'.log = true)) := by
  constructor
  · intro hr
    have ht := h.runs.mp hr
    cases hth : s.thread with
    | outside => exact absurd hth ht
    | inside => exact .inl ⟨loopHead s, by simp only [step, hth, if_true]⟩
    | waiting =>
      refine .inr fun m q hq => ⟨dispatch { s with queue := q } m, by simp only [step, hth, hq], ?_⟩
      cases m with
      | stop => rfl
      | ev n b => cases b <;> rfl
  · intro hr
    have ht : s.thread = .outside := Classical.byContradiction fun hn => by rw [h.runs.mpr hn] at hr; cases hr
    refine ⟨loopHead { s with log := s.log ++ [.start] }, by simp only [step, ht, if_true], fun hc => ?_⟩
    have hg := h.inv.go.mpr ((after_none _).mpr hc)
    simp only [loopHead, hg, if_true, running_snoc]

/-- C53.  A loop that is not cancelled goes on after each callback, and after an error of the completion port. -/
theorem loop_waits_again {s s' : St} (h : Reach s) (hc : ¬ Cancelled s.log) {m : Move} (hm : m = .leave ∨ m = .portError) (hs : step s m = some s') :
    running s'.log = true ∧ s'.thread = .waiting := by
  have hg := h.inv.go.mpr ((after_none _).mpr hc)
  have e : loopHead s = { s with thread := .waiting } := by simp only [loopHead, hg, if_true]
  have key : s.thread ≠ .outside → s' = loopHead s → running s'.log = true ∧ s'.thread = .waiting := by
    rintro ht rfl
    rw [e]; exact ⟨h.runs.mpr ht, rfl⟩
  rcases hm with rfl | rfl <;> (simp only [step] at hs; split at hs <;> cases hs) <;> (next hw => exact key (by rw [hw]; simp) rfl)

/-- C53.  `cio_eventloop_run` returns, with success, only when the loop was cancelled. -/
theorem returns_only_when_cancelled {s : St} (h : Reach s) {p post : List Obs} {e : Err} (hl : s.log = p ++ .done e :: post) :
    Cancelled p ∧ e = SUCCESS := h.inv.doneC p e post hl

/-- C53.  After a cancellation at most one more callback is called (one whose packet was being taken out), and none if it was the
thread of the loop that cancelled. -/
theorem silent_after_cancel {s : St} (h : Reach s) {p mid : List Obs} {own : Bool} (hl : s.log = p ++ .cancel own :: mid) :
    (calls mid).length ≤ 1 ∧ (own = true → calls mid = []) := by
  constructor
  · obtain ⟨c, hc⟩ := after_split p own mid
    rw [← hl] at hc
    have := h.inv.few _ hc
    simp only [List.length_append] at this
    omega
  · rintro rfl
    obtain ⟨c, hc⟩ := afterOwn_split p mid
    rw [← hl] at hc
    have := (h.inv.own _ hc).1
    exact (List.append_eq_nil_iff.mp this).2

/-- C53.  A cancelled loop ends: it is never left waiting for a packet that does not come, and when the packet is taken out (and its
callback, if any, has returned) `cio_eventloop_run` returns. -/
theorem cancel_ends_loop {s : St} (h : Reach s) (hc : Cancelled s.log) :
    (s.thread = .inside → ∃ s', step s .leave = some s' ∧ s'.log = s.log ++ [.done SUCCESS] ∧ s'.thread = .outside) ∧
    (s.thread = .waiting → ∃ s', step s .get = some s' ∧ ((s'.thread = .outside ∧ s'.log = s.log ++ [.done SUCCESS]) ∨
      (∃ n, s'.log = s.log ++ [.call n] ∧ ∃ s'', step s' .leave = some s'' ∧ s''.thread = .outside ∧ s''.log = s'.log ++ [.done SUCCESS]))) := by
  have hg : s.goAhead = false := by
    cases hx : s.goAhead with
    | false => rfl
    | true => exact absurd hc ((after_none _).mp (h.inv.go.mp hx))
  constructor
  · intro hi
    exact ⟨_, by simp [step, hi]; rfl, by simp [loopHead, hg], by simp [loopHead, hg]⟩
  · intro hw
    have hst := h.inv.stop hw hg
    cases hq : s.queue with
    | nil => rw [hq] at hst; simp at hst
    | cons m q =>
      cases m with
      | stop => exact ⟨{ s with queue := q, thread := .outside, log := s.log ++ [.done SUCCESS] }, by simp [step, hw, hq, dispatch], .inl ⟨rfl, rfl⟩⟩
      | ev n b =>
        refine ⟨{ s with queue := q, thread := .inside, log := s.log ++ [.call n] }, by cases b <;> simp [step, hw, hq, dispatch], .inr ⟨n, rfl, ?_⟩⟩
        exact ⟨{ s with queue := q, thread := .outside, log := s.log ++ [.call n] ++ [.done SUCCESS] }, by simp [step, loopHead, hg], rfl, rfl⟩

/-- C53, a difference to the other ports: once cancelled, every further `cio_eventloop_run` returns at once and calls nothing. -/
theorem cancelled_for_ever {s : St} (h : Reach s) (hc : Cancelled s.log) (ho : s.thread = .outside) :
    ∃ s', step s .start = some s' ∧ s'.thread = .outside ∧ s'.log = s.log ++ [.start, .done SUCCESS] := by
  have hg : s.goAhead = false := by
    cases hx : s.goAhead with
    | false => rfl
    | true => exact absurd hc ((after_none _).mp (h.inv.go.mp hx))
  exact ⟨{ s with thread := .outside, log := s.log ++ [.start, .done SUCCESS] }, by simp [step, ho, loopHead, hg], rfl, rfl⟩

/-- C53: a loop that could not be initialised has left nothing behind, one that could has both resources. -/
theorem init_all_or_nothing (port : Option Err) (wsa : Int) :
    ((init port wsa).1 = SUCCESS → (∀ e, port = some e → e ≠ 0) → port = none ∧ wsa = 0 ∧ (init port wsa).2 = ⟨true, true⟩) ∧
    ((init port wsa).1 ≠ SUCCESS → (init port wsa).2 = ⟨false, false⟩) := by
  unfold init
  cases port with
  | some e =>
    refine ⟨fun h hn => absurd ?_ (hn e rfl), fun _ => rfl⟩
    have h' : (-e : Int) = 0 := h
    exact Int.neg_eq_zero.mp h'
  | none =>
    by_cases hw : wsa = 0
    · subst hw; simp
    · simp only [hw, ne_eq, not_false_eq_true, if_true]
      exact ⟨fun h _ => absurd h hw, fun _ => trivial⟩

/-- C53: errors are negative everywhere; but the error of `WSAStartup` is returned as it is, as a positive number. -/
theorem init_error_positive : (init none 10091).1 = 10091 := by decide

/-! ### Examples -/

theorem reach_run (ms : List Move) : ∀ {s s' : St}, Reach s → run s ms = some s' → Reach s' := by
  induction ms with
  | nil => intro s s' h hr; cases hr; exact h
  | cons x ms ih =>
    intro s s' h hr
    rw [run, Option.bind_eq_some_iff] at hr
    obtain ⟨t, h1, h2⟩ := hr
    exact ih (.step h h1) h2

/-- Three packets, one of a failed operation; another thread cancels the loop while it waits, one more callback is called. -/
def exampleMoves : List Move := [.post 1 true, .post 2 false, .start, .get, .leave, .get, .post 3 true, .leave, .portError, .cancelOther, .get, .leave, .start]

example : ∃ s, Reach s ∧ calls s.log = [1, 2, 3] ∧ Cancelled s.log ∧ s.thread = .outside ∧ s.queue = [.stop] ∧
    s.log.getLast? = some (.done SUCCESS) :=
  ⟨(run initial exampleMoves).getD initial, reach_run exampleMoves .init (by decide), by decide, ⟨false, by decide⟩, by decide, by decide, by decide⟩

/-- A running loop with two packets, as `loop_goes_on` needs it. -/
example : ∃ s, Reach s ∧ s.thread = .waiting ∧ ¬ Cancelled s.log ∧ waitingEvents s.queue = [4, 5] :=
  ⟨(run initial [.start, .post 4 true, .post 5 false]).getD initial, reach_run [.start, .post 4 true, .post 5 false] .init (by decide), by decide,
    by rintro ⟨_ | _, h⟩ <;> revert h <;> decide, by decide⟩

end Cio.Windows.Loop
