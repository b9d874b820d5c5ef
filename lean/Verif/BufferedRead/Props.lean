import Verif.BufferedRead.Inv
/-
C12, C13, C14: buffered reads.

`Reach H mem w`: the stream, created over the read buffer memory `mem` and with read handlers behaving as `H`, can get into the state `w`.
`w.received` is everything the transport has delivered, `w.consumed` everything the user has consumed, `w.calls` all handler invocations.
`w.misuse = false`: the user never consumed more than was there and never read while another read was outstanding.
-/
namespace Cio.BufferedRead
open Memmem (IsFirst OccursAt memmem_correct)

def Reach (H : Handler) (mem : List UInt8) (w : World) : Prop := ∃ es, run H (init mem) es = some w

theorem reach_inv (H : Handler) (mem : List UInt8) (w : World) (hmem : mem ≠ []) (h : Reach H mem w) (hm : w.misuse = false) :
    Inv mem.length w := by
  obtain ⟨es, he⟩ := h
  exact run_inv mem.length (by cases mem with | nil => exact absurd rfl hmem | cons _ _ => simp) H es (init mem) w (init_inv mem) he hm

/-- C12: nothing is lost, duplicated or reordered: what was consumed followed by what is still in the buffer is what was received;
the buffer is never overrun; memory is never accessed out of bounds. -/
theorem read_stream_preserved (H : Handler) (mem : List UInt8) (w : World) (hmem : mem ≠ []) (h : Reach H mem w) (hm : w.misuse = false) :
    w.consumed ++ w.rb.unread = w.received ∧ w.rb.mem.length = mem.length ∧ w.rb.fetch ≤ w.rb.add ∧ w.rb.add ≤ mem.length ∧
    w.ub = false := by
  have i := reach_inv H mem w hmem h hm
  exact ⟨i.core.stream, i.core.rb.1, i.core.rb.2.1, i.core.rb.2.2, i.core.ub⟩

/-- C12: what a handler is offered is the piece of the received stream that follows what was consumed until then. -/
theorem read_handler_sees_stream (H : Handler) (mem : List UInt8) (w : World) (hmem : mem ≠ []) (h : Reach H mem w) (hm : w.misuse = false)
    (c : Call) (hc : c ∈ w.calls) :
    c.num ≤ c.view.length ∧ c.view.take c.num = (w.received.drop c.consumed.length).take c.num ∧ c.consumed <+: w.received := by
  have i := reach_inv H mem w hmem h hm
  obtain ⟨⟨g1, g2, g3⟩, g4, g5⟩ := i.core.calls c hc
  have hn : c.num ≤ c.view.length := by
    by_cases he : c.err = SUCCESS
    · rw [if_pos he] at g3
      cases hj : c.job with
      | atLeast n => rw [hj] at g3; simp only at g3; omega
      | atMost n => rw [hj] at g3; simp only at g3; omega
      | «until» d =>
        rw [hj] at g3
        simp only at g3
        obtain ⟨k, hk, hnum⟩ := g3
        have := ((Memmem.occursAt_iff _ _ _).mp hk.1).1
        omega
    · rw [if_neg he] at g3; omega
  obtain ⟨t, ht⟩ := g4
  refine ⟨hn, ?_, ?_⟩
  · rw [← ht, ← g1, List.append_assoc, List.drop_left, List.take_append_of_le_length hn]
  · rw [← ht, ← g1, List.append_assoc]; exact List.prefix_append _ _

/-- C12: every accepted read gets its handler called exactly once, unless the user replaced it by a newer read (only possible from
within the handler or against the rules), or is still pending. -/
theorem read_handler_once (H : Handler) (mem : List UInt8) (w : World) (hmem : mem ≠ []) (h : Reach H mem w) (hm : w.misuse = false) :
    w.accepted = w.calls.length + w.overwritten + (if w.job.isSome then 1 else 0) :=
  (reach_inv H mem w hmem h hm).core.count

/-- C13: `read_until` reports the shortest prefix of the unread stream that ends with the delimiter. -/
theorem read_until_correct (H : Handler) (mem : List UInt8) (w : World) (hmem : mem ≠ []) (h : Reach H mem w) (hm : w.misuse = false)
    (c : Call) (hc : c ∈ w.calls) (d : List UInt8) (hj : c.job = .until d) (he : c.err = SUCCESS) :
    d <:+ c.view.take c.num ∧ c.num ≤ c.view.length ∧ ∀ k, k < c.num → ¬ d <:+ c.view.take k := by
  have i := reach_inv H mem w hmem h hm
  obtain ⟨⟨g1, g2, g3⟩, g4, g5⟩ := i.core.calls c hc
  rw [if_pos he, hj] at g3
  simp only at g3
  obtain ⟨p, ⟨hp, hfirst⟩, hnum⟩ := g3
  obtain ⟨pre, post, e1, e2⟩ := hp
  refine ⟨⟨pre, ?_⟩, ?_, ?_⟩
  · rw [hnum, e1, ← e2, ← List.length_append, List.take_left]
  · rw [hnum, e1]; simp; omega
  · rintro k hk ⟨q, hq⟩
    have hqk : q.length + d.length ≤ k := by
      have := congrArg List.length hq
      simp at this; omega
    refine hfirst q.length (by omega) ⟨q, c.view.drop k, ?_, rfl⟩
    rw [hq, List.take_append_drop]

/-- C13: an error reported by a read is either one the transport reported, or `read_until` found no delimiter in a full buffer. -/
theorem read_error_truthful (H : Handler) (mem : List UInt8) (w : World) (hmem : mem ≠ []) (h : Reach H mem w) (hm : w.misuse = false)
    (c : Call) (hc : c ∈ w.calls) (he : c.err ≠ SUCCESS) :
    c.num = 0 ∧ (c.err ∈ w.transportErrs ∨
      (c.err = MESSAGE_TOO_LONG ∧ c.view.length = mem.length ∧ ∃ d, c.job = .until d ∧ ∀ k, ¬ d <:+ c.view.take k)) := by
  have i := reach_inv H mem w hmem h hm
  obtain ⟨⟨g1, g2, g3⟩, g4, g5⟩ := i.core.calls c hc
  rw [if_neg he] at g3
  refine ⟨g3.1, ?_⟩
  rcases g3.2 with h1 | ⟨h1, h2, d, h3, h4⟩
  · exact Or.inl h1
  · refine Or.inr ⟨h1, h2, d, h3, ?_⟩
    rintro k ⟨q, hq⟩
    exact h4 q.length ⟨q, c.view.drop k, by rw [hq, List.take_append_drop], rfl⟩

/-- C14: `read_at_least n` reports exactly `n` bytes, all of them available. -/
theorem read_at_least_correct (H : Handler) (mem : List UInt8) (w : World) (hmem : mem ≠ []) (h : Reach H mem w) (hm : w.misuse = false)
    (c : Call) (hc : c ∈ w.calls) (n : Nat) (hj : c.job = .atLeast n) (he : c.err = SUCCESS) : c.num = n ∧ n ≤ c.view.length := by
  obtain ⟨⟨g1, g2, g3⟩, g4, g5⟩ := (reach_inv H mem w hmem h hm).core.calls c hc
  rw [if_pos he, hj] at g3
  exact g3

/-- C14: `read_at_most n` reports between 1 and `n` bytes: as many as there are, up to `n`. -/
theorem read_at_most_correct (H : Handler) (mem : List UInt8) (w : World) (hmem : mem ≠ []) (h : Reach H mem w) (hm : w.misuse = false)
    (c : Call) (hc : c ∈ w.calls) (n : Nat) (hj : c.job = .atMost n) (he : c.err = SUCCESS) :
    c.num ≤ n ∧ c.num = min n c.view.length ∧ (0 < n → 1 ≤ c.num) := by
  obtain ⟨⟨g1, g2, g3⟩, g4, g5⟩ := (reach_inv H mem w hmem h hm).core.calls c hc
  rw [if_pos he, hj] at g3
  simp only at g3
  have : c.view.length ≠ 0 := by intro e; exact g3.2 (List.eq_nil_of_length_eq_zero e)
  omega

/-- C14: a `read_at_least` of more than the buffer can hold is refused and changes nothing but the count of refusals. -/
theorem read_at_least_refused (w : World) (n : Nat) (hn : n > w.rb.mem.length) :
    act w (.read (.atLeast n)) = { w with refused := w.refused + 1 } := by
  simp [act, read, ReadBuffer.size, hn]

/-- C13, C14: while the transport is being waited for, the pending read cannot be satisfied with what is in the buffer, and there is room
for more data: a read is never kept waiting although it could complete. -/
theorem read_waits_only_if_unsatisfied (H : Handler) (mem : List UInt8) (w : World) (hmem : mem ≠ []) (h : Reach H mem w)
    (hm : w.misuse = false) (hw : w.waiting = true) :
    w.rb.add < mem.length ∧ ∃ j, w.job = some j ∧
      match j with
      | .atLeast n => w.rb.unread.length < n
      | .until d => ∀ k, ¬ d <:+ w.rb.unread.take k
      | .atMost _ => w.rb.unread = [] := by
  have i := reach_inv H mem w hmem h hm
  obtain ⟨h1, h2, j, h3, h4⟩ := i.wait hw
  refine ⟨by simp only [ReadBuffer.spaceAvailable, i.core.rb.1] at h2; omega, j, h3, ?_⟩
  cases j with
  | atLeast n => simp only [Satisfied] at h4; simp only; omega
  | «until» d =>
    rintro k ⟨q, hq⟩
    exact h4 ⟨q.length, q, w.rb.unread.drop k, by rw [hq, List.take_append_drop], rfl⟩
  | atMost n => cases hu : w.rb.unread with
    | nil => rfl
    | cons a l => exact absurd (by simp [Satisfied, hu]) h4

/-! ### The usual way of reading: each handler consumes what it was given -/

def isConsume : UAct → Bool
  | .consume _ => true
  | _ => false

/-- The handler consumes what it was given, then does anything but consume. -/
def ConsumesGiven (H : Handler) : Prop :=
  ∀ w c, w.calls.getLast? = some c → ∃ rest, H w = .consume c.num :: rest ∧ ∀ a ∈ rest, isConsume a = false

def noConsume : Ev → Prop
  | .user a => isConsume a = false
  | _ => True

def delivered (cs : List Call) : List UInt8 := cs.flatMap fun c => c.view.take c.num

theorem act_noConsume (w : World) (a : UAct) (h : isConsume a = false) : (act w a).consumed = w.consumed ∧ (act w a).calls = w.calls := by
  cases a with
  | consume n => cases h
  | close => simp only [act, close]; split <;> exact ⟨rfl, rfl⟩
  | read j =>
    simp only [act, read]
    cases j <;> simp only [read.go]
    · split <;> exact ⟨rfl, rfl⟩
    · exact ⟨trivial, trivial⟩
    · exact ⟨trivial, trivial⟩

theorem acts_noConsume (as : List UAct) (w : World) (h : ∀ a ∈ as, isConsume a = false) :
    (as.foldl act w).consumed = w.consumed ∧ (as.foldl act w).calls = w.calls := by
  induction as generalizing w with
  | nil => exact ⟨rfl, rfl⟩
  | cons a as ih =>
    obtain ⟨h1, h2⟩ := act_noConsume w a (h a (by simp))
    obtain ⟨h3, h4⟩ := ih (act w a) (fun b hb => h b (by simp [hb]))
    simp only [List.foldl_cons]
    exact ⟨by rw [h3, h1], by rw [h4, h2]⟩

theorem callHandler_delivered (H : Handler) (hH : ConsumesGiven H) (w : World) (j : Job) (err : Err) (num : Nat)
    (h : delivered w.calls = w.consumed) :
    delivered (callHandler H w j err num).1.calls = (callHandler H w j err num).1.consumed := by
  let w1 : World := { w with job := none, callbackIsRunning := w.callbackIsRunning + 1,
                             calls := w.calls ++ [⟨j, err, num, w.rb.unread, w.consumed, w.received, w.rb.fetch⟩] }
  obtain ⟨rest, hr, hn⟩ := hH w1 ⟨j, err, num, w.rb.unread, w.consumed, w.received, w.rb.fetch⟩ (by simp [w1])
  have key : delivered ((H w1).foldl act w1).calls = ((H w1).foldl act w1).consumed := by
    rw [hr]
    simp only [List.foldl_cons]
    obtain ⟨a1, a2⟩ := acts_noConsume rest (act w1 (.consume num)) hn
    rw [a1, a2]
    show delivered (w.calls ++ [_]) = w.consumed ++ w.rb.unread.take num
    rw [← h]
    simp [delivered]
  simp only [callHandler]
  split <;> exact key

theorem runJob_delivered (H : Handler) (hH : ConsumesGiven H) (w : World) (j : Job) (h : delivered w.calls = w.consumed) :
    delivered (runJob H w j).1.calls = (runJob H w j).1.consumed := by
  unfold runJob
  split
  · exact callHandler_delivered H hH _ _ _ _ h
  · cases j <;> simp only <;> split <;> first | exact callHandler_delivered H hH _ _ _ _ h | exact h

theorem readSome_delivered (H : Handler) (hH : ConsumesGiven H) (w : World) (j : Job) (rs : Err) (h : delivered w.calls = w.consumed) :
    delivered (readSome H w j rs).calls = (readSome H w j rs).consumed := by
  unfold readSome
  split
  · exact callHandler_delivered H hH _ _ _ _ h
  · exact h

theorem step_delivered (H : Handler) (hH : ConsumesGiven H) (w w' : World) (e : Ev) (hs : step H w e = some w') (hn : noConsume e)
    (h : delivered w.calls = w.consumed) : delivered w'.calls = w'.consumed := by
  cases e with
  | user a =>
    simp only [step] at hs
    split at hs
    · cases hs
    · obtain ⟨h1, h2⟩ := act_noConsume w a hn
      cases a <;> simp only [Option.some.injEq] at hs <;> subst hs
      · cases hn
      · simp only [h1, h2]; exact h
      · rw [h1, h2]; exact h
  | loop rs =>
    simp only [step] at hs
    split at hs
    · simp only [Option.some.injEq] at hs
      subst hs
      unfold loopIter
      split
      · exact h
      · rename_i j hj
        have h1 := runJob_delivered H hH w j h
        split <;> rename_i he <;> rw [he] at h1
        · show delivered (fillBuffer _ _ _ _).calls = (fillBuffer _ _ _ _).consumed
          unfold fillBuffer
          split
          · split
            · exact runJob_delivered H hH _ _ h1
            · exact readSome_delivered H hH _ _ _ h1
          · exact readSome_delivered H hH _ _ _ h1
        · exact h1
        · exact h1
    · cases hs
  | deliver bs =>
    simp only [step] at hs
    split at hs
    · simp only [Option.some.injEq] at hs; subst hs; exact h
    · cases hs
  | fail err =>
    simp only [step] at hs
    split at hs
    · simp only [Option.some.injEq] at hs; subst hs; exact h
    · cases hs

theorem run_delivered (H : Handler) (hH : ConsumesGiven H) (es : List Ev) (w w' : World) (hr : run H w es = some w')
    (hn : ∀ e ∈ es, noConsume e) (h : delivered w.calls = w.consumed) : delivered w'.calls = w'.consumed := by
  induction es generalizing w with
  | nil => simp only [run, Option.some.injEq] at hr; subst hr; exact h
  | cons e es ih =>
    simp only [run] at hr
    cases hs : step H w e with
    | none => rw [hs] at hr; simp at hr
    | some v =>
      rw [hs] at hr
      exact ih v hr (fun x hx => hn x (by simp [hx])) (step_delivered H hH w v e hs (hn e (by simp)) h)

/-- C12: if handlers consume what they are given, the concatenation of what is handed to the handlers, followed by what is still
unread, is exactly the stream the transport delivered. -/
theorem read_delivers_stream (H : Handler) (hH : ConsumesGiven H) (mem : List UInt8) (es : List Ev) (w : World) (hmem : mem ≠ [])
    (hr : run H (init mem) es = some w) (hn : ∀ e ∈ es, noConsume e) (hm : w.misuse = false) :
    delivered w.calls ++ w.rb.unread = w.received := by
  rw [run_delivered H hH es (init mem) w hr hn rfl]
  exact (read_stream_preserved H mem w hmem ⟨es, hr⟩ hm).1

/-! ### Is an accepted read always under way? -/

/-- C12, full claim: whenever nothing is executing and the stream is not closed, a pending read is being waited for at the transport. -/
def PendingIsUnderWay (w : World) : Prop := w.looping = false → w.closed = false → w.job ≠ none → w.waiting = true

/-- The handler reads no further after an error. -/
def QuietOnError (H : Handler) : Prop := ∀ w c, w.calls.getLast? = some c → c.err ≠ SUCCESS → ∀ a ∈ H w, ∀ j, a ≠ .read j

theorem acts_noRead (as : List UAct) (w : World) (h : ∀ a ∈ as, ∀ j, a ≠ .read j) (hj : w.job = none) : (as.foldl act w).job = none := by
  induction as generalizing w with
  | nil => exact hj
  | cons a as ih =>
    apply ih
    · intro b hb; exact h b (by simp [hb])
    · cases a with
      | consume n => exact hj
      | close => simp only [act, close]; split <;> exact hj
      | read j => exact absurd rfl (h _ (by simp) j)

theorem callHandler_quiet (H : Handler) (hH : QuietOnError H) (w : World) (j : Job) (err : Err) (num : Nat) (he : err ≠ SUCCESS) :
    (callHandler H w j err num).1.job = none := by
  let w1 : World := { w with job := none, callbackIsRunning := w.callbackIsRunning + 1,
                             calls := w.calls ++ [⟨j, err, num, w.rb.unread, w.consumed, w.received, w.rb.fetch⟩] }
  have key : ((H w1).foldl act w1).job = none :=
    acts_noRead _ w1 (hH w1 ⟨j, err, num, w.rb.unread, w.consumed, w.received, w.rb.fetch⟩ (by simp [w1]) he) rfl
  simp only [callHandler]
  split <;> exact key

theorem readSome_quiet (H : Handler) (hH : QuietOnError H) (w : World) (j : Job) (rs : Err) :
    (readSome H w j rs).job = none ∨ (readSome H w j rs).waiting = true := by
  unfold readSome
  split
  · rename_i h; exact Or.inl (callHandler_quiet H hH _ _ _ _ h)
  · exact Or.inr rfl

theorem step_underWay (sz : Nat) (H : Handler) (hH : QuietOnError H) (w w' : World) (e : Ev) (hi : Inv sz w)
    (h : PendingIsUnderWay w) (hs : step H w e = some w') (hm : w'.misuse = false) : PendingIsUnderWay w' := by
  cases e with
  | user a =>
    simp only [step] at hs
    split at hs
    · cases hs
    · rename_i hg
      simp only [Bool.or_eq_true, not_or, Bool.not_eq_true] at hg
      cases a with
      | consume n => simp only [Option.some.injEq] at hs; subst hs; exact h
      | close =>
        simp only [Option.some.injEq] at hs; subst hs
        intro _ h2
        simp [act, close, hi.cb] at h2
      | read j =>
        simp only [Option.some.injEq] at hs; subst hs
        have hcb := hi.cb
        have hgo : ∀ j, (read.go w j).looping = true := by intro j; simp [read.go, hcb]
        intro h1
        cases j with
        | atLeast n =>
          simp only [act, read] at h1 ⊢
          split at h1
          · rename_i hn; rw [if_pos hn]; exact h h1
          · rw [hgo] at h1; cases h1
        | «until» d => exact absurd (show (read.go w (.until d)).looping = false from h1) (by rw [hgo]; simp)
        | atMost n => exact absurd (show (read.go w (.atMost n)).looping = false from h1) (by rw [hgo]; simp)
  | loop rs =>
    simp only [step] at hs
    split at hs
    · rename_i hl
      simp only [Option.some.injEq] at hs
      subst hs
      unfold loopIter at hm ⊢
      cases hj : w.job with
      | none => simp only; intro _ _ h3; exact absurd rfl h3
      | some j =>
        simp only [hj] at hm ⊢
        have hr := runJob_core sz H w j hi.core hj hi.cb
        have hag := runJob_again H w j
        have hmis := misuse_runJob H w j
        revert hm hr hag
        generalize runJob H w j = r
        obtain ⟨w1, st⟩ := r
        intro hm hr hag
        cases st with
        | again =>
          have e : w1 = w := hag rfl
          simp only at hm ⊢
          intro _ _ hjob
          have hq : (fillBuffer H w1 j rs).job = none ∨ (fillBuffer H w1 j rs).waiting = true := by
            unfold fillBuffer
            split
            · split
              · left
                have : runJob H { w1 with lastError := MESSAGE_TOO_LONG } j =
                    callHandler H { w1 with lastError := MESSAGE_TOO_LONG } j MESSAGE_TOO_LONG 0 := by
                  simp [runJob, MESSAGE_TOO_LONG, SUCCESS]
                rw [this]
                exact callHandler_quiet H hH _ _ _ _ (by simp [MESSAGE_TOO_LONG, SUCCESS])
              · exact readSome_quiet H hH _ _ _
            · exact readSome_quiet H hH _ _ _
          rcases hq with hq | hq
          · exact absurd hq hjob
          · exact hq
        | closed =>
          simp only at hm ⊢
          intro _ h2
          have := ((hr hm).2 (by simp)).2.2.2.2.2.2 (by simp)
          exact absurd h2 (by show w1.closed ≠ false; rw [show w1.closed = true from this]; simp)
        | «open» =>
          simp only at hm ⊢
          intro h1
          have := ((hr hm).2 (by simp)).2.2.2.2.1
          rw [show w1.looping = w.looping from this, hl] at h1; cases h1
    · cases hs
  | deliver bs =>
    simp only [step] at hs
    split at hs
    · simp only [Option.some.injEq] at hs; subst hs; intro h1; cases h1
    · cases hs
  | fail err =>
    simp only [step] at hs
    split at hs
    · simp only [Option.some.injEq] at hs; subst hs; intro h1; cases h1
    · cases hs

theorem run_underWay (sz : Nat) (hpos : 0 < sz) (H : Handler) (hH : QuietOnError H) (es : List Ev) (w w' : World) (hi : Inv sz w)
    (h : PendingIsUnderWay w) (hr : run H w es = some w') (hm : w'.misuse = false) : PendingIsUnderWay w' := by
  induction es generalizing w with
  | nil => simp only [run, Option.some.injEq] at hr; subst hr; exact h
  | cons e es ih =>
    simp only [run] at hr
    cases hs : step H w e with
    | none => rw [hs] at hr; simp at hr
    | some v =>
      rw [hs] at hr
      have hv : v.misuse = false := by
        cases hv : v.misuse with
        | false => rfl
        | true => rw [run_misuse H es v w' hr hv] at hm; cases hm
      exact ih v (step_inv sz hpos H w v e hi hs hv) (step_underWay sz H hH w v e hi h hs hv) hr

/-- C12, partial: a pending read is under way, provided handlers start no new read when they are told of an error.  Missing: the same for
handlers that do; it does not hold, see `pending_read_may_be_forgotten`. -/
theorem pending_read_under_way_partial (H : Handler) (hH : QuietOnError H) (mem : List UInt8) (w : World) (hmem : mem ≠ [])
    (h : Reach H mem w) (hm : w.misuse = false) : PendingIsUnderWay w := by
  obtain ⟨es, he⟩ := h
  exact run_underWay mem.length (by cases mem with | nil => exact absurd rfl hmem | cons _ _ => simp) H hH es (init mem) w (init_inv mem)
    (by intro _ _ h3; exact absurd rfl h3) he hm

/-- A handler that consumes everything and reads on, whatever happened. -/
def readOn : Handler := fun w => [.consume w.rb.unreadBytes, .read (.until [10])]

/-- The code forgets a read that is issued from a handler which was told that the message is too long: after reading four bytes without a
line feed into a buffer of four bytes, the handler consumes them and asks for the next line, but the transport is never asked again. -/
theorem pending_read_may_be_forgotten :
    ∃ H mem w, mem ≠ [] ∧ Reach H mem w ∧ w.misuse = false ∧ ¬ PendingIsUnderWay w := by
  refine ⟨readOn, [0, 0, 0, 0], _, by simp, ⟨[.user (.read (.until [10])), .loop 0, .deliver [1, 2, 3, 4], .loop 0], rfl⟩, rfl, ?_⟩
  intro h
  exact absurd (h rfl rfl (by decide)) (by decide)

/-! ### The theorems are about something -/

/-- A handler that consumes what it got and reads the next line. -/
def lineReader : Handler := fun w =>
  match w.calls.getLast? with
  | some c => if c.err = SUCCESS then [.consume c.num, .read (.until [10])] else [.consume c.num]
  | none => []

example : ConsumesGiven lineReader := by
  intro w c hc
  by_cases he : c.err = SUCCESS
  · exact ⟨[.read (.until [10])], by simp [lineReader, hc, he], by simp [isConsume]⟩
  · exact ⟨[], by simp [lineReader, hc, he], by simp⟩

example : QuietOnError lineReader := by
  intro w c hc he a ha j
  simp [lineReader, hc, he] at ha
  rw [ha]; simp

/-- Two lines arrive in three pieces through a buffer of four bytes; both are delivered, and the third read is pending. -/
example : ∃ w, run lineReader (init [0, 0, 0, 0]) [.user (.read (.until [10])), .loop 0, .deliver [65, 66], .loop 0, .deliver [10, 67],
      .loop 0, .loop 0, .deliver [68, 10], .loop 0, .loop 0] = some w ∧ w.misuse = false ∧ w.waiting = true ∧
    w.calls.map (fun c => c.view.take c.num) = [[65, 66, 10], [67, 68, 10]] ∧ w.received = [65, 66, 10, 67, 68, 10] :=
  ⟨_, rfl, rfl, rfl, rfl, rfl⟩

/-- Too long a line, and an end of stream. -/
example : ∃ w, run lineReader (init [0, 0]) [.user (.read (.until [10])), .loop 0, .deliver [65, 66], .loop 0] = some w ∧
    w.misuse = false ∧ w.calls.map (fun c => c.err) = [MESSAGE_TOO_LONG] := ⟨_, rfl, rfl, rfl⟩
example : ∃ w, run lineReader (init [0, 0]) [.user (.read (.atMost 9)), .loop 0, .fail EOF, .loop 0] = some w ∧
    w.misuse = false ∧ w.calls.map (fun c => c.err) = [EOF] := ⟨_, rfl, rfl, rfl⟩

/-- C12: a new read buffer over `n > 0` bytes of memory is empty and has room for all of them, and a stream starts with it; without memory it is refused. -/
theorem new_buffer_empty (mem : List UInt8) :
    (mem ≠ [] → ∃ rb, ReadBuffer.init (some mem) = (SUCCESS, some rb) ∧ (init mem).rb = rb ∧ rb.unread = [] ∧ rb.unreadBytes = 0 ∧
      rb.spaceAvailable = mem.length ∧ rb.size = mem.length ∧ rb.mem = mem) ∧
    (mem = [] → ReadBuffer.init (some mem) = (INVALID_ARGUMENT, none)) ∧ ReadBuffer.init none = (INVALID_ARGUMENT, none) := by
  refine ⟨fun h => ?_, fun h => ?_, rfl⟩
  · have hl : ¬ mem.length = 0 := fun hl => h (List.length_eq_zero_iff.1 hl)
    refine ⟨⟨mem, 0, 0⟩, ?_, rfl, ?_, rfl, rfl, rfl, rfl⟩
    · unfold ReadBuffer.init
      dsimp only
      rw [if_neg hl]
    · simp [ReadBuffer.unread]
  · subst h; rfl

end Cio.BufferedRead
