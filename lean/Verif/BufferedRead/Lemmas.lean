import Mathlib.Tactic.Tauto
import Verif.BufferedRead.Model
import Verif.Memmem.Props
namespace Cio.BufferedRead
open Memmem (IsFirst OccursAt)

def RbOk (sz : Nat) (rb : ReadBuffer) : Prop := rb.mem.length = sz ∧ rb.fetch ≤ rb.add ∧ rb.add ≤ sz

theorem unread_length (sz : Nat) (rb : ReadBuffer) (h : RbOk sz rb) : rb.unread.length = rb.unreadBytes := by
  obtain ⟨h1, h2, h3⟩ := h
  simp only [ReadBuffer.unread, ReadBuffer.unreadBytes, List.length_take, List.length_drop]
  omega

theorem compact_ok (sz : Nat) (rb : ReadBuffer) (h : RbOk sz rb) : RbOk sz rb.compact ∧ rb.compact.unread = rb.unread := by
  have hl := unread_length sz rb h
  obtain ⟨h1, h2, h3⟩ := h
  simp only [ReadBuffer.unreadBytes] at hl
  refine ⟨⟨?_, ?_, ?_⟩, ?_⟩
  · simp only [ReadBuffer.compact, ReadBuffer.unreadBytes, List.length_append, List.length_drop, hl]; omega
  · simp [ReadBuffer.compact]
  · simp only [ReadBuffer.compact, ReadBuffer.unreadBytes]; omega
  · show List.take (rb.compact.add - rb.compact.fetch) (List.drop rb.compact.fetch rb.compact.mem) = _
    simp only [ReadBuffer.compact, ReadBuffer.unreadBytes, List.drop_zero, Nat.sub_zero]
    rw [List.take_append_of_le_length (by omega), List.take_of_length_le (by omega)]

theorem append_ok (sz : Nat) (rb : ReadBuffer) (bs : List UInt8) (h : RbOk sz rb) (hb : bs.length ≤ rb.spaceAvailable) :
    RbOk sz (rb.append bs) ∧ (rb.append bs).unread = rb.unread ++ bs := by
  obtain ⟨h1, h2, h3⟩ := h
  simp only [ReadBuffer.spaceAvailable] at hb
  refine ⟨⟨?_, ?_, ?_⟩, ?_⟩
  · simp only [ReadBuffer.append, List.length_append, List.length_take, List.length_drop]; omega
  · simp only [ReadBuffer.append]; omega
  · simp only [ReadBuffer.append]; omega
  · simp only [ReadBuffer.append, ReadBuffer.unread]
    rw [List.append_assoc, List.drop_append_of_le_length (by simp only [List.length_take]; omega)]
    have e1 : (List.drop rb.fetch (List.take rb.add rb.mem)).length = rb.add - rb.fetch := by
      simp only [List.length_drop, List.length_take]; omega
    have e2 : rb.add + bs.length - rb.fetch = (List.drop rb.fetch (List.take rb.add rb.mem)).length + bs.length := by omega
    rw [e2, List.take_length_add_append, List.take_append_of_le_length (Nat.le_refl _), List.take_length, List.drop_take]

theorem consume_ok (sz : Nat) (rb : ReadBuffer) (n : Nat) (h : RbOk sz rb) (hn : n ≤ rb.unreadBytes) :
    RbOk sz (rb.consume n) ∧ rb.unread.take n ++ (rb.consume n).unread = rb.unread := by
  obtain ⟨h1, h2, h3⟩ := h
  simp only [ReadBuffer.unreadBytes] at hn
  refine ⟨⟨h1, ?_, h3⟩, ?_⟩
  · simp only [ReadBuffer.consume]; omega
  · have : (rb.consume n).unread = rb.unread.drop n := by
      simp only [ReadBuffer.consume, ReadBuffer.unread]
      rw [List.drop_take, List.drop_drop, Nat.sub_sub]
    rw [this, List.take_append_drop]

/-- The bytes that satisfy a job. -/
def Satisfied (view : List UInt8) : Job → Prop
  | .atLeast n => n ≤ view.length
  | .until d => ∃ i, OccursAt view d i
  | .atMost _ => view ≠ []

/-- What is promised about an invocation of the handler. -/
def GoodCall (sz : Nat) (errs : List Err) (c : Call) : Prop :=
  c.consumed ++ c.view = c.received ∧ c.view.length ≤ sz ∧
  if c.err = SUCCESS then
    match c.job with
    | .atLeast n => c.num = n ∧ n ≤ c.view.length
    | .atMost n => c.num = min n c.view.length ∧ c.view ≠ []
    | .until d => ∃ i, IsFirst c.view d (some i) ∧ c.num = i + d.length
  else c.num = 0 ∧ (c.err ∈ errs ∨ (c.err = MESSAGE_TOO_LONG ∧ c.view.length = sz ∧ ∃ d, c.job = .until d ∧ IsFirst c.view d none))

structure Core (sz : Nat) (w : World) : Prop where
  rb : RbOk sz w.rb
  stream : w.consumed ++ w.rb.unread = w.received
  jobok : ∀ n, w.job = some (.atLeast n) → n ≤ sz
  calls : ∀ c ∈ w.calls, GoodCall sz w.transportErrs c ∧ c.received <+: w.received ∧ c.consumed <+: w.consumed
  count : w.accepted = w.calls.length + w.overwritten + (if w.job.isSome then 1 else 0)
  errok : w.job ≠ none → w.lastError = SUCCESS ∨ w.lastError ∈ w.transportErrs
  ub : w.ub = false

/-- What user actions do not touch. -/
structure Same (w w' : World) : Prop where
  cb : w'.callbackIsRunning = w.callbackIsRunning
  waiting : w'.waiting = w.waiting
  errs : w'.transportErrs = w.transportErrs
  received : w'.received = w.received
  calls : w'.calls = w.calls

theorem act_core (sz : Nat) (w : World) (a : UAct) (h : Core sz w) (hm : (act w a).misuse = false) :
    Core sz (act w a) ∧ Same w (act w a) ∧ w.misuse = false ∧
      (w.callbackIsRunning ≠ 0 → (act w a).looping = w.looping ∧ (act w a).closed = w.closed) := by
  cases a with
  | consume n =>
    simp only [act, Bool.or_eq_false_iff, decide_eq_false_iff_not, Nat.not_lt] at hm
    obtain ⟨c1, c2⟩ := consume_ok sz w.rb n h.rb hm.2
    refine ⟨⟨c1, ?_, h.jobok, ?_, h.count, h.errok, h.ub⟩, ⟨rfl, rfl, rfl, rfl, rfl⟩, hm.1, fun _ => ⟨rfl, rfl⟩⟩
    · simp only [act]; rw [List.append_assoc, c2]; exact h.stream
    · intro c hc
      obtain ⟨g1, g2, g3⟩ := h.calls c hc
      exact ⟨g1, g2, g3.trans (List.prefix_append _ _)⟩
  | close =>
    simp only [act, close] at hm ⊢
    split
    · rename_i h0
      rw [if_pos h0] at hm
      exact ⟨⟨h.rb, h.stream, h.jobok, h.calls, h.count, h.errok, h.ub⟩, ⟨rfl, rfl, rfl, rfl, rfl⟩, hm, fun hh => absurd h0 hh⟩
    · rename_i h0
      rw [if_neg h0] at hm
      exact ⟨⟨h.rb, h.stream, h.jobok, h.calls, h.count, h.errok, h.ub⟩, ⟨rfl, rfl, rfl, rfl, rfl⟩, hm, fun _ => ⟨rfl, rfl⟩⟩
  | read j =>
    have hgo : (∀ n, j = .atLeast n → n ≤ sz) → (read.go w j).misuse = false →
        Core sz (read.go w j) ∧ Same w (read.go w j) ∧ w.misuse = false ∧
        (w.callbackIsRunning ≠ 0 → (read.go w j).looping = w.looping ∧ (read.go w j).closed = w.closed) := by
      intro hj hm
      refine ⟨⟨h.rb, h.stream, ?_, h.calls, ?_, ?_, h.ub⟩, ⟨rfl, rfl, rfl, rfl, rfl⟩, hm, ?_⟩
      · intro n hn
        simp only [read.go, Option.some.injEq] at hn
        exact hj n hn
      · have := h.count
        simp only [read.go]
        cases hjob : w.job <;> simp [hjob] at this ⊢ <;> omega
      · intro _; exact Or.inl rfl
      · intro hcb
        simp [read.go, hcb]
    simp only [act, read] at hm ⊢
    cases j with
    | atLeast n =>
      simp only at hm ⊢
      split at hm
      · rename_i hn
        rw [if_pos hn]
        exact ⟨⟨h.rb, h.stream, h.jobok, h.calls, h.count, h.errok, h.ub⟩, ⟨rfl, rfl, rfl, rfl, rfl⟩, hm, fun _ => ⟨rfl, rfl⟩⟩
      · rename_i hn
        rw [if_neg hn]
        refine hgo ?_ hm
        intro k hk; cases hk
        simp only [ReadBuffer.size, h.rb.1] at hn; omega
    | «until» d => exact hgo (by intro n hn; cases hn) hm
    | atMost n => exact hgo (by intro k hk; cases hk) hm

theorem acts_core (sz : Nat) (as : List UAct) (w : World) (h : Core sz w) (hcb : w.callbackIsRunning ≠ 0)
    (hm : (as.foldl act w).misuse = false) :
    Core sz (as.foldl act w) ∧ Same w (as.foldl act w) ∧ w.misuse = false ∧ (as.foldl act w).looping = w.looping ∧
      (as.foldl act w).closed = w.closed := by
  induction as generalizing w with
  | nil => exact ⟨h, ⟨rfl, rfl, rfl, rfl, rfl⟩, hm, rfl, rfl⟩
  | cons a as ih =>
    simp only [List.foldl_cons] at hm ⊢
    have key : (act w a).misuse = false := by
      have : ∀ (bs : List UAct) (v : World), v.misuse = true → (bs.foldl act v).misuse = true := by
        intro bs
        induction bs with
        | nil => intro v hv; exact hv
        | cons b bs ihb =>
          intro v hv
          apply ihb
          cases b with
          | consume n => simp [act, hv]
          | close => simp only [act, close]; split <;> exact hv
          | read j =>
            simp only [act, read]
            cases j <;> simp only [read.go]
            · split <;> exact hv
            · exact hv
            · exact hv
      cases hb : (act w a).misuse with
      | false => rfl
      | true => rw [this as (act w a) hb] at hm; cases hm
    obtain ⟨c1, s1, m1, l1⟩ := act_core sz w a h key
    obtain ⟨c2, s2, m2, l2, l3⟩ := ih (act w a) c1 (by rw [s1.cb]; exact hcb) hm
    obtain ⟨q1, q2⟩ := l1 hcb
    exact ⟨c2, ⟨by rw [s2.cb, s1.cb], by rw [s2.waiting, s1.waiting], by rw [s2.errs, s1.errs], by rw [s2.received, s1.received],
      by rw [s2.calls, s1.calls]⟩, m1, by rw [l2, q1], by rw [l3, q2]⟩

theorem Core.clear {sz : Nat} {w : World} (h : Core sz w) : Core sz { w with lastError := SUCCESS } :=
  ⟨h.rb, h.stream, h.jobok, h.calls, h.count, fun _ => Or.inl rfl, h.ub⟩

/-- An invocation of the handler keeps the core invariant. -/
theorem callHandler_core (sz : Nat) (H : Handler) (w : World) (j : Job) (err : Err) (num : Nat) (h : Core sz { w with lastError := SUCCESS })
    (hj : w.job = some j) (hcb : w.callbackIsRunning = 0)
    (hg : GoodCall sz w.transportErrs ⟨j, err, num, w.rb.unread, w.consumed, w.received, w.rb.fetch⟩)
    (hm : (callHandler H w j err num).1.misuse = false) :
    let r := callHandler H w j err num
    Core sz r.1 ∧ r.1.callbackIsRunning = 0 ∧ r.1.waiting = w.waiting ∧ w.misuse = false ∧ r.1.looping = w.looping ∧
      (r.2 = .open → r.1.closed = w.closed) ∧ (r.2 ≠ .open → r.1.closed = true) ∧
      r.1.calls = w.calls ++ [⟨j, err, num, w.rb.unread, w.consumed, w.received, w.rb.fetch⟩] ∧ r.2 ≠ .again := by
  intro r
  let w1 : World := { w with job := none, callbackIsRunning := w.callbackIsRunning + 1,
                             calls := w.calls ++ [⟨j, err, num, w.rb.unread, w.consumed, w.received, w.rb.fetch⟩] }
  have hc1 : Core sz w1 := by
    refine ⟨h.rb, h.stream, (by intro n hn; cases hn), ?_, ?_, (by intro hn; exact absurd rfl hn), h.ub⟩
    · intro c hc
      rcases List.mem_append.mp hc with hc | hc
      · exact h.calls c hc
      · simp at hc; subst hc; exact ⟨hg, List.prefix_refl _, List.prefix_refl _⟩
    · have : w.accepted = w.calls.length + w.overwritten + (if w.job.isSome then 1 else 0) := h.count
      simp only [w1, hj, Option.isSome_some, if_true, List.length_append, List.length_singleton, Option.isSome_none,
        Bool.false_eq_true, if_false] at this ⊢
      omega
  have hcb1 : w1.callbackIsRunning ≠ 0 := by simp [w1]
  have hr : r = callHandler H w j err num := rfl
  simp only [callHandler] at hr
  have hm' : ((H w1).foldl act w1).misuse = false := by
    simp only [callHandler] at hm
    split at hm <;> exact hm
  obtain ⟨c2, s2, m2, l2, l3⟩ := acts_core sz (H w1) w1 hc1 hcb1 hm'
  have hcb2 : ((H w1).foldl act w1).callbackIsRunning - 1 = 0 := by rw [s2.cb]; simp [w1, hcb]
  by_cases hs : ((H w1).foldl act w1).shallClose = true
  · rw [if_pos hs] at hr
    rw [hr]
    refine ⟨⟨c2.rb, c2.stream, c2.jobok, c2.calls, c2.count, c2.errok, c2.ub⟩, hcb2, s2.waiting, m2, l2, ?_, ?_, s2.calls, ?_⟩
    · intro hh; cases hh
    · intro _; rfl
    · simp
  · rw [if_neg hs] at hr
    rw [hr]
    refine ⟨⟨c2.rb, c2.stream, c2.jobok, c2.calls, c2.count, c2.errok, c2.ub⟩, hcb2, s2.waiting, m2, l2, ?_, ?_, s2.calls, ?_⟩
    · intro _; exact l3
    · intro hh; exact absurd rfl hh
    · simp

end Cio.BufferedRead
