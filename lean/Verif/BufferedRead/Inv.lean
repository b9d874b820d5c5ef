import Verif.BufferedRead.Lemmas
namespace Cio.BufferedRead
open Memmem (IsFirst OccursAt memmem_correct)

theorem satisfied_drop (v : List UInt8) (n : Nat) (j : Job) (h : Satisfied (v.drop n) j) : Satisfied v j := by
  cases j with
  | atLeast k => simp only [Satisfied, List.length_drop] at h ⊢; omega
  | atMost k => intro e; subst e; simp [Satisfied] at h
  | «until» d =>
    obtain ⟨i, pre, post, h1, h2⟩ := h
    refine ⟨(v.take n).length + i, v.take n ++ pre, post, ?_, ?_⟩
    · have := List.take_append_drop n v
      rw [h1] at this
      simpa using this.symm
    · simp [h2]

/-- One run of the job. -/
theorem runJob_core (sz : Nat) (H : Handler) (w : World) (j : Job) (h : Core sz w) (hj : w.job = some j) (hcb : w.callbackIsRunning = 0)
    (hm : (runJob H w j).1.misuse = false) :
    let r := runJob H w j
    (r.2 = .again → r.1 = w ∧ w.lastError = SUCCESS ∧ ¬ Satisfied w.rb.unread j) ∧
    (r.2 ≠ .again → Core sz r.1 ∧ r.1.callbackIsRunning = 0 ∧ r.1.waiting = w.waiting ∧ w.misuse = false ∧ r.1.looping = w.looping ∧
      (r.2 = .open → r.1.closed = w.closed) ∧ (r.2 ≠ .open → r.1.closed = true)) := by
  intro r
  have hlen := unread_length sz w.rb h.rb
  have hsz : w.rb.unread.length ≤ sz := by
    have := h.rb.2.2; rw [hlen]; simp only [ReadBuffer.unreadBytes]; omega
  have call : ∀ err num, runJob H w j = callHandler H w j err num →
      GoodCall sz w.transportErrs ⟨j, err, num, w.rb.unread, w.consumed, w.received, w.rb.fetch⟩ →
      (r.2 = .again → r.1 = w ∧ w.lastError = SUCCESS ∧ ¬ Satisfied w.rb.unread j) ∧
      (r.2 ≠ .again → Core sz r.1 ∧ r.1.callbackIsRunning = 0 ∧ r.1.waiting = w.waiting ∧ w.misuse = false ∧ r.1.looping = w.looping ∧
        (r.2 = .open → r.1.closed = w.closed) ∧ (r.2 ≠ .open → r.1.closed = true)) := by
    intro err num he hg
    have hr : r = callHandler H w j err num := he
    rw [he] at hm
    obtain ⟨k1, k2, k3, k4, k5, k6, k7, k8, k9⟩ := callHandler_core sz H w j err num h.clear hj hcb hg hm
    rw [hr]
    exact ⟨fun hh => absurd hh k9, fun _ => ⟨k1, k2, k3, k4, k5, k6, k7⟩⟩
  have again : runJob H w j = (w, .again) → w.lastError = SUCCESS → ¬ Satisfied w.rb.unread j →
      (r.2 = .again → r.1 = w ∧ w.lastError = SUCCESS ∧ ¬ Satisfied w.rb.unread j) ∧
      (r.2 ≠ .again → Core sz r.1 ∧ r.1.callbackIsRunning = 0 ∧ r.1.waiting = w.waiting ∧ w.misuse = false ∧ r.1.looping = w.looping ∧
        (r.2 = .open → r.1.closed = w.closed) ∧ (r.2 ≠ .open → r.1.closed = true)) := by
    intro he hl hs
    have hr : r = (w, .again) := he
    rw [hr]
    exact ⟨fun _ => ⟨rfl, hl, hs⟩, fun hh => absurd rfl hh⟩
  by_cases hle : w.lastError = SUCCESS
  · cases j with
    | atMost n =>
      by_cases ha : w.rb.unreadBytes > 0
      · refine call SUCCESS (if w.rb.unreadBytes < n then w.rb.unreadBytes else n) ?_ ?_
        · simp only [runJob, hle, ne_eq, not_true_eq_false, if_false, if_pos ha]
        · refine ⟨h.stream, hsz, ?_⟩
          rw [if_pos rfl]
          refine ⟨?_, ?_⟩
          · simp only [hlen]; split <;> omega
          · intro e; have e' : w.rb.unread = [] := e; rw [e'] at hlen; simp at hlen; omega
      · refine again ?_ hle ?_
        · simp only [runJob, hle, ne_eq, not_true_eq_false, if_false, if_neg ha]
        · intro hs; apply hs; apply List.eq_nil_of_length_eq_zero; omega
    | atLeast n =>
      by_cases ha : n ≤ w.rb.unreadBytes
      · refine call SUCCESS n ?_ ?_
        · simp only [runJob, hle, ne_eq, not_true_eq_false, if_false, if_pos ha]
        · refine ⟨h.stream, hsz, ?_⟩
          rw [if_pos rfl]
          exact ⟨rfl, by simp only [hlen]; exact ha⟩
      · refine again ?_ hle ?_
        · simp only [runJob, hle, ne_eq, not_true_eq_false, if_false, if_neg ha]
        · simp only [Satisfied, hlen]; exact ha
    | «until» d =>
      obtain ⟨o, ho, hf⟩ := memmem_correct w.rb.unread d
      cases o with
      | none =>
        refine again ?_ hle ?_
        · simp only [runJob, hle, ne_eq, not_true_eq_false, if_false, ho]
        · rintro ⟨i, hi⟩; exact hf i hi
      | some i =>
        refine call SUCCESS (i + d.length) ?_ ?_
        · simp only [runJob, hle, ne_eq, not_true_eq_false, if_false, ho]
        · refine ⟨h.stream, hsz, ?_⟩
          rw [if_pos rfl]
          exact ⟨i, hf, rfl⟩
  · refine call w.lastError 0 ?_ ?_
    · simp only [runJob, hle, ne_eq, not_false_eq_true, if_true]
    · refine ⟨h.stream, hsz, ?_⟩
      rw [if_neg hle]
      refine ⟨rfl, Or.inl ?_⟩
      rcases h.errok (by rw [hj]; simp) with h1 | h1
      · exact absurd h1 hle
      · exact h1

/-- The invariant between two steps. -/
structure Inv (sz : Nat) (w : World) : Prop where
  core : Core sz w
  cb : w.callbackIsRunning = 0
  wait : w.waiting = true → w.looping = false ∧ w.rb.spaceAvailable > 0 ∧ ∃ j, w.job = some j ∧ ¬ Satisfied w.rb.unread j

theorem errs_mono (sz : Nat) (w : World) (e : Err) (h : Core sz w) : Core sz { w with transportErrs := w.transportErrs ++ [e] } := by
  refine ⟨h.rb, h.stream, h.jobok, ?_, h.count, ?_, h.ub⟩
  · intro c hc
    obtain ⟨⟨g1, g2, g3⟩, g4, g5⟩ := h.calls c hc
    refine ⟨⟨g1, g2, ?_⟩, g4, g5⟩
    by_cases he : c.err = SUCCESS
    · rw [if_pos he] at g3 ⊢; exact g3
    · rw [if_neg he] at g3 ⊢
      refine ⟨g3.1, ?_⟩
      rcases g3.2 with h1 | h1
      · exact Or.inl (by simp [h1])
      · exact Or.inr h1
  · intro hj
    rcases h.errok hj with h1 | h1
    · exact Or.inl h1
    · exact Or.inr (by simp [h1])

theorem readSome_inv (sz : Nat) (H : Handler) (w : World) (j : Job) (rs : Err) (h : Core sz w) (hj : w.job = some j)
    (hcb : w.callbackIsRunning = 0) (hw : w.waiting = false) (hsp : w.rb.spaceAvailable > 0) (hs : ¬ Satisfied w.rb.unread j)
    (hm : (readSome H w j rs).misuse = false) :
    Inv sz { readSome H w j rs with looping := false } ∧ w.misuse = false := by
  have hlen := unread_length sz w.rb h.rb
  have hsz : w.rb.unread.length ≤ sz := by
    have := h.rb.2.2; rw [hlen]; simp only [ReadBuffer.unreadBytes]; omega
  by_cases hrs : rs = SUCCESS
  · have e : readSome H w j rs = { w with waiting := true } := by simp [readSome, hrs]
    rw [e] at hm ⊢
    exact ⟨⟨⟨h.rb, h.stream, h.jobok, h.calls, h.count, h.errok, h.ub⟩, hcb, fun _ => ⟨rfl, hsp, j, hj, hs⟩⟩, hm⟩
  · have e : readSome H w j rs = (callHandler H { w with transportErrs := w.transportErrs ++ [rs] } j rs 0).1 := by
      simp [readSome, hrs]
    rw [e] at hm ⊢
    obtain ⟨k1, k2, k3, k4, k5, k6, k7, k8, k9⟩ := callHandler_core sz H { w with transportErrs := w.transportErrs ++ [rs] } j rs 0
      (errs_mono sz w rs h).clear hj hcb (by
        refine ⟨h.stream, hsz, ?_⟩
        rw [if_neg hrs]
        exact ⟨rfl, Or.inl (by simp)⟩) hm
    refine ⟨⟨⟨k1.rb, k1.stream, k1.jobok, k1.calls, k1.count, k1.errok, k1.ub⟩, k2, ?_⟩, k4⟩
    intro hh
    have : (callHandler H { w with transportErrs := w.transportErrs ++ [rs] } j rs 0).1.waiting = true := hh
    rw [k3] at this
    simp only [hw] at this
    cases this

theorem acts_misuse : ∀ (bs : List UAct) (v : World), v.misuse = true → (bs.foldl act v).misuse = true := by
  intro bs
  induction bs with
  | nil => intro v hv; exact hv
  | cons b bs ihb =>
    intro v hv
    apply ihb
    cases b with
    | consume n => simp [act, hv]
    | close => simp only [act, close]; split <;> exact hv
    | read j =>
      simp only [act, read]
      cases j <;> simp only [read.go]
      · split <;> exact hv
      · exact hv
      · exact hv

theorem misuse_call (H : Handler) (w : World) (j : Job) (err : Err) (n : Nat) (h : w.misuse = true) :
    (callHandler H w j err n).1.misuse = true := by
  simp only [callHandler]
  split <;> exact acts_misuse _ _ h

theorem misuse_runJob (H : Handler) (w : World) (j : Job) (h : w.misuse = true) : (runJob H w j).1.misuse = true := by
  unfold runJob
  split
  · exact misuse_call _ _ _ _ _ h
  · cases j <;> simp only <;> split <;> first | exact misuse_call _ _ _ _ _ h | exact h

theorem misuse_readSome (H : Handler) (w : World) (j : Job) (rs : Err) (h : w.misuse = true) : (readSome H w j rs).misuse = true := by
  unfold readSome
  split
  · exact misuse_call _ _ _ _ _ h
  · exact h

theorem misuse_fill (H : Handler) (w : World) (j : Job) (rs : Err) (h : w.misuse = true) : (fillBuffer H w j rs).misuse = true := by
  unfold fillBuffer
  split
  · split
    · exact misuse_runJob _ _ _ h
    · exact misuse_readSome _ _ _ _ h
  · exact misuse_readSome _ _ _ _ h

theorem step_misuse (H : Handler) (w w' : World) (e : Ev) (hs : step H w e = some w') (h : w.misuse = true) : w'.misuse = true := by
  cases e with
  | user a =>
    simp only [step] at hs
    split at hs
    · cases hs
    · cases a <;> simp only [Option.some.injEq] at hs <;> subst hs
      · exact acts_misuse [.consume _] w h
      · simp [h]
      · exact acts_misuse [.close] w h
  | loop rs =>
    simp only [step] at hs
    split at hs
    · simp only [Option.some.injEq] at hs
      subst hs
      unfold loopIter
      split
      · exact h
      · rename_i j hj
        have := misuse_runJob H w j h
        split <;> rename_i he <;> rw [he] at this
        · exact misuse_fill _ _ _ _ this
        · exact this
        · exact this
    · cases hs
  | deliver bs =>
    simp only [step] at hs
    split at hs
    · simp only [Option.some.injEq] at hs; subst hs; exact h
    · cases hs
  | fail err =>
    simp only [step] at hs
    split at hs
    · simp only [Option.some.injEq] at hs; subst hs; exact h
    · cases hs

theorem fillBuffer_inv (sz : Nat) (hpos : 0 < sz) (H : Handler) (w : World) (j : Job) (rs : Err) (h : Core sz w) (hj : w.job = some j)
    (hcb : w.callbackIsRunning = 0) (hw : w.waiting = false) (hs : ¬ Satisfied w.rb.unread j)
    (hm : (fillBuffer H w j rs).misuse = false) :
    Inv sz { fillBuffer H w j rs with looping := false } ∧ w.misuse = false := by
  have hlen := unread_length sz w.rb h.rb
  unfold fillBuffer at hm ⊢
  by_cases h0 : w.rb.spaceAvailable = 0
  · rw [if_pos h0] at hm ⊢
    have hrb := h.rb
    have hadd : w.rb.add = sz := by
      simp only [ReadBuffer.spaceAvailable, hrb.1] at h0; have := hrb.2.2; omega
    by_cases hf : w.rb.fetch = 0
    · rw [if_pos hf] at hm ⊢
      have e : runJob H { w with lastError := MESSAGE_TOO_LONG } j =
          callHandler H { w with lastError := MESSAGE_TOO_LONG } j MESSAGE_TOO_LONG 0 := by
        simp [runJob, MESSAGE_TOO_LONG, SUCCESS]
      rw [e] at hm ⊢
      have hub : w.rb.unreadBytes = sz := by simp only [ReadBuffer.unreadBytes]; omega
      have hjd : ∃ d, j = .until d ∧ IsFirst w.rb.unread d none := by
        cases j with
        | atLeast n => exact absurd (show n ≤ w.rb.unread.length by rw [hlen, hub]; exact h.jobok n hj) hs
        | atMost n => exact absurd (show w.rb.unread ≠ [] by intro e; rw [e] at hlen; simp at hlen; omega) hs
        | «until» d => exact ⟨d, rfl, fun i hi => hs ⟨i, hi⟩⟩
      obtain ⟨k1, k2, k3, k4, k5, k6, k7, k8, k9⟩ := callHandler_core sz H { w with lastError := MESSAGE_TOO_LONG } j MESSAGE_TOO_LONG 0
        h.clear hj hcb (by
          refine ⟨h.stream, (by show w.rb.unread.length ≤ sz; omega), ?_⟩
          rw [if_neg (by simp [MESSAGE_TOO_LONG, SUCCESS])]
          exact ⟨rfl, Or.inr ⟨rfl, by show w.rb.unread.length = sz; omega, hjd⟩⟩) hm
      refine ⟨⟨⟨k1.rb, k1.stream, k1.jobok, k1.calls, k1.count, k1.errok, k1.ub⟩, k2, ?_⟩, k4⟩
      intro hh
      have : (callHandler H { w with lastError := MESSAGE_TOO_LONG } j MESSAGE_TOO_LONG 0).1.waiting = true := hh
      rw [k3] at this
      simp only [hw] at this
      cases this
    · rw [if_neg hf] at hm ⊢
      obtain ⟨c1, c2⟩ := compact_ok sz w.rb h.rb
      have := readSome_inv sz H { w with rb := w.rb.compact } j rs
        ⟨c1, by show w.consumed ++ w.rb.compact.unread = _; rw [c2]; exact h.stream, h.jobok, h.calls, h.count, h.errok, h.ub⟩ hj hcb hw
        (by
          show w.rb.compact.mem.length - w.rb.compact.add > 0
          have h2 := hrb.2.1
          rw [c1.1]; simp only [ReadBuffer.compact, ReadBuffer.unreadBytes]; omega)
        (by show ¬ Satisfied w.rb.compact.unread j; rw [c2]; exact hs) hm
      exact this
  · rw [if_neg h0] at hm ⊢
    exact readSome_inv sz H w j rs h hj hcb hw (by omega) hs hm

theorem callHandler_ne_again (H : Handler) (w : World) (j : Job) (err : Err) (n : Nat) : (callHandler H w j err n).2 ≠ .again := by
  simp only [callHandler]
  split <;> simp

theorem runJob_again (H : Handler) (w : World) (j : Job) (h : (runJob H w j).2 = .again) : (runJob H w j).1 = w := by
  unfold runJob at h ⊢
  by_cases hl : w.lastError ≠ SUCCESS
  · rw [if_pos hl] at h; exact absurd h (callHandler_ne_again _ _ _ _ _)
  · rw [if_neg hl] at h ⊢
    cases j with
    | atMost n =>
      simp only at h ⊢
      by_cases ha : w.rb.unreadBytes > 0
      · rw [if_pos ha] at h; exact absurd h (callHandler_ne_again _ _ _ _ _)
      · rw [if_neg ha]
    | atLeast n =>
      simp only at h ⊢
      by_cases ha : n ≤ w.rb.unreadBytes
      · rw [if_pos ha] at h; exact absurd h (callHandler_ne_again _ _ _ _ _)
      · rw [if_neg ha]
    | «until» d =>
      simp only at h ⊢
      cases hf : Memmem.memmem w.rb.unread d with
      | none => rw [hf] at h; cases h
      | some o =>
        cases o with
        | none => rfl
        | some i => rw [hf] at h; exact absurd h (callHandler_ne_again _ _ _ _ _)

theorem loopIter_inv (sz : Nat) (hpos : 0 < sz) (H : Handler) (w : World) (rs : Err) (h : Inv sz w) (hl : w.looping = true)
    (hm : (loopIter H w rs).misuse = false) : Inv sz (loopIter H w rs) ∧ w.misuse = false := by
  have hw : w.waiting = false := by
    cases hw : w.waiting with
    | false => rfl
    | true => have := (h.wait hw).1; rw [hl] at this; cases this
  unfold loopIter at hm ⊢
  cases hj : w.job with
  | none =>
    simp only [hj] at hm ⊢
    have c := h.core
    exact ⟨⟨⟨c.rb, c.stream, fun n hn => (by cases hn), c.calls, (by have := c.count; rw [hj] at this; exact this), fun hn => absurd rfl hn, c.ub⟩, h.cb,
      fun hh => by rw [show w.waiting = true from hh] at hw; cases hw⟩, hm⟩
  | some j =>
    simp only [hj] at hm ⊢
    have hr := runJob_core sz H w j h.core hj h.cb
    revert hm hr
    generalize he : runJob H w j = r
    obtain ⟨w', st⟩ := r
    intro hm hr
    cases st with
    | again =>
      simp only at hm ⊢
      have e : w' = w := by
        have := runJob_again H w j (by rw [he]); rw [he] at this; exact this
      subst e
      have hm0 : w'.misuse = false ∨ w'.misuse = true := by cases w'.misuse <;> simp
      rcases hm0 with hm0 | hm0
      · obtain ⟨_, _, hs⟩ := (hr hm0).1 rfl
        exact fillBuffer_inv sz hpos H w' j rs h.core hj h.cb hw hs hm
      · exfalso
        have hf : (fillBuffer H w' j rs).misuse = true := misuse_fill H w' j rs hm0
        have hm' : (fillBuffer H w' j rs).misuse = false := hm
        rw [hf] at hm'; cases hm'
    | closed =>
      simp only at hm ⊢
      obtain ⟨c, k2, k3, k4, k5, k6, k7⟩ := (hr hm).2 (by simp)
      exact ⟨⟨⟨c.rb, c.stream, c.jobok, c.calls, c.count, c.errok, c.ub⟩, k2, fun hh => by
        have : w'.waiting = true := hh
        rw [show w'.waiting = w.waiting from k3, hw] at this; cases this⟩, k4⟩
    | «open» =>
      simp only at hm ⊢
      obtain ⟨c, k2, k3, k4, k5, k6, k7⟩ := (hr hm).2 (by simp)
      exact ⟨⟨c, k2, fun hh => by rw [show w'.waiting = w.waiting from k3, hw] at hh; cases hh⟩, k4⟩

theorem step_inv (sz : Nat) (hpos : 0 < sz) (H : Handler) (w w' : World) (e : Ev) (h : Inv sz w) (hs : step H w e = some w')
    (hm : w'.misuse = false) : Inv sz w' := by
  cases e with
  | user a =>
    simp only [step] at hs
    split at hs
    · cases hs
    · rename_i hg
      simp only [Bool.or_eq_true, not_or, Bool.not_eq_true] at hg
      cases a with
      | consume n =>
        simp only [Option.some.injEq] at hs
        subst hs
        obtain ⟨c, s, m, l⟩ := act_core sz w (.consume n) h.core hm
        refine ⟨c, by rw [s.cb]; exact h.cb, ?_⟩
        intro hh
        obtain ⟨w1, w2, j, w3, w4⟩ := h.wait hh
        refine ⟨w1, w2, j, w3, ?_⟩
        intro hsat
        apply w4
        apply satisfied_drop w.rb.unread n
        have : (w.rb.consume n).unread = w.rb.unread.drop n := by
          simp only [ReadBuffer.consume, ReadBuffer.unread]
          rw [List.drop_take, List.drop_drop, Nat.sub_sub]
        rw [← this]; exact hsat
      | close =>
        simp only [Option.some.injEq] at hs
        subst hs
        obtain ⟨c, s, m, l⟩ := act_core sz w .close h.core hm
        refine ⟨c, by rw [s.cb]; exact h.cb, ?_⟩
        simp only [act, close, h.cb, if_true]
        exact h.wait
      | read j =>
        simp only [Option.some.injEq] at hs
        subst hs
        simp only [Bool.or_eq_false_iff] at hm
        have hm' : (act w (.read j)).misuse = false := by
          have : (act w (.read j)).misuse = w.misuse := by
            simp only [act, read]
            cases j <;> simp only [read.go]
            split <;> rfl
          rw [this]; exact hm.1
        obtain ⟨c, s, m, l⟩ := act_core sz w (.read j) h.core hm'
        refine ⟨⟨c.rb, c.stream, c.jobok, c.calls, c.count, c.errok, c.ub⟩, by show (act w (.read j)).callbackIsRunning = 0; rw [s.cb]; exact h.cb, ?_⟩
        intro hh
        have hh' : (act w (.read j)).waiting = true := hh
        rw [s.waiting, hm.2] at hh'; cases hh'
  | loop rs =>
    simp only [step] at hs
    split at hs
    · rename_i hl
      simp only [Option.some.injEq] at hs
      subst hs
      exact (loopIter_inv sz hpos H w rs h hl hm).1
    · cases hs
  | deliver bs =>
    simp only [step] at hs
    split at hs
    · rename_i hg
      simp only [Bool.and_eq_true, decide_eq_true_eq] at hg
      simp only [Option.some.injEq] at hs
      subst hs
      have c := h.core
      obtain ⟨a1, a2⟩ := append_ok sz w.rb bs c.rb hg.2
      refine ⟨⟨a1, ?_, c.jobok, ?_, c.count, fun _ => Or.inl rfl, c.ub⟩, h.cb, fun hh => by cases hh⟩
      · show w.consumed ++ (w.rb.append bs).unread = w.received ++ bs
        rw [a2, ← List.append_assoc, c.stream]
      · intro x hx
        obtain ⟨g1, g2, g3⟩ := c.calls x hx
        exact ⟨g1, g2.trans (List.prefix_append _ _), g3⟩
    · cases hs
  | fail err =>
    simp only [step] at hs
    split at hs
    · simp only [Option.some.injEq] at hs
      subst hs
      have c := errs_mono sz w err h.core
      exact ⟨⟨c.rb, c.stream, c.jobok, c.calls, c.count, fun _ => Or.inr (by simp), c.ub⟩, h.cb, fun hh => by cases hh⟩
    · cases hs

theorem run_misuse (H : Handler) (es : List Ev) (w w' : World) (h : run H w es = some w') (hm : w.misuse = true) : w'.misuse = true := by
  induction es generalizing w with
  | nil => simp only [run, Option.some.injEq] at h; subst h; exact hm
  | cons e es ih =>
    simp only [run] at h
    cases hs : step H w e with
    | none => rw [hs] at h; simp at h
    | some v =>
      rw [hs] at h
      exact ih v h (step_misuse H w v e hs hm)

theorem run_inv (sz : Nat) (hpos : 0 < sz) (H : Handler) (es : List Ev) (w w' : World) (h : Inv sz w) (hr : run H w es = some w')
    (hm : w'.misuse = false) : Inv sz w' := by
  induction es generalizing w with
  | nil => simp only [run, Option.some.injEq] at hr; subst hr; exact h
  | cons e es ih =>
    simp only [run] at hr
    cases hs : step H w e with
    | none => rw [hs] at hr; simp at hr
    | some v =>
      rw [hs] at hr
      have hv : v.misuse = false := by
        cases hv : v.misuse with
        | false => rfl
        | true => rw [run_misuse H es v w' hr hv] at hm; cases hm
      exact ih v (step_inv sz hpos H w v e h hs hv) hr

theorem init_inv (mem : List UInt8) : Inv mem.length (init mem) := by
  refine ⟨⟨⟨rfl, Nat.le_refl _, Nat.zero_le _⟩, ?_, ?_, ?_, rfl, ?_, rfl⟩, rfl, ?_⟩
  · simp [init, ReadBuffer.unread]
  · intro n h; cases h
  · intro c h; cases h
  · intro h; exact absurd rfl h
  · intro h; cases h

end Cio.BufferedRead
