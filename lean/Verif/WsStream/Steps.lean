import Verif.WsStream.Inv
/-
Every step keeps the invariant.
-/
namespace Cio.WsStream
open BufferedRead (Job UAct World Call Satisfied BsState Core)
open WsRecv (Rx Out pump streamOf)

variable (e : Env)

/-- Both invariants, and what is true of the loop. -/
structure Inv (sz : Nat) (ds : List (List UInt8)) (w : World) : Prop where
  base : BufferedRead.Inv sz w
  good : Good e ds w
  loop : w.looping = true → w.closed = false
  pend : w.job ≠ none → w.looping = false → w.closed = false → w.waiting = true

theorem read_go {sz : Nat} {w : World} (hrb : w.rb.mem.length = sz) (j : Job) (h : ∀ n, j = .atLeast n → n ≤ sz) :
    BufferedRead.read w j = BufferedRead.read.go w j := by
  unfold BufferedRead.read
  cases j with
  | atLeast n =>
    simp only
    rw [if_neg (by have := h n rfl; simp only [BufferedRead.ReadBuffer.size]; omega)]
  | _ => rfl

theorem step_next {sz : Nat} {ds : List (List UInt8)} {w w' : World} (hsz : 125 ≤ sz) (h : Inv e sz ds w) (hs : step e w .next = some w') :
    Inv e sz ds w' := by
  simp only [step] at hs
  split at hs
  · next hg =>
    have hs0 := hs
    simp only [BufferedRead.step] at hs
    split at hs
    · cases hs
    · next hl =>
      simp only [Bool.or_eq_true, not_or, Bool.not_eq_true] at hl
      have hw : w.waiting = false := by
        cases hw : w.waiting with
        | false => rfl
        | true =>
          obtain ⟨_, _, j, hj, _⟩ := h.base.wait hw
          rw [hg.1] at hj; cases hj
      simp only [Option.some.injEq, BufferedRead.act] at hs
      rw [read_go h.base.core.rb.1 _ (fun n hn => by have := job_small h.good.ok n hn; omega)] at hs
      have hm : w'.misuse = false := by subst hs; simp [BufferedRead.read.go, h.good.misuse, hw]
      refine ⟨BufferedRead.step_inv sz (by omega) _ w w' _ h.base hs0 hm, ?_, ?_, ?_⟩
      · have hse : e.sess w' = e.sess w := by subst hs; rfl
        have hrb : w'.rb = w.rb := by subst hs; rfl
        have ha : at' e w' = at' e w := by unfold at'; rw [hse, hrb]
        have ht : togo e w' = togo e w := by unfold togo; rw [ha, hrb]
        refine ⟨hm, ?_, ?_, .inr ⟨?_, ?_⟩, ?_, ?_, ?_, ?_, (by subst hs; intro q; cases q), ?_⟩
        · subst hs; exact h.good.refused
        · subst hs; simp [BufferedRead.read.go, hg.1, h.good.over]
        · rw [hse]; subst hs; rfl
        · rw [hse]; exact hg.2
        · rw [hse]; exact h.good.ok
        · intro hh
          have : w.shallClose = true := by subst hs; exact hh
          have := h.good.shall this
          rw [hl.2] at this; cases this
        · intro _ h2; exact absurd (by subst hs; rfl) h2
        · subst hs; exact h.good.got
        · obtain ⟨ps, p1, p2⟩ := h.good.agree
          refine ⟨ps, p1, ?_⟩
          rcases p2 with p2 | p2
          · exact .inl ⟨by rw [ht]; exact p2.rx, by rw [ht]; exact p2.buf, by rw [ht, hse]; exact p2.outs⟩
          · exact absurd p2.stopped hg.2
      · intro _; subst hs; exact hl.2
      · intro _ h2 _
        subst hs
        simp [BufferedRead.read.go, h.base.cb] at h2
  · cases hs

theorem step_close {sz : Nat} {ds : List (List UInt8)} {w w' : World} (hsz : 125 ≤ sz) (h : Inv e sz ds w) (hs : step e w .close = some w') :
    Inv e sz ds w' := by
  have hs0 : BufferedRead.step (handler e) w (.user .close) = some w' := hs
  simp only [step, BufferedRead.step] at hs
  split at hs
  · cases hs
  · next hl =>
    simp only [Bool.or_eq_true, not_or, Bool.not_eq_true] at hl
    simp only [BufferedRead.act, BufferedRead.close, h.base.cb, if_true, Option.some.injEq] at hs
    have hm : w'.misuse = false := by subst hs; exact h.good.misuse
    refine ⟨BufferedRead.step_inv sz (by omega) _ w w' _ h.base hs0 hm, ?_, ?_, ?_⟩
    · subst hs
      exact h.good.cong e rfl rfl rfl (.inl rfl) rfl hm rfl rfl (fun _ => rfl) (fun _ h => h)
    · intro hh; subst hs; have : w.looping = true := hh; rw [hl.1] at this; cases this
    · intro _ _ h3; subst hs; cases h3

theorem step_deliver {sz : Nat} {ds : List (List UInt8)} {w w' : World} (hsz : 125 ≤ sz) (bs : List UInt8) (h : Inv e sz ds w)
    (hs : step e w (.deliver bs) = some w') : Inv e sz (ds ++ [bs]) w' := by
  have hs0 : BufferedRead.step (handler e) w (.deliver bs) = some w' := hs
  simp only [step, BufferedRead.step] at hs
  split at hs
  · next hl =>
    simp only [Bool.and_eq_true, Bool.not_eq_true', decide_eq_true_eq] at hl
    obtain ⟨⟨⟨hw, hlo⟩, hcl⟩, hsp⟩ := hl
    simp only [Option.some.injEq] at hs
    have hm : w'.misuse = false := by subst hs; exact h.good.misuse
    obtain ⟨_, _, j, hj, hns⟩ := h.base.wait hw
    obtain ⟨a1, a2⟩ := BufferedRead.append_ok sz w.rb bs h.base.core.rb hsp
    have hjs : j = jobOf (e.sess w).rx ∧ (e.sess w).rx.cont ≠ .stopped := by
      rcases h.good.job with q | ⟨q, q2⟩
      · rw [hj] at q; cases q
      · rw [hj] at q; cases q; exact ⟨rfl, q2⟩
    have hnone : WsRecv.step e.o (at' e w) w.rb.unread = none := by
      apply (step_none_iff e.o (e.sess w).rx (e.base + w.rb.fetch) w.rb.unread hjs.2).mpr
      rw [← hjs.1]; exact hns
    refine ⟨BufferedRead.step_inv sz (by omega) _ w w' _ h.base hs0 hm, ?_, ?_, ?_⟩
    · have hse : e.sess w' = e.sess w := by subst hs; rfl
      have hun : w'.rb.unread = w.rb.unread ++ bs := by subst hs; exact a2
      have hfe : w'.rb.fetch = w.rb.fetch := by subst hs; rfl
      have ha : at' e w' = at' e w := by unfold at'; rw [hse, hfe]
      have ht : togo e w' = pump e.o ((w.rb.unread ++ bs).length + 1) (at' e w) (w.rb.unread ++ bs) := by unfold togo; rw [ha, hun]
      refine ⟨hm, ?_, ?_, ?_, ?_, ?_, ?_, ?_, (by subst hs; exact h.good.idle), ?_⟩
      · subst hs; exact h.good.refused
      · subst hs; exact h.good.over
      · rw [hse]
        have : w'.job = w.job := by subst hs; rfl
        rw [this]; exact h.good.job
      · rw [hse]; exact h.good.ok
      · subst hs; exact h.good.shall
      · intro _ h2; exact absurd (by subst hs; rfl) h2
      · have : w'.received = w.received ++ bs := by subst hs; rfl
        rw [this, List.flatten_append, h.good.got]; simp
      · obtain ⟨ps, p1, p2⟩ := h.good.agree
        refine ⟨ps ++ [(e.base + w.rb.fetch, bs)], by rw [List.map_append, p1]; rfl, ?_⟩
        rcases p2 with p2 | p2
        · obtain ⟨i1, i2, i3⟩ := p2.idle e hnone
          left
          have hid : ideal e (ps ++ [(e.base + w.rb.fetch, bs)]) = ((togo e w').1, (togo e w').2.1, (e.sess w).outs ++ (togo e w').2.2) := by
            unfold ideal
            rw [run_snoc]
            have j2 : (WsRecv.run e.o (WsRecv.start e.server e.selfClose e.utf8) [] ps).2.1 = w.rb.unread := i2
            have j3 : (WsRecv.run e.o (WsRecv.start e.server e.selfClose e.utf8) [] ps).2.2 = (e.sess w).outs := i3
            have j1 : ({ (WsRecv.run e.o (WsRecv.start e.server e.selfClose e.utf8) [] ps).1 with addr := e.base + w.rb.fetch } : Rx) = at' e w := i1 _
            simp only
            rw [j1, j2, j3, ht]
          exact ⟨fun a => by rw [hid], by rw [hid], by rw [hid, hse]⟩
        · exact absurd p2.stopped hjs.2
    · intro _; subst hs; exact hcl
    · intro _ h2; subst hs; cases h2
  · cases hs

theorem step_fail {sz : Nat} {ds : List (List UInt8)} {w w' : World} (hsz : 125 ≤ sz) (err : Err) (h : Inv e sz ds w)
    (hs : step e w (.fail err) = some w') : Inv e sz ds w' := by
  have hs0 : BufferedRead.step (handler e) w (.fail err) = some w' := hs
  simp only [step, BufferedRead.step] at hs
  split at hs
  · next hl =>
    simp only [Bool.and_eq_true, Bool.not_eq_true', decide_eq_true_eq] at hl
    obtain ⟨⟨⟨hw, hlo⟩, hcl⟩, _⟩ := hl
    simp only [Option.some.injEq] at hs
    have hm : w'.misuse = false := by subst hs; exact h.good.misuse
    obtain ⟨_, _, j, hj, hns⟩ := h.base.wait hw
    have hjs : j = jobOf (e.sess w).rx ∧ (e.sess w).rx.cont ≠ .stopped := by
      rcases h.good.job with q | ⟨q, q2⟩
      · rw [hj] at q; cases q
      · rw [hj] at q; cases q; exact ⟨rfl, q2⟩
    have hnone : WsRecv.step e.o (at' e w) w.rb.unread = none := by
      apply (step_none_iff e.o (e.sess w).rx (e.base + w.rb.fetch) w.rb.unread hjs.2).mpr
      rw [← hjs.1]; exact hns
    refine ⟨BufferedRead.step_inv sz (by omega) _ w w' _ h.base hs0 hm, ?_, ?_, ?_⟩
    · subst hs
      exact h.good.cong e rfl rfl rfl (.inr hnone) rfl h.good.misuse rfl rfl h.good.shall (fun _ h => by simp [h])
    · intro _; subst hs; exact hcl
    · intro _ h2; subst hs; cases h2
  · cases hs

/-- The job run by the buffered stream: the handler runs if the bytes are there. -/
theorem runJob_good {sz : Nat} {ds : List (List UInt8)} {w : World} (hsz : 125 ≤ sz) (h : Inv e sz ds w) (hl : w.looping = true)
    (j : Job) (hj : w.job = some j) :
    (BufferedRead.runJob (handler e) w j = (w, .again) ∧ w.lastError = SUCCESS ∧ WsRecv.step e.o (at' e w) w.rb.unread = none) ∨
    (Good e ds (BufferedRead.runJob (handler e) w j).1 ∧ ∃ err num s, Called e w (rec w j err num) s (BufferedRead.runJob (handler e) w j)) := by
  have hcl := h.loop hl
  have hsh : w.shallClose = false := by
    cases q : w.shallClose with
    | false => rfl
    | true => have := h.good.shall q; rw [hcl] at this; cases this
  have hjs : j = jobOf (e.sess w).rx ∧ (e.sess w).rx.cont ≠ .stopped := by
    rcases h.good.job with q | ⟨q, q2⟩
    · rw [hj] at q; cases q
    · rw [hj] at q; cases q; exact ⟨rfl, q2⟩
  have hlen := BufferedRead.unread_length sz w.rb h.base.core.rb
  have hiff := step_none_iff e.o (e.sess w).rx (e.base + w.rb.fetch) w.rb.unread hjs.2
  rw [← hjs.1] at hiff
  have hcall : ∀ num, Satisfied w.rb.unread j → Good e ds (BufferedRead.callHandler (handler e) w j SUCCESS num).1 ∧
      ∃ err n s, Called e w (rec w j err n) s (BufferedRead.callHandler (handler e) w j SUCCESS num) := by
    intro num hsat
    cases hst : WsRecv.step e.o (at' e w) w.rb.unread with
    | none => exact absurd hsat (hiff.mp hst)
    | some x =>
      obtain ⟨rx', rest, outs⟩ := x
      obtain ⟨g1, g2⟩ := good_call e hsz h.good h.base.core hsh h.base.cb j num rx' rest outs hst
      exact ⟨g1, SUCCESS, num, _, g2⟩
  unfold BufferedRead.runJob
  by_cases hle : w.lastError = SUCCESS
  · rw [if_neg (by simp [hle])]
    cases j with
    | «until» d => exact absurd hjs.1.symm (job_not_until _ d)
    | atLeast n =>
      simp only
      by_cases ha : n ≤ w.rb.unreadBytes
      · rw [if_pos ha]; right; exact hcall n (by simp only [Satisfied]; omega)
      · rw [if_neg ha]; left; exact ⟨rfl, hle, hiff.mpr (by simp only [Satisfied]; omega)⟩
    | atMost n =>
      simp only
      by_cases ha : w.rb.unreadBytes > 0
      · rw [if_pos ha]; right
        exact hcall _ (by intro q; rw [q] at hlen; simp at hlen; omega)
      · rw [if_neg ha]; left
        refine ⟨rfl, hle, hiff.mpr ?_⟩
        intro hq; apply hq; apply List.eq_nil_of_length_eq_zero; omega
  · rw [if_pos hle]
    right
    have hn := h.good.err (by rw [hj]; simp) hle
    have hin : w.lastError ∈ w.transportErrs := by
      rcases h.base.core.errok (by rw [hj]; simp) with q | q
      · exact absurd q hle
      · exact q
    refine ⟨good_error e h.good hsh h.base.cb (by rw [h.base.core.rb.1]; omega) j w.lastError 0 hle hin hjs.2 hn, w.lastError, 0, react e.o e.base (e.sess w) (rec w j w.lastError 0), ?_⟩
    apply called e w j w.lastError 0 hsh h.base.cb
    intro n hn
    unfold react at hn
    rw [if_pos (by simpa [rec] using hle)] at hn
    simp only [jobOf, Job.atLeast.injEq] at hn
    rw [h.base.core.rb.1]; omega

/-- What is left to do. -/
def load (w : World) : Nat := w.rb.unread.length + (if w.job = none then 0 else 1)

/-- A handler that runs uses up a byte or ends the reading. -/
theorem runJob_progress {sz : Nat} {ds : List (List UInt8)} {w : World} (hsz : 125 ≤ sz) (h : Inv e sz ds w) (hl : w.looping = true)
    (j : Job) (hj : w.job = some j) :
    BufferedRead.runJob (handler e) w j = (w, .again) ∨
    load (BufferedRead.runJob (handler e) w j).1 < w.rb.unread.length + 1 := by
  have hcl := h.loop hl
  have hsh : w.shallClose = false := by
    cases q : w.shallClose with
    | false => rfl
    | true => have := h.good.shall q; rw [hcl] at this; cases this
  have hjs : j = jobOf (e.sess w).rx ∧ (e.sess w).rx.cont ≠ .stopped := by
    rcases h.good.job with q | ⟨q, q2⟩
    · rw [hj] at q; cases q
    · rw [hj] at q; cases q; exact ⟨rfl, q2⟩
  have hlen := BufferedRead.unread_length sz w.rb h.base.core.rb
  have hiff := step_none_iff e.o (e.sess w).rx (e.base + w.rb.fetch) w.rb.unread hjs.2
  rw [← hjs.1] at hiff
  have hcall : ∀ num, Satisfied w.rb.unread j → load (BufferedRead.callHandler (handler e) w j SUCCESS num).1 < w.rb.unread.length + 1 := by
    intro num hsat
    cases hst : WsRecv.step e.o (at' e w) w.rb.unread with
    | none => exact absurd hsat (hiff.mp hst)
    | some x =>
      obtain ⟨rx', rest, outs⟩ := x
      obtain ⟨g1, g2⟩ := good_call e hsz h.good h.base.core hsh h.base.cb j num rx' rest outs hst
      obtain ⟨_, hlt⟩ := (h.good.ok.addr (e.base + w.rb.fetch)).step hst
      unfold load
      rw [g2.rb, unread_consume, List.length_drop]
      split <;> simp only <;> omega
  unfold BufferedRead.runJob
  by_cases hle : w.lastError = SUCCESS
  · rw [if_neg (by simp [hle])]
    cases j with
    | «until» d => exact absurd hjs.1.symm (job_not_until _ d)
    | atLeast n =>
      simp only
      by_cases ha : n ≤ w.rb.unreadBytes
      · rw [if_pos ha]; right; exact hcall n (by simp only [Satisfied]; omega)
      · rw [if_neg ha]; left; rfl
    | atMost n =>
      simp only
      by_cases ha : w.rb.unreadBytes > 0
      · rw [if_pos ha]; right
        exact hcall _ (by intro q; rw [q] at hlen; simp at hlen; omega)
      · rw [if_neg ha]; left; rfl
  · rw [if_pos hle]
    right
    have hreact : react e.o e.base (e.sess w) (rec w j w.lastError 0) =
        ⟨{ (e.sess w).rx with cont := .stopped }, (e.sess w).outs ++ [.fail (codeOf w.lastError)], 0, false⟩ := by
      unfold react
      rw [if_pos (by simpa [rec] using hle)]; rfl
    have hcd := called e w j w.lastError 0 hsh h.base.cb (by
      intro n hn
      rw [hreact] at hn
      simp only [jobOf, Job.atLeast.injEq] at hn
      rw [h.base.core.rb.1]; omega)
    rw [hreact] at hcd
    rcases hcd.job with q | ⟨_, q, _⟩
    · unfold load; rw [if_pos q, hcd.rb, unread_consume]; simp
    · exact absurd rfl q

/-- Reading from the transport. -/
theorem readSome_good {sz : Nat} {ds : List (List UInt8)} {w : World} (hsz : 125 ≤ sz) (hc : Core sz w) (hcb : w.callbackIsRunning = 0) (h : Good e ds w)
    (hcl : w.closed = false) (j : Job) (hj : w.job = some j) (rs : Err) (hn : WsRecv.step e.o (at' e w) w.rb.unread = none) :
    Good e ds (BufferedRead.readSome (handler e) w j rs) ∧
      (rs = SUCCESS → BufferedRead.readSome (handler e) w j rs = { w with waiting := true }) ∧
      (rs ≠ SUCCESS → (BufferedRead.readSome (handler e) w j rs).job = none) := by
  have hsh : w.shallClose = false := by
    cases q : w.shallClose with
    | false => rfl
    | true => have := h.shall q; rw [hcl] at this; cases this
  have hjs : j = jobOf (e.sess w).rx ∧ (e.sess w).rx.cont ≠ .stopped := by
    rcases h.job with q | ⟨q, q2⟩
    · rw [hj] at q; cases q
    · rw [hj] at q; cases q; exact ⟨rfl, q2⟩
  by_cases hrs : rs = SUCCESS
  · have er : BufferedRead.readSome (handler e) w j rs = { w with waiting := true } := by simp [BufferedRead.readSome, hrs]
    rw [er]
    exact ⟨h.cong e rfl rfl rfl (.inl rfl) rfl h.misuse rfl rfl h.shall (fun _ h => h), fun _ => rfl, fun q => absurd hrs q⟩
  · have er : BufferedRead.readSome (handler e) w j rs =
        (BufferedRead.callHandler (handler e) { w with transportErrs := w.transportErrs ++ [rs] } j rs 0).1 := by simp [BufferedRead.readSome, hrs]
    rw [er]
    have g : Good e ds { w with transportErrs := w.transportErrs ++ [rs] } :=
      h.cong e rfl rfl rfl (.inl rfl) rfl h.misuse rfl rfl h.shall (fun _ h => by simp [h])
    refine ⟨good_error e g hsh hcb (by show 0 < w.rb.mem.length; rw [hc.rb.1]; omega) j rs 0 hrs (by simp) hjs.2 hn, fun q => absurd q hrs, fun _ => ?_⟩
    have hcd := called e { w with transportErrs := w.transportErrs ++ [rs] } j rs 0 hsh hcb (by
      intro n hn
      unfold react at hn
      rw [if_pos (by simpa [rec] using hrs)] at hn
      simp only [jobOf, Job.atLeast.injEq] at hn
      show n ≤ w.rb.mem.length
      rw [hc.rb.1]; omega)
    rcases hcd.job with q | ⟨q1, q2, q3⟩
    · exact q
    · exfalso
      apply q2
      unfold react
      rw [if_pos (by simpa [rec] using hrs)]

theorem fillBuffer_good {sz : Nat} {ds : List (List UInt8)} {w : World} (hsz : 125 ≤ sz) (hc : Core sz w) (hcb : w.callbackIsRunning = 0) (h : Good e ds w)
    (hcl : w.closed = false) (j : Job) (hj : w.job = some j) (rs : Err) (hn : WsRecv.step e.o (at' e w) w.rb.unread = none) :
    Good e ds (BufferedRead.fillBuffer (handler e) w j rs) ∧
      ((BufferedRead.fillBuffer (handler e) w j rs).job ≠ none → (BufferedRead.fillBuffer (handler e) w j rs).waiting = true) := by
  have hlen := BufferedRead.unread_length sz w.rb hc.rb
  have hjs : j = jobOf (e.sess w).rx ∧ (e.sess w).rx.cont ≠ .stopped := by
    rcases h.job with q | ⟨q, q2⟩
    · rw [hj] at q; cases q
    · rw [hj] at q; cases q; exact ⟨rfl, q2⟩
  have hiff := step_none_iff e.o (e.sess w).rx
  have hns : ¬ Satisfied w.rb.unread j := by rw [hjs.1]; exact (hiff _ _ hjs.2).mp hn
  have fin : ∀ v, BufferedRead.readSome (handler e) v j rs = BufferedRead.fillBuffer (handler e) w j rs →
      Good e ds (BufferedRead.readSome (handler e) v j rs) ∧
      (rs = SUCCESS → BufferedRead.readSome (handler e) v j rs = { v with waiting := true }) ∧
      (rs ≠ SUCCESS → (BufferedRead.readSome (handler e) v j rs).job = none) →
      Good e ds (BufferedRead.fillBuffer (handler e) w j rs) ∧
      ((BufferedRead.fillBuffer (handler e) w j rs).job ≠ none → (BufferedRead.fillBuffer (handler e) w j rs).waiting = true) := by
    intro v hv ⟨g1, g2, g3⟩
    rw [← hv]
    refine ⟨g1, fun hne => ?_⟩
    by_cases hrs : rs = SUCCESS
    · rw [g2 hrs]
    · exact absurd (g3 hrs) hne
  by_cases h0 : w.rb.spaceAvailable = 0
  · have hadd : w.rb.add = sz := by
      have := hc.rb.2.2
      simp only [BufferedRead.ReadBuffer.spaceAvailable, hc.rb.1] at h0; omega
    by_cases hf : w.rb.fetch = 0
    · exfalso
      apply hns
      have hub : w.rb.unreadBytes = sz := by simp only [BufferedRead.ReadBuffer.unreadBytes]; omega
      cases j with
      | «until» d => exact absurd hjs.1.symm (job_not_until _ d)
      | atLeast n =>
        have := job_small h.ok n hjs.1.symm
        simp only [Satisfied]; omega
      | atMost n => intro q; rw [q] at hlen; simp at hlen; omega
    · refine fin { w with rb := w.rb.compact } (by unfold BufferedRead.fillBuffer; rw [if_pos h0, if_neg hf]) ?_
      obtain ⟨c1, c2⟩ := BufferedRead.compact_ok sz w.rb hc.rb
      have hn' : WsRecv.step e.o (at' e { w with rb := w.rb.compact }) w.rb.compact.unread = none := by
        rw [c2]
        exact (hiff _ _ hjs.2).mpr (by rw [← hjs.1]; exact hns)
      refine readSome_good e (w := { w with rb := w.rb.compact }) hsz ⟨c1, ?_, hc.jobok, hc.calls, hc.count, hc.errok, hc.ub⟩ hcb ?_ hcl j hj rs hn'
      · show w.consumed ++ w.rb.compact.unread = _
        rw [c2]; exact hc.stream
      · refine ⟨h.misuse, h.refused, h.over, h.job, h.ok, h.shall, fun _ _ => hn', h.got, h.idle, ?_⟩
        obtain ⟨ps, p1, p2⟩ := h.agree
        refine ⟨ps, p1, ?_⟩
        rcases p2 with p2 | p2
        · obtain ⟨i1, i2, i3⟩ := p2.idle e hn
          exact .inl (Agree.of_idle e hn' i1 (by rw [i2]; exact c2.symm) i3)
        · exact absurd p2.stopped hjs.2
  · exact fin w (by unfold BufferedRead.fillBuffer; rw [if_neg h0]) (readSome_good e hsz hc hcb h hcl j hj rs hn)

theorem step_loop {sz : Nat} {ds : List (List UInt8)} {w w' : World} (hsz : 125 ≤ sz) (rs : Err) (h : Inv e sz ds w)
    (hs : step e w (.loop rs) = some w') : Inv e sz ds w' := by
  have hs0 : BufferedRead.step (handler e) w (.loop rs) = some w' := hs
  simp only [step, BufferedRead.step] at hs
  split at hs
  · next hl =>
    simp only [Option.some.injEq] at hs
    have hcl := h.loop hl
    have key : Good e ds w' ∧ (w'.looping = true → w'.closed = false) ∧ (w'.job ≠ none → w'.looping = false → w'.closed = false → w'.waiting = true) := by
      unfold BufferedRead.loopIter at hs
      cases hj : w.job with
      | none =>
        rw [hj] at hs
        subst hs
        refine ⟨h.good.cong e rfl rfl (by rw [hj]) (.inl rfl) rfl h.good.misuse rfl rfl h.good.shall (fun _ h => h), ?_, ?_⟩
        · intro q; cases q
        · intro q; exact absurd rfl q
      | some j =>
        rw [hj] at hs
        simp only at hs
        rcases runJob_good e hsz h hl j hj with ⟨r1, r2, r3⟩ | ⟨r1, err, num, s, r2⟩
        · rw [r1] at hs
          simp only at hs
          obtain ⟨f1, f2⟩ := fillBuffer_good e hsz h.base.core h.base.cb h.good hcl j hj rs r3
          generalize BufferedRead.fillBuffer (handler e) w j rs = v at hs f1 f2
          subst hs
          exact ⟨f1.cong e rfl rfl rfl (.inl rfl) rfl f1.misuse rfl rfl f1.shall (fun _ h => h), fun q => (by cases q), fun q _ _ => f2 q⟩
        · generalize BufferedRead.runJob (handler e) w j = r at hs r1 r2
          obtain ⟨v, st⟩ := r
          cases st with
          | again => exact absurd rfl r2.again
          | closed =>
            simp only at hs r1
            subst hs
            refine ⟨r1.cong e rfl rfl rfl (.inl rfl) rfl r1.misuse rfl rfl r1.shall (fun _ h => h), fun q => (by cases q), fun _ _ q => ?_⟩
            have : v.closed = true := r2.closed.mpr (.inr rfl)
            have q' : v.closed = false := q
            rw [this] at q'; cases q'
          | «open» =>
            simp only at hs r1
            subst hs
            refine ⟨r1, ?_, ?_⟩
            · intro _
              cases q : v.closed with
              | false => rfl
              | true =>
                rcases r2.closed.mp q with q | q
                · rw [hcl] at q; cases q
                · cases q
            · intro _ q
              have := r2.looping
              simp only at this
              rw [this, hl] at q; cases q
    exact ⟨BufferedRead.step_inv sz (by omega) _ w w' _ h.base hs0 key.1.misuse, key.1, key.2.1, key.2.2⟩
  · cases hs

theorem run_inv {sz : Nat} (hsz : 125 ≤ sz) (xs : List Ev) {ds : List (List UInt8)} {w w' : World} (h : Inv e sz ds w) (hr : run e w xs = some w') :
    Inv e sz (ds ++ deliveries xs) w' := by
  induction xs generalizing ds w with
  | nil => simp only [run, Option.some.injEq] at hr; subst hr; simpa [deliveries] using h
  | cons x xs ih =>
    simp only [run] at hr
    cases hx : step e w x with
    | none => rw [hx] at hr; simp at hr
    | some v =>
      rw [hx] at hr
      cases x with
      | next => exact ih (step_next e hsz h hx) hr
      | close => exact ih (step_close e hsz h hx) hr
      | loop rs => exact ih (step_loop e hsz rs h hx) hr
      | fail err => exact ih (step_fail e hsz err h hx) hr
      | deliver bs =>
        have := ih (step_deliver e hsz bs h hx) hr
        rw [List.append_assoc] at this
        exact this

theorem init_inv (mem : List UInt8) : Inv e mem.length [] (BufferedRead.init mem) := by
  have hu : (BufferedRead.init mem).rb.unread = [] := by simp [BufferedRead.init, BufferedRead.ReadBuffer.unread]
  have hok : Ok e.selfClose (WsRecv.start e.server e.selfClose e.utf8) := fun _ => ⟨[], rfl, by simp [WsRecv.start], rfl, fun h => (by cases h),
    fun h => (by rcases h with h | h <;> cases h), fun h => (by rcases h with h | h <;> cases h), by decide⟩
  have hn : WsRecv.step e.o (at' e (BufferedRead.init mem)) (BufferedRead.init mem).rb.unread = none := by rw [hu]; rfl
  refine ⟨BufferedRead.init_inv mem, ⟨rfl, rfl, rfl, .inl rfl, hok, fun h => (by cases h), fun h => absurd rfl h, rfl, fun _ _ => .inl rfl, [], rfl, .inl ?_⟩, fun h => (by cases h), fun h => absurd rfl h⟩
  exact Agree.of_idle e hn (fun _ => rfl) hu.symm rfl

end Cio.WsStream
