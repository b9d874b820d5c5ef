import Verif.HttpLife.TimedInv
/-
C96: no request takes for ever.
-/
namespace Cio.HttpLife

/-- What is known about the time of a connection that is not being closed. -/
structure TInv (p : Limits) (t : Timed) : Prop where
  k1 : t.s.w.young → t.s.w.reqT.set = true → t.s.w.reqT.armed = true ∧ t.reqDue = t.since + p.header
  as : t.s.w.young → t.s.w.reqT.armed = true → t.s.w.reqT.set = true
  kd : t.s.w.reqT.armed = true → t.reqDue ≤ t.since + p.header + p.late + p.body
  kh : hasHdr t.s.stack = true → t.now ≤ t.since + p.header + p.late
  kn : t.s.w.reqT.armed = true → t.now ≤ t.reqDue + p.late
  kr : t.s.w.respT.armed = true → t.now ≤ t.respDue + p.late ∧ t.respDue ≤ t.since + p.header + p.body + p.response + 2 * p.late
  kw : t.s.w.written = false → t.now ≤ t.since + p.header + p.body + 2 * p.late
  sn : t.since ≤ t.now
  ku : t.s.w.upgrade = false
  ka : t.now ≤ t.since + p.header + p.body + p.response + 3 * p.late

theorem tinv_init (p : Limits) : TInv p (tinit p) := by
  constructor <;> simp [tinit, init, World.young, hasHdr] <;> omega

theorem restarts_false {s s' : State} (h : s'.w.log.count .restarted = s.w.log.count .restarted) : restarts s s' = false := by
  simp [restarts, h]

theorem tinv_act {p : Limits} {t : Timed} {c : Choice} {s' : State} (h : TInv p t) (ho : Open t.s.w t.s.stack) (hr : Rule t.s c)
    (hu : c.act.asksUpgrade = false) (hs : step t.s c = some s') : TInv p (stamp p t c s') := by
  rcases step_kinds ho hr hs with g | g | g
  · have hrs := restarts_false g.rs
    have hrd : (stamp p t c s').reqDue = t.reqDue := by simp [stamp, hrs, g.nb]
    have hsi : (stamp p t c s').since = t.since := by simp [stamp, hrs]
    have hno : (stamp p t c s').now = t.now := rfl
    have hst : (stamp p t c s').s = s' := rfl
    constructor
    · rw [hst, hrd, hsi]
      intro hy hset
      rcases g.ry hy with e | e
      · rw [e] at hset ⊢; exact h.k1 (g.ph hy) hset
      · rw [e] at hset; simp at hset
    · rw [hst]
      intro hy ha
      rcases g.ry hy with e | e
      · rw [e] at ha ⊢; exact h.as (g.ph hy) ha
      · rw [e] at ha; simp at ha
    · rw [hst, hrd, hsi]; intro ha; exact h.kd (g.rq ha)
    · rw [hst, hno, hsi]
      intro hh
      rcases g.hd hh with hh | ⟨hy, hset, _⟩
      · exact h.kh hh
      · obtain ⟨ha, he⟩ := h.k1 hy hset
        have := h.kn ha
        omega
    · rw [hst, hno, hrd]; intro ha; exact h.kn (g.rq ha)
    · rw [hst, hno, hsi]
      intro ha
      by_cases hlt : responses t.s.w.log < responses s'.w.log
      · have hw := h.kw (g.lt hlt)
        have : (stamp p t c s').respDue = t.now + p.response := by simp [stamp, responds, hlt]
        rw [this]
        omega
      · have : (stamp p t c s').respDue = t.respDue := by simp [stamp, responds, hlt]
        rw [this]
        exact h.kr (g.eq (by have := g.rp; omega) ha)
    · rw [hst, hno, hsi]; intro hw; exact h.kw (g.wr hw)
    · rw [hno, hsi]; exact h.sn
    · rw [hst]
      cases hx : s'.w.upgrade
      · rfl
      · rcases g.up hx with hx | hx
        · rw [h.ku] at hx; cases hx
        · rw [hu] at hx; cases hx
    · rw [hno, hsi]; exact h.ka
  · have hrs : restarts t.s s' = true := by simp [restarts, g.rs]
    have hrd : (stamp p t c s').reqDue = t.now + p.header := by simp [stamp, hrs]
    have hsi : (stamp p t c s').since = t.now := by simp [stamp, hrs]
    have hno : (stamp p t c s').now = t.now := rfl
    have hst : (stamp p t c s').s = s' := rfl
    have hsp : (stamp p t c s').respDue = t.respDue := by simp [stamp, responds, g.rp]
    have hsn := h.sn
    constructor
    · rw [hst, hrd, hsi, g.rq]; simp
    · rw [hst, g.rq]; simp
    · rw [hrd, hsi]; intro _; omega
    · rw [hno, hsi]; intro _; omega
    · rw [hno, hrd]; intro _; omega
    · rw [hst, hno, hsi, hsp, g.sp]
      intro ha
      have := h.kr ha
      omega
    · rw [hno, hsi]; intro _; omega
    · rw [hno, hsi]; omega
    · rw [hst]; exact g.up
    · rw [hno, hsi]; omega
  · have hrs := restarts_false (s := t.s) (s' := s') (by rw [g.lg])
    have hrd : (stamp p t c s').reqDue = if c.arm then t.now + p.body else t.reqDue := by simp [stamp, hrs, g.nb]
    have hsi : (stamp p t c s').since = t.since := by simp [stamp, hrs]
    have hno : (stamp p t c s').now = t.now := rfl
    have hst : (stamp p t c s').s = s' := rfl
    have hsp : (stamp p t c s').respDue = t.respDue := by simp [stamp, responds, g.lg]
    have hph : t.s.w.phase = .body := ho.uh g.hd
    have hny : ¬ s'.w.young := by intro hy; rcases hy with hy | hy <;> (rw [g.ph, hph] at hy; cases hy)
    have hkh := h.kh g.hd
    constructor
    · rw [hst]; intro hy; exact absurd hy hny
    · rw [hst]; intro hy; exact absurd hy hny
    · rw [hst, hrd, hsi, g.rq]
      cases c.arm
      · simpa [Timer.arm] using h.kd
      · simp; omega
    · rw [hno, hsi]; intro _; exact hkh
    · rw [hst, hno, hrd, g.rq]
      cases c.arm
      · simpa [Timer.arm] using h.kn
      · simp; omega
    · rw [hst, hno, hsi, hsp, g.sp]; exact h.kr
    · rw [hst, hno, hsi, g.wr]; exact h.kw
    · rw [hno, hsi]; exact h.sn
    · rw [hst, g.up]; exact h.ku
    · rw [hno, hsi]; exact h.ka

/-- An idle connection is supervised (`idle_is_supervised`), by the timer of the request as long as there is no response. -/
theorem idle_timers {s : State} (h : Open s.w s.stack) (hi : s.stack = []) (hu : s.w.upgrade = false) :
    (s.w.reqT.armed = true ∨ s.w.respT.armed = true) ∧ (s.w.written = false → s.w.reqT.armed = true) := by
  obtain ⟨w, st⟩ := s
  simp only at hi hu h
  subst hi
  have hp : w.parsing = 0 := by rcases h.shape with h | h | h <;> simp_all [deep]
  have h1 := h.b4 hp hu
  have h2 := h.a0 hp
  have h3 := h.b5
  have h4 := h.b1
  have h5 := h.rc
  have h6 := h.c1
  simp only [hasErr, hasEnd, strip] at h1 h2 h3
  constructor <;> grind

theorem tinv_wait {p : Limits} {t : Timed} {d : Nat} (h : TInv p t) (ho : Open t.s.w t.s.stack) (hw : mayWait p t d = true) :
    TInv p { t with now := t.now + d } := by
  simp only [mayWait, Bool.and_eq_true, List.isEmpty_iff, Bool.or_eq_true, Bool.not_eq_true', decide_eq_true_eq] at hw
  obtain ⟨⟨hi, h1⟩, h2⟩ := hw
  obtain ⟨g1, g2⟩ := idle_timers ho hi h.ku
  have f1 : t.s.w.reqT.armed = true → t.now + d ≤ t.reqDue + p.late := by intro ha; rcases h1 with h1 | h1 <;> simp_all
  have f2 : t.s.w.respT.armed = true → t.now + d ≤ t.respDue + p.late := by intro ha; rcases h2 with h2 | h2 <;> simp_all
  have hsn := h.sn
  constructor
  · exact h.k1
  · exact h.as
  · exact h.kd
  · simp only [hi]; intro hh; simp [hasHdr] at hh
  · exact f1
  · exact fun ha => ⟨f2 ha, (h.kr ha).2⟩
  · intro hw
    have := f1 (g2 hw)
    have := h.kd (g2 hw)
    simp only
    omega
  · simp only; omega
  · exact h.ku
  · simp only
    rcases g1 with g | g
    · have := f1 g; have := h.kd g; omega
    · have := f2 g; have := (h.kr g).2; omega

/-- A connection that is being closed is not opened again. -/
theorem closed_stays {s s' : State} {c : Choice} (h : Closed s.w s.stack) (hr : Rule s c) (hs : step s c = some s') : s'.w.closes = 1 := by
  obtain ⟨w, st⟩ := s
  obtain ⟨h1, h2, h3, h4, h5, h6, h7⟩ := h
  simp only at h1 h2 h3 h4 h5 h6 h7
  rcases h7 with ⟨rfl, hrun, hsock, hrd, hwr⟩ | ⟨rfl, hrun, hsock, hsc⟩
  · simp only [step, h2] at hs
    simp [eventStep, hrd, hwr, h4, h5, h1, h6] at hs
    split at hs <;> simp at hs
    obtain ⟨ho, hs⟩ := hs
    subst hs
    rfl
  · simp only [step, h2, hsock] at hs
    simp [hrun, hsc] at hs
    subst hs
    unfold streamClose
    cases hlg : c.linger <;> simp [World.ev, h1]

/-- What holds in all timed executions. -/
structure TFull (p : Limits) (t : Timed) : Prop where
  full : Full t.s
  inv : t.s.w.closes = 0 → TInv p t

theorem open_of_closes {s : State} (h : Inv s) (hc : s.w.closes = 0) : Open s.w s.stack := by
  rcases h with h | h
  · exact h
  · have := h.c1; omega

/-- Every step obeys the rules; waiting always does. -/
theorem obeys_cons {p : Limits} {t t' : Timed} {c : TChoice} {cs : List TChoice} (ho : Obeys t.s (acts (c :: cs))) (h : tstep p t c = some t') :
    Obeys t'.s (acts cs) := by
  cases c with
  | wait d =>
    simp only [tstep] at h
    split at h <;> simp at h
    subst h
    exact ho
  | act c =>
    simp only [tstep] at h
    split at h
    · simp at h
    · split at h
      · next s' hs =>
        simp at h
        subst h
        exact ho.2 s' hs
      · simp at h

theorem tfull_step {p : Limits} {t t' : Timed} {c : TChoice} {cs : List TChoice} (h : TFull p t) (ho : Obeys t.s (acts (c :: cs)))
    (hu : ∀ x ∈ acts (c :: cs), x.act.asksUpgrade = false) (hs : tstep p t c = some t') : TFull p t' := by
  cases c with
  | wait d =>
    simp only [tstep] at hs
    split at hs <;> simp at hs
    next hw =>
    subst hs
    refine ⟨h.full, ?_⟩
    intro hc
    exact tinv_wait (h.inv hc) (open_of_closes h.full.inv hc) hw
  | act c =>
    simp only [tstep] at hs
    split at hs
    · simp at hs
    · split at hs
      · next s' h1 =>
        simp at hs
        subst hs
        refine ⟨full_step h.full c ho.1 h1, ?_⟩
        intro hc
        rcases h.full.inv with hop | hcl
        · exact tinv_act (h.inv hop.c0) hop ho.1 (hu c (by simp [acts])) h1
        · exfalso
          have := closed_stays hcl ho.1 h1
          simp only [stamp] at hc
          omega
      · simp at hs

theorem acts_tail {x : Choice} {c : TChoice} {cs : List TChoice} (h : x ∈ acts cs) : x ∈ acts (c :: cs) := by
  cases c <;> simp [acts, h]

theorem tfull_run {p : Limits} {t t' : Timed} (h : TFull p t) (cs : List TChoice) (ho : Obeys t.s (acts cs))
    (hu : ∀ x ∈ acts cs, x.act.asksUpgrade = false) (hs : trun p t cs = some t') : TFull p t' := by
  induction cs generalizing t with
  | nil => simp [trun] at hs; subst hs; exact h
  | cons c cs ih =>
    unfold trun at hs
    split at hs
    · next t1 h1 => exact ih (tfull_step h ho hu h1) (obeys_cons ho h1) (fun x hx => hu x (acts_tail hx)) hs
    · simp at hs

theorem tfull_init (p : Limits) : TFull p (tinit p) := ⟨full_init, fun _ => tinv_init p⟩

/- ### Not too early -/

/-- When timers can be cancelled, the timer of the request is the one for the header until that is complete and the one for the body from then on. -/
structure Low (p : Limits) (t : Timed) : Prop where
  l1 : t.headersAt = none ↔ t.s.w.young
  l3 : t.s.w.reqT.armed = true → ∀ h, t.headersAt = some h → t.reqDue = h + p.body
  l4 : hasHdr t.s.stack = true → t.headersAt = some t.now

theorem low_init (p : Limits) : Low p (tinit p) := by
  constructor <;> simp [tinit, init, World.young, hasHdr]

theorem low_act {p : Limits} {t : Timed} {c : Choice} {s' : State} (hl : Low p t) (h : TInv p t) (ho : Open t.s.w t.s.stack) (hr : Rule t.s c)
    (hc : c.cancel = true) (hs : step t.s c = some s') : Low p (stamp p t c s') := by
  have hst : (stamp p t c s').s = s' := rfl
  have hno : (stamp p t c s').now = t.now := rfl
  rcases step_kinds ho hr hs with g | g | g
  · have hrs := restarts_false g.rs
    have hrd : (stamp p t c s').reqDue = t.reqDue := by simp [stamp, hrs, g.nb]
    by_cases hb : t.s.w.phase ≠ .body ∧ s'.w.phase = .body
    · have hha : (stamp p t c s').headersAt = some t.now := by simp [stamp, hrs, hb]
      have hny : ¬ s'.w.young := by intro hy; rcases hy with hy | hy <;> (rw [hb.2] at hy; cases hy)
      have hna : s'.w.reqT.armed = false := by
        rcases g.pb hb.2 with e | ⟨hy, e | e | e⟩
        · exact absurd e hb.1
        · rw [e]
        · cases ha : s'.w.reqT.armed
          · rfl
          · have := h.as hy (g.rq ha)
            rw [e] at this; cases this
        · rw [hc] at e; cases e
      constructor
      · rw [hha, hst]; simp [hny]
      · rw [hst, hna]; simp
      · rw [hha, hno]; simp
    · have hha : (stamp p t c s').headersAt = t.headersAt := by simp only [stamp, hrs]; simp [hb]
      constructor
      · rw [hha, hst, hl.l1]
        constructor
        · intro hy
          by_cases hy' : s'.w.young
          · exact hy'
          · exfalso
            rcases g.pd hy' with e | e
            · exact e hy
            · apply hb
              refine ⟨?_, e⟩
              intro e'
              rcases hy with hy | hy <;> (rw [e'] at hy; cases hy)
        · exact g.ph
      · rw [hst, hrd, hha]; intro ha; exact hl.l3 (g.rq ha)
      · rw [hst, hha, hno]
        intro hh
        rcases g.hd hh with hh | ⟨hy, _, hp⟩
        · exact hl.l4 hh
        · exfalso
          apply hb
          refine ⟨?_, hp⟩
          intro e'
          rcases hy with hy | hy <;> (rw [e'] at hy; cases hy)
  · have hrs : restarts t.s s' = true := by simp [restarts, g.rs]
    have hha : (stamp p t c s').headersAt = none := by simp [stamp, hrs]
    have hp : t.s.w.phase = .done ∨ True := Or.inr trivial
    constructor
    · rw [hha, hst]; simp [World.young, g.ph]
    · rw [hha]; simp
    · rw [hst]
      intro hh
      exfalso
      have h1 := open_of_closes (inv_step (Or.inl ho) c hr hs) (by rw [g.cl]; exact ho.c0)
      have := h1.uh hh
      rw [g.ph] at this; cases this
  · have hrs := restarts_false (s := t.s) (s' := s') (by rw [g.lg])
    have hph : t.s.w.phase = .body := ho.uh g.hd
    have hha : (stamp p t c s').headersAt = t.headersAt := by simp [stamp, hrs, hph]
    have hrd : (stamp p t c s').reqDue = if c.arm then t.now + p.body else t.reqDue := by simp [stamp, hrs, g.nb]
    have h4 := hl.l4 g.hd
    constructor
    · rw [hha, hst, hl.l1]; simp [World.young, g.ph]
    · rw [hst, hrd, hha, g.rq]
      cases c.arm
      · simpa [Timer.arm] using hl.l3
      · rw [h4]
        intro _ h e
        injection e with e
        simp [e]
    · rw [hha, hno]; intro _; exact h4

theorem low_wait {p : Limits} {t : Timed} {d : Nat} (h : Low p t) (hw : mayWait p t d = true) : Low p { t with now := t.now + d } := by
  simp only [mayWait, Bool.and_eq_true, List.isEmpty_iff] at hw
  constructor
  · exact h.l1
  · exact h.l3
  · simp only [hw.1.1]; simp [hasHdr]

theorem low_run {p : Limits} {t t' : Timed} (h : TFull p t) (hl : t.s.w.closes = 0 → Low p t) (cs : List TChoice) (ho : Obeys t.s (acts cs))
    (hu : ∀ x ∈ acts cs, x.act.asksUpgrade = false) (hc : ∀ x ∈ acts cs, x.cancel = true) (hs : trun p t cs = some t') :
    t'.s.w.closes = 0 → Low p t' := by
  induction cs generalizing t with
  | nil => simp [trun] at hs; subst hs; exact hl
  | cons c cs ih =>
    unfold trun at hs
    split at hs
    · next t1 h1 =>
      refine ih (tfull_step h ho hu h1) ?_ (obeys_cons ho h1) (fun x hx => hu x (acts_tail hx)) (fun x hx => hc x (acts_tail hx)) hs
      cases c with
      | wait d =>
        simp only [tstep] at h1
        split at h1 <;> simp at h1
        next hw =>
        subst h1
        exact fun h0 => low_wait (hl h0) hw
      | act c =>
        simp only [tstep] at h1
        split at h1
        · simp at h1
        · split at h1
          · next s' h2 =>
            simp at h1
            subst h1
            intro h0
            rcases h.full.inv with hop | hcl
            · exact low_act (hl hop.c0) (h.inv hop.c0) hop ho.1 (hc c (by simp [acts])) h2
            · exfalso
              have := closed_stays hcl ho.1 h2
              simp only [stamp] at h0
              omega
          · simp at h1
    · simp at hs

/- ### The theorems -/

theorem trun_append {p : Limits} {t : Timed} (a b : List TChoice) : trun p t (a ++ b) = (trun p t a).bind (fun t' => trun p t' b) := by
  induction a generalizing t with
  | nil => rfl
  | cons c a ih =>
    simp only [List.cons_append, trun]
    cases tstep p t c with
    | none => rfl
    | some t1 => exact ih

theorem acts_append (a b : List TChoice) : acts (a ++ b) = acts a ++ acts b := by
  induction a with
  | nil => rfl
  | cons c a ih => cases c <;> simp [acts, ih]

theorem trun_run {p : Limits} {t t' : Timed} (cs : List TChoice) (h : trun p t cs = some t') : run t.s (acts cs) = some t'.s := by
  induction cs generalizing t with
  | nil => simp [trun] at h; subst h; rfl
  | cons c cs ih =>
    unfold trun at h
    split at h
    · next t1 h1 =>
      have := ih h
      cases c with
      | wait d =>
        simp only [tstep] at h1
        split at h1 <;> simp at h1
        subst h1
        exact this
      | act c =>
        simp only [tstep] at h1
        split at h1
        · simp at h1
        · split at h1
          · next s' h2 =>
            simp at h1
            subst h1
            simp only [acts, run, h2]
            exact this
          · simp at h1
    · simp at h

theorem since_run {p : Limits} {t t' : Timed} (h : TFull p t) (cs : List TChoice) (ho : Obeys t.s (acts cs))
    (hu : ∀ x ∈ acts cs, x.act.asksUpgrade = false) (hs : trun p t cs = some t') (hc : t'.s.w.closes = 0) :
    t.s.w.closes = 0 ∧ t.s.w.log.count .restarted ≤ t'.s.w.log.count .restarted ∧
      (t'.s.w.log.count .restarted = t.s.w.log.count .restarted → t'.since = t.since) := by
  induction cs generalizing t with
  | nil => simp [trun] at hs; subst hs; exact ⟨hc, Nat.le_refl _, fun _ => rfl⟩
  | cons c cs ih =>
    unfold trun at hs
    split at hs
    · next t1 h1 =>
      obtain ⟨i1, i2, i3⟩ := ih (tfull_step h ho hu h1) (obeys_cons ho h1) (fun x hx => hu x (acts_tail hx)) hs
      cases c with
      | wait d =>
        simp only [tstep] at h1
        split at h1 <;> simp at h1
        subst h1
        exact ⟨i1, i2, i3⟩
      | act c =>
        simp only [tstep] at h1
        split at h1
        · simp at h1
        · split at h1
          · next s' h2 =>
            simp at h1
            subst h1
            rcases h.full.inv with hop | hcl
            · refine ⟨hop.c0, ?_⟩
              have hm : t.s.w.log.count .restarted ≤ s'.w.log.count .restarted := by
                rcases step_kinds hop ho.1 h2 with g | g | g
                · exact Nat.le_of_eq g.rs.symm
                · rw [g.rs]; omega
                · exact Nat.le_of_eq (by rw [g.lg])
              simp only [stamp] at i2 i3
              refine ⟨by omega, ?_⟩
              intro he
              rw [i3 (by omega)]
              have : restarts t.s s' = false := by simp [restarts]; omega
              simp [this]
            · exfalso
              have := closed_stays hcl ho.1 h2
              simp only [stamp] at i1
              omega
          · simp at h1
    · simp at hs

/-- C96: between the moment the server is ready for a request and the moment it is ready for the next one or closes the connection there is at most the
sum of the three timeouts (and the delay of the event loop, once per timer): in whatever period (from `t1` to `t2`) the server neither became ready for
another request nor closed the connection, that period is not longer. -/
theorem request_takes_bounded_time (p : Limits) (a b : List TChoice) (ho : Obeys init (acts (a ++ b)))
    (hu : ∀ x ∈ acts (a ++ b), x.act.asksUpgrade = false) {t1 t2 : Timed} (h1 : trun p (tinit p) a = some t1) (h2 : trun p t1 b = some t2)
    (hn : t2.s.w.log.count .restarted = t1.s.w.log.count .restarted) (hc : Ev.closing ∉ t2.s.w.log) :
    t2.now ≤ t1.now + (p.header + p.body + p.response + 3 * p.late) := by
  rw [acts_append] at ho hu
  have hoa : Obeys init (acts a) ∧ Obeys t1.s (acts b) := by
    have hr := trun_run a h1
    clear h1 h2 hu
    revert ho hr
    show Obeys init (acts a ++ acts b) → run init (acts a) = some t1.s → _
    generalize init = s0
    generalize acts a = l
    intro ho hr
    induction l generalizing s0 with
    | nil => simp [run] at hr; subst hr; exact ⟨trivial, ho⟩
    | cons c l ih =>
      unfold run at hr
      split at hr
      · next s1 hs1 =>
        have := ih s1 (ho.2 s1 hs1) hr
        refine ⟨⟨ho.1, ?_⟩, this.2⟩
        intro s' hs'
        rw [hs1] at hs'
        injection hs' with hs'
        subst hs'
        exact this.1
      · simp at hr
  have f1 := tfull_run (tfull_init p) a hoa.1 (fun x hx => hu x (by simp [hx])) h1
  have f2 := tfull_run f1 b hoa.2 (fun x hx => hu x (by simp [hx])) h2
  have hc0 : t2.s.w.closes = 0 := by
    rw [← f2.full.acc.cl]
    exact List.count_eq_zero.2 hc
  obtain ⟨g1, _, g3⟩ := since_run f1 b hoa.2 (fun x hx => hu x (by simp [hx])) h2 hc0
  have k2 := (f2.inv hc0).ka
  have k1 := (f1.inv g1).sn
  rw [g3 hn] at k2
  omega

/-- C96: a client that is fast enough is not cut off: a timer for the request expires not before `read_header_timeout_ns` have passed since the server was
ready for the request, if the header is not complete, and not before `read_body_timeout_ns` have passed since the header was complete, if it is. -/
theorem request_not_cut_short (p : Limits) (cs : List TChoice) (ho : Obeys init (acts cs)) (hu : ∀ x ∈ acts cs, x.act.asksUpgrade = false)
    (hx : ∀ x ∈ acts cs, x.cancel = true) {t t' : Timed} (h : trun p (tinit p) cs = some t) (hi : t.s.stack = []) {c : Choice} (hc : c.act = .requestTimeout)
    (hs : tstep p t (.act c) = some t') :
    (t.headersAt = none → t.since + p.header ≤ t.now) ∧ (∀ at', t.headersAt = some at' → at' + p.body ≤ t.now) := by
  have f := tfull_run (tfull_init p) cs ho hu h
  have hb : t.s.w.reqT.armed = true ∧ t.reqDue ≤ t.now := by
    simp only [tstep] at hs
    split at hs
    · simp at hs
    · next he =>
      split at hs
      · next s' h2 =>
        constructor
        · rcases f.full.inv with hop | hcl
          · simp only [step, hop.nu, hi] at h2
            simp [eventStep, hc] at h2
            exact h2.1
          · exfalso
            simp only [step, hcl.nu, hi] at h2
            simp [eventStep, hc, hcl.rq] at h2
        · simp [early, hi, hc] at he
          exact he
      · simp at hs
  have hc0 : t.s.w.closes = 0 := by
    rcases f.full.inv with hop | hcl
    · exact hop.c0
    · have := hcl.rq; rw [hb.1] at this; cases this
  have ti := f.inv hc0
  have lo := low_run (tfull_init p) (fun _ => low_init p) cs ho hu hx h hc0
  constructor
  · intro hn
    have hy := lo.l1.1 hn
    have := (ti.k1 hy (ti.as hy hb.1)).2
    omega
  · intro h' hh
    have := lo.l3 hb.1 h' hh
    omega

/-- C96: the clock is not stopped: whenever the library is idle and time can not pass, a timer that is due can expire. -/
theorem time_passes (p : Limits) (cs : List TChoice) (ho : Obeys init (acts cs)) {t : Timed} (hr : trun p (tinit p) cs = some t) (hi : t.s.stack = [])
    (hw : tstep p t (.wait 1) = none) :
    ∃ c : Choice, (c.act = .requestTimeout ∨ c.act = .responseTimeout) ∧ ∃ t', tstep p t (.act c) = some t' := by
  have hub : t.s.w.ub = false := no_undefined_behaviour_partial (acts cs) ho (trun_run cs hr)
  have h : ¬ mayWait p t 1 = true := by
    intro h
    simp [tstep, h] at hw
  simp only [mayWait, hi, List.isEmpty_nil, Bool.true_and, Bool.and_eq_true, Bool.or_eq_true, Bool.not_eq_true', decide_eq_true_eq] at h
  by_cases h1 : t.s.w.reqT.armed = true ∧ ¬ t.now + 1 ≤ t.reqDue + p.late
  · refine ⟨.of .requestTimeout, Or.inl rfl, ?_⟩
    have he : early t (.of .requestTimeout) = false := by simp [early, Choice.of]; omega
    simp only [tstep, he]
    simp [step, hub, hi, eventStep, Choice.of, h1.1]
  · refine ⟨.of .responseTimeout, Or.inr rfl, ?_⟩
    have h2 : t.s.w.respT.armed = true ∧ ¬ t.now + 1 ≤ t.respDue + p.late := by
      cases ha : t.s.w.reqT.armed <;> cases hb : t.s.w.respT.armed <;> simp_all
    have he : early t (.of .responseTimeout) = false := by simp [early, Choice.of]; omega
    simp only [tstep, he]
    simp [step, hub, hi, eventStep, Choice.of, h2.1]

/- ### Examples -/

private abbrev x (a : Act) : TChoice := .act (.of a)

def exampleLimits : Limits := { header := 10, body := 20, response := 5, late := 1 }

/-- A client that sends everything as late as possible and reads the response as late as possible. -/
def slowClient : List TChoice :=
  [x .readData, x (.onUrl .ok), x .urlDone, x .parsed, x .go, x .go, .wait 11,
   x .readData, x (.onHeaders true false true false), x .go, x .parsed, x .go, x .go, .wait 21,
   x .readData, x (.onMessage true), .act { act := .respond .plain false, out := .later }, x (.ret .success), x .go, x .parsed, x .go, x .go, x .go, .wait 6]

set_option maxRecDepth 20000 in
/-- The slow client obeys the rules; it takes exactly the time of `request_takes_bounded_time`, and no longer: now only the timer of the response can expire,
and it closes the connection. -/
theorem example_slow_client :
    obeysB init (acts slowClient) = true ∧ (acts slowClient).all (fun c => !c.act.asksUpgrade && c.cancel) = true ∧
    (trun exampleLimits (tinit exampleLimits) slowClient).map (fun t => (t.now, t.s.w.log, t.s.stack)) =
      some (38, [.response .plain, .callback .message, .handlerAlloc 0], []) ∧
    trun exampleLimits (tinit exampleLimits) (slowClient ++ [.wait 1]) = none ∧
    (trun exampleLimits (tinit exampleLimits) (slowClient ++ [x .responseTimeout])).map (fun t => (t.now, t.s.w.log)) =
      some (38, [.freed, .handlerFree 0, .closing, .response .plain, .callback .message, .handlerAlloc 0]) := by decide +kernel

set_option maxRecDepth 20000 in
/-- A client that sends a header field now and then does not get more time by it: the timer may not expire at 9, it does at 10, and 408 is sent. -/
theorem example_trickle :
    let trickle := [x .readData, x (.onUrl .ok), x .urlDone, x .parsed, x .go, x .go, .wait 4,
      x .readData, x (.onField false), x .parsed, x .go, x .go, .wait 5]
    obeysB init (acts (trickle ++ [.wait 1, x .requestTimeout, x .go, x .go])) = true ∧
    trun exampleLimits (tinit exampleLimits) (trickle ++ [x .requestTimeout]) = none ∧
    (trun exampleLimits (tinit exampleLimits) (trickle ++ [.wait 1, x .requestTimeout, x .go, x .go])).map (fun t => (t.now, t.s.w.log)) =
      some (10, [.freed, .handlerFree 0, .closing, .response .closing, .handlerAlloc 0]) := by decide +kernel

end Cio.HttpLife
