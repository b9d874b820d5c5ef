import Verif.HttpLife.Timed
/-
What a step does to the timers, and the invariant of timed executions.
-/
namespace Cio.HttpLife

def World.young (w : World) : Prop := w.phase = .start ∨ w.phase = .header

/-- An ordinary change: no timer for the request is armed, the response timer only together with a response. -/
structure Eff (w w' : World) : Prop where
  ph : w'.young → w.young
  pb : w'.phase = w.phase
  up : w'.upgrade = w.upgrade
  rq : w'.reqT = w.reqT ∨ w'.reqT = {}
  rs : w'.log.count .restarted = w.log.count .restarted
  rp : responses w.log ≤ responses w'.log
  eq : responses w'.log = responses w.log → w'.respT.armed = true → w.respT.armed = true
  lt : responses w.log < responses w'.log → w.written = false
  wr : w'.written = false → w.written = false
  cl : w.closes ≤ w'.closes

theorem Eff.refl (w : World) : Eff w w := by constructor <;> simp

theorem Eff.trans {a b c : World} (h : Eff a b) (g : Eff b c) : Eff a c := by
  obtain ⟨h0, h0', h1, h2, h3, h4, h5, h6, h7, h8⟩ := h
  obtain ⟨g0, g0', g1, g2, g3, g4, g5, g6, g7, g8⟩ := g
  constructor
  · exact fun x => h0 (g0 x)
  · rw [g0', h0']
  · rw [g1, h1]
  · rcases g2 with g2 | g2
    · rw [g2]; exact h2
    · exact Or.inr g2
  · rw [g3, h3]
  · omega
  · intro he; have a1 : responses b.log = responses a.log := by omega
    intro hc; exact h5 a1 (g5 (by omega) hc)
  · intro hl
    by_cases hx : responses a.log < responses b.log
    · exact h6 hx
    · exact h7 (g6 (by omega))
  · exact fun x => h7 (g7 x)
  · omega

theorem eff_ev (w : World) (e : Ev) (h1 : e ≠ .restarted) (h2 : e.isResponse = false) : Eff w (w.ev e) := by
  constructor <;> simp [World.ev, responses, h1, h2, World.young, List.count_cons]

theorem eff_freeHandler (w : World) : Eff w (freeHandler w) := by
  unfold freeHandler
  split
  · constructor <;> simp [World.ev, responses, World.young, List.count_cons, Ev.isResponse]
  · exact Eff.refl w

theorem eff_streamClose (w : World) (l : Bool) : Eff w (streamClose w l) := by
  unfold streamClose
  cases l <;> constructor <;> simp [World.ev, responses, World.young, List.count_cons, Ev.isResponse]

theorem eff_bsClose (w : World) (l : Bool) : Eff w (bsClose w l) := by
  unfold bsClose
  split
  · exact eff_streamClose w l
  · constructor <;> simp [World.young]

theorem eff_closeClient (w : World) (l : Bool) : Eff w (closeClient w l) := by
  unfold closeClient
  refine Eff.trans (Eff.trans ?_ (eff_freeHandler _)) (eff_bsClose _ l)
  constructor <;> simp [World.ev, responses, World.young, List.count_cons, Ev.isResponse]

theorem eff_mark (w : World) (l : Bool) : Eff w (mark w l) := by
  unfold mark
  split
  · exact eff_closeClient w l
  · constructor <;> simp [World.young]

theorem eff_writeResponse (w : World) (k : Kind) (cb : Bool) (c : Choice) : Eff w (writeResponse w k cb c).1 := by
  unfold writeResponse
  by_cases hw : w.written = true
  · rw [if_pos hw]; exact Eff.refl w
  · rw [if_neg hw]
    cases ha : c.arm
    · simp only [Bool.false_eq_true, if_false]
      refine Eff.trans (Eff.trans ?_ (eff_ev _ .onError (by simp) rfl)) (eff_mark _ _)
      constructor <;> simp [World.young, Timer.arm]
    · simp only [if_true]
      cases ho : c.out <;> constructor <;> simp_all [World.ev, responses, World.young, List.count_cons, List.countP_cons, Ev.isResponse]

theorem eff_respondOrMark (w : World) (c : Choice) : Eff w (respondOrMark w c).1 := by
  unfold respondOrMark
  have h := eff_writeResponse w .closing false c
  split
  · next w' i he => rw [he] at h; exact h
  · next w' i he => rw [he] at h; exact h.trans (eff_mark _ _)

theorem eff_respondOrClose (w : World) (c : Choice) : Eff w (respondOrClose w c).1 := by
  unfold respondOrClose
  have h := eff_writeResponse w .closing false c
  split
  · next w' i he => rw [he] at h; exact h
  · next w' i he => rw [he] at h; exact h.trans (eff_closeClient _ _)

theorem hdr_writeResponse (w : World) (k : Kind) (cb : Bool) (c : Choice) (l : List Item) :
    hasHdr ((writeResponse w k cb c).2.1 ++ l) = hasHdr l := by
  unfold writeResponse
  by_cases hw : w.written = true
  · rw [if_pos hw]; simp
  · rw [if_neg hw]
    cases ha : c.arm
    · simp
    · simp only [if_true]
      cases ho : c.out <;> simp [hasHdr, Item.isHdr]

theorem hdr_respondOrMark (w : World) (c : Choice) (l : List Item) : hasHdr ((respondOrMark w c).2 ++ l) = hasHdr l := by
  unfold respondOrMark
  have h := hdr_writeResponse w .closing false c l
  split <;> (next w' i he => rw [he] at h; exact h)

theorem hdr_respondOrClose (w : World) (c : Choice) (l : List Item) : hasHdr ((respondOrClose w c).2 ++ l) = hasHdr l := by
  unfold respondOrClose
  have h := hdr_writeResponse w .closing false c l
  split <;> (next w' i he => rw [he] at h; exact h)

/-- What a step does that neither makes the server ready for the next request nor arms the timer for the body. -/
structure Std (s : State) (c : Choice) (s' : State) : Prop where
  ph : s'.w.young → s.w.young
  pd : ¬ s'.w.young → ¬ s.w.young ∨ s'.w.phase = .body
  pb : s'.w.phase = .body → s.w.phase = .body ∨ (s.w.young ∧ (s'.w.reqT = {} ∨ s.w.reqT.set = false ∨ c.cancel = false))
  up : s'.w.upgrade = true → s.w.upgrade = true ∨ c.act.asksUpgrade = true
  rq : s'.w.reqT.armed = true → s.w.reqT.armed = true
  ry : s'.w.young → s'.w.reqT = s.w.reqT ∨ s'.w.reqT = {}
  rs : s'.w.log.count .restarted = s.w.log.count .restarted
  rp : responses s.w.log ≤ responses s'.w.log
  eq : responses s'.w.log = responses s.w.log → s'.w.respT.armed = true → s.w.respT.armed = true
  lt : responses s.w.log < responses s'.w.log → s.w.written = false
  wr : s'.w.written = false → s.w.written = false
  cl : s.w.closes ≤ s'.w.closes
  hd : hasHdr s'.stack = true → hasHdr s.stack = true ∨ (s.w.young ∧ s.w.reqT.set = true ∧ s'.w.phase = .body)
  nb : bodyArmed s c = false

theorem std_of_eff {s s' : State} {c : Choice} (h : Eff s.w s'.w) (hd : hasHdr s'.stack = true → hasHdr s.stack = true) (nb : bodyArmed s c = false) : Std s c s' := by
  obtain ⟨h0, h0', h1, h2, h3, h4, h5, h6, h7, h8⟩ := h
  constructor
  · exact h0
  · intro h; left; simpa [World.young, h0'] using h
  · intro h; left; rw [← h0']; exact h
  · intro h; left; rw [← h1]; exact h
  · rcases h2 with h2 | h2 <;> simp [h2]
  · exact fun _ => h2
  · exact h3
  · exact h4
  · exact h5
  · exact h6
  · exact h7
  · exact h8
  · exact fun h => Or.inl (hd h)
  · exact nb

/-- The server is ready for the next request. -/
structure Again (s s' : State) : Prop where
  ph : s'.w.phase = .start
  up : s'.w.upgrade = false
  rq : s'.w.reqT = { set := true, armed := true }
  rs : s'.w.log.count .restarted = s.w.log.count .restarted + 1
  rp : responses s'.w.log = responses s.w.log
  sp : s'.w.respT = s.w.respT
  cl : s'.w.closes = s.w.closes
  hd : hasHdr s'.stack = true → hasHdr s.stack = true
  nb : ∀ c, bodyArmed s c = false

/-- The end of `on_headers_complete`. -/
structure Body (s : State) (c : Choice) (s' : State) : Prop where
  ph : s'.w.phase = s.w.phase
  up : s'.w.upgrade = s.w.upgrade
  rq : s'.w.reqT = s.w.reqT.arm c.arm
  lg : s'.w.log = s.w.log
  sp : s'.w.respT = s.w.respT
  wr : s'.w.written = s.w.written
  cl : s'.w.closes = s.w.closes
  hd : hasHdr s.stack = true
  nb : bodyArmed s c = c.arm

theorem eff_reqT (w : World) : Eff w { w with reqT := {} } := by constructor <;> simp [World.young]
theorem eff_respT (w : World) : Eff w { w with respT := {} } := by constructor <;> simp [World.young]

theorem std_event {w : World} {c : Choice} {s' : State} (h : eventStep w c = some s') : Std ⟨w, []⟩ c s' := by
  unfold eventStep at h
  split at h
  · split at h <;> simp at h
    subst h
    refine std_of_eff ?_ (by simp [parseStart, hasHdr, Item.isHdr]) rfl
    constructor <;> simp [parseStart, World.young]
  · split at h <;> simp at h
    subst h
    refine std_of_eff ?_ (by simp [parseStart, hasHdr, Item.isHdr]) rfl
    constructor <;> simp [parseStart, World.young]
  · split at h <;> simp at h
    subst h
    refine std_of_eff ?_ (by simp [hasHdr, Item.isHdr]) rfl
    constructor <;> simp [World.young]
  · split at h <;> simp at h
    subst h
    refine std_of_eff ?_ (by simp [hasHdr, Item.isHdr]) rfl
    constructor <;> simp [World.young]
  · split at h <;> simp at h
    subst h
    refine std_of_eff ((eff_reqT w).trans (eff_respondOrMark _ c)) ?_ rfl
    have := hdr_respondOrMark { w with reqT := {} } c []
    simp at this
    simp [this]
  · split at h <;> simp at h
    subst h
    refine std_of_eff ((eff_respT w).trans (eff_respondOrMark _ c)) ?_ rfl
    have := hdr_respondOrMark { w with respT := {} } c []
    simp at this
    simp [this]
  · split at h <;> simp at h
    subst h
    refine std_of_eff ?_ (by simp [hasHdr]) rfl
    refine Eff.trans ?_ (eff_ev _ .freed (by simp) rfl)
    constructor <;> simp [World.young]
  · split at h <;> simp at h
    subst h
    exact std_of_eff (eff_mark w _) (by simp [hasHdr]) rfl
  · next k b _ =>
    split at h <;> simp at h
    subst h
    refine std_of_eff (eff_writeResponse w k b c) ?_ rfl
    have := hdr_writeResponse w k b c []
    simp at this
    simp [this]
  · simp at h

theorem std_user {w : World} {cb : Cb} {last body : Bool} {rest : List Item} {c : Choice} {s' : State} (h : userStep w cb last body c rest = some s') :
    Std ⟨w, .user cb last body :: rest⟩ c s' := by
  unfold userStep at h
  split at h
  · next k b _ =>
    simp at h
    subst h
    exact std_of_eff (eff_writeResponse w k b c) (by simp [hdr_writeResponse]) rfl
  · simp at h
    subst h
    exact std_of_eff (eff_mark w _) (by simp) rfl
  · next r _ =>
    have e1 : Eff w { w with skip := true } := by constructor <;> simp [World.young]
    have e2 : Eff w { w with dead := true } := by constructor <;> simp [World.young]
    split at h
    · cases r <;> simp at h <;> subst h
      · exact std_of_eff (Eff.refl w) (by simp [hasHdr, Item.isHdr]) rfl
      · exact std_of_eff e1 (by simp [hasHdr, Item.isHdr]) rfl
      · exact std_of_eff e2 (by simp [hasHdr, Item.isHdr]) rfl
    · simp at h; subst h
      exact std_of_eff (Eff.refl w) (by simp [hasHdr, Item.isHdr]) rfl
    · split at h
      · simp at h; subst h
        exact std_of_eff e2 (by simp [hasHdr, Item.isHdr]) rfl
      · split at h <;> simp at h <;> subst h
        · exact std_of_eff (Eff.refl w) (by simp [hasHdr, Item.isHdr]) rfl
        · exact std_of_eff (Eff.refl w) (by simp [hasHdr, Item.isHdr]) rfl
    · split at h <;> simp at h <;> subst h
      · refine std_of_eff (Eff.refl w) ?_ rfl
        simp [hasHdr, Item.isHdr]
        intro h; exact Or.inr h
      · refine std_of_eff e2 ?_ rfl
        simp [hasHdr, Item.isHdr]
        intro h; exact Or.inr h
    · simp at h
  · simp at h

/-- A step with an ordinary change behind the one of the phase. -/
theorem std_trans {s s' : State} {c : Choice} {w1 : World} (h : Eff w1 s'.w)
    (ph : w1.young → s.w.young) (pd : ¬ w1.young → ¬ s.w.young ∨ w1.phase = .body)
    (pb : w1.phase = .body → s.w.phase = .body ∨ (s.w.young ∧ (w1.reqT = {} ∨ s.w.reqT.set = false ∨ c.cancel = false)))
    (up : w1.upgrade = true → s.w.upgrade = true ∨ c.act.asksUpgrade = true) (rq : w1.reqT = s.w.reqT ∨ w1.reqT = {})
    (lg : w1.log = s.w.log) (rt : w1.respT = s.w.respT) (wr : w1.written = s.w.written) (cl : w1.closes = s.w.closes)
    (hd : hasHdr s'.stack = true → hasHdr s.stack = true ∨ (s.w.young ∧ s.w.reqT.set = true ∧ w1.phase = .body))
    (nb : bodyArmed s c = false) : Std s c s' := by
  obtain ⟨h0, h0', h1, h2, h3, h4, h5, h6, h7, h8⟩ := h
  constructor
  · exact fun x => ph (h0 x)
  · intro h; rw [h0']; exact pd (by simpa [World.young, h0'] using h)
  · intro h
    rcases pb (by rw [← h0']; exact h) with h' | ⟨h', hq⟩
    · exact Or.inl h'
    · refine Or.inr ⟨h', ?_⟩
      rcases hq with hq | hq
      · left; rcases h2 with h2 | h2
        · rw [h2, hq]
        · exact h2
      · exact Or.inr hq
  · intro h; exact up (by rw [← h1]; exact h)
  · rcases h2 with h2 | h2
    · rw [h2]; rcases rq with rq | rq <;> simp [rq]
    · simp [h2]
  · intro _
    rcases h2 with h2 | h2
    · rw [h2]; exact rq
    · exact Or.inr h2
  · rw [h3, lg]
  · rw [lg] at h4; exact h4
  · rw [lg, rt] at h5; exact h5
  · rw [lg, wr] at h6; exact h6
  · rw [wr] at h7; exact h7
  · rw [cl] at h8; exact h8
  · rw [h0']; exact hd
  · exact nb

theorem eff_callHandler (w : World) (cb : Cb) (i a : List Item) (call : Bool) (rest : List Item) : Eff w (callHandler w cb i a call rest).w := by
  unfold callHandler
  split
  · exact Eff.refl w
  · split
    · constructor <;> simp [World.young]
    · split
      · exact eff_ev _ _ (by simp) rfl
      · exact Eff.refl w

theorem hdr_append (a b : List Item) : hasHdr (a ++ b) = (hasHdr a || hasHdr b) := by
  induction a with
  | nil => simp [hasHdr]
  | cons x a ih => simp [hasHdr, ih, Bool.or_assoc]

theorem hdr_callHandler (w : World) (cb : Cb) (i a : List Item) (call : Bool) (rest : List Item) :
    hasHdr (callHandler w cb i a call rest).stack = true → hasHdr i = true ∨ hasHdr a = true ∨ hasHdr rest = true := by
  unfold callHandler
  split
  · simp [hdr_append]; intro h; rcases h with h | h <;> simp [h]
  · split
    · simp [hasHdr]
    · split
      · simp [hdr_append]; intro h; rcases h with h | h <;> simp [h]
      · simp [hdr_append]; intro h; rcases h with h | h <;> simp [h]

theorem eff_newHandler (w : World) : Eff w (newHandler w) := by
  constructor <;> simp [newHandler, World.ev, responses, World.young, List.count_cons, Ev.isResponse]

theorem std_onUrl {w : World} {u : Url} {eof : Bool} {c : Choice} {rest : List Item} (hp : w.phase = .start) :
    Std ⟨w, .exec eof :: rest⟩ c (onUrl w u eof c rest) := by
  have key : ∀ (w1 : World) (s' : State), Eff w1 s'.w → w1.phase = .header → w1.upgrade = w.upgrade → w1.reqT = w.reqT → w1.log = w.log →
      w1.respT = w.respT → w1.written = w.written → w1.closes = w.closes → (hasHdr s'.stack = true → hasHdr rest = true) →
      Std ⟨w, .exec eof :: rest⟩ c s' := by
    intro w1 s' he h1 h2 h3 h4 h5 h6 h7 h8
    refine std_trans he ?_ ?_ ?_ ?_ (Or.inl h3) h4 h5 h6 h7 ?_ rfl
    · intro _; exact Or.inl hp
    · intro h; exact absurd (Or.inr h1) h
    · intro h; rw [h1] at h; cases h
    · intro h; left; rw [← h2]; exact h
    · intro h; left; simpa [hasHdr, Item.isHdr] using h8 h
  unfold onUrl
  cases u
  · refine key { w with phase := .header, fieldCb := true } _ ?_ rfl rfl rfl rfl rfl rfl rfl ?_
    · constructor <;> simp [World.young]
    · simp [hasHdr, Item.isHdr]
  · refine key { w with phase := .header, fieldCb := false } _ (eff_writeResponse _ .plain false c) rfl rfl rfl rfl rfl rfl rfl ?_
    simp [hdr_writeResponse, hasHdr, Item.isHdr]
  · exact key { w with phase := .header, fieldCb := true } _ (Eff.refl _) rfl rfl rfl rfl rfl rfl rfl (by simp [hasHdr, Item.isHdr])
  · exact key { w with phase := .header, fieldCb := true } _ (Eff.refl _) rfl rfl rfl rfl rfl rfl rfl (by simp [hasHdr, Item.isHdr])
  · exact key { w with phase := .header, fieldCb := true } _ (eff_newHandler _) rfl rfl rfl rfl rfl rfl rfl (by simp [hasHdr, Item.isHdr])
  · exact key { w with phase := .header, fieldCb := true } _ (eff_newHandler _) rfl rfl rfl rfl rfl rfl rfl (by simp [hasHdr, Item.isHdr])

theorem std_onHeaders {w : World} {ka ug body call eof : Bool} {c : Choice} {rest : List Item} (hp : w.phase = .header)
    (ha : c.act = .onHeaders ka ug body call) (hq : w.toBeClosed = false ∨ w.parsing ≠ 0 ∨ True) :
    Std ⟨w, .exec eof :: rest⟩ c (onHeaders w ka ug body call eof c rest) := by
  clear hq
  have hup : ug = true → c.act.asksUpgrade = true := by intro h; rw [ha, h]; rfl
  -- the change before the timer is cancelled
  have e1 : Eff { w with phase := .body, upgrade := ug, keepAlive := ka }
      (if !ka && w.fired then mark { w with phase := .body, upgrade := ug, keepAlive := ka } c.linger else { w with phase := .body, upgrade := ug, keepAlive := ka }) := by
    split
    · exact eff_mark _ _
    · exact Eff.refl _
  unfold onHeaders
  simp only
  generalize (if !ka && w.fired then mark { w with phase := .body, upgrade := ug, keepAlive := ka } c.linger else { w with phase := .body, upgrade := ug, keepAlive := ka }) = w2 at e1
  have rq2 : w2.reqT = w.reqT ∨ w2.reqT = {} := e1.rq
  have e2 : Eff w2 { w2 with reqT := (w2.reqT.cancel c.cancel).1 } := by
    constructor <;> simp [World.young]
    unfold Timer.cancel; split <;> simp
  have base : ∀ s' : State, Eff { w2 with reqT := (w2.reqT.cancel c.cancel).1 } s'.w →
      (hasHdr s'.stack = true → hasHdr rest = true ∨ w.reqT.set = true) → Std ⟨w, .exec eof :: rest⟩ c s' := by
    intro s' he hh
    have e3 := e1.trans (e2.trans he)
    have rq3 : s'.w.reqT = {} ∨ w.reqT.set = false ∨ c.cancel = false := by
      rcases rq2 with h | h
      · rcases he.rq with h' | h'
        · simp only at h'
          rw [h] at h'
          unfold Timer.cancel at h'
          cases hs : w.reqT.set <;> cases hc : c.cancel <;> simp [hs, hc] at h' ⊢
          exact h'
        · exact Or.inl h'
      · rcases he.rq with h' | h'
        · simp only at h'
          rw [h] at h'
          left; rw [h']
          simp [Timer.cancel]
        · exact Or.inl h'
    have ph3 : s'.w.phase = .body := e3.pb
    obtain ⟨g0, g0', g1, g2, g3, g4, g5, g6, g7, g8⟩ := e3
    constructor
    · intro h; rcases h with h | h <;> (rw [ph3] at h; cases h)
    · intro _; exact Or.inr ph3
    · intro _; exact Or.inr ⟨Or.inr hp, rq3⟩
    · intro h; rw [g1] at h; exact Or.inr (hup h)
    · rcases g2 with g2 | g2 <;> simp [g2]
    · exact fun _ => g2
    · exact g3
    · exact g4
    · exact g5
    · exact g6
    · exact g7
    · exact g8
    · intro h
      rcases hh h with h | h
      · left; simpa [hasHdr, Item.isHdr] using h
      · exact Or.inr ⟨Or.inr hp, h, ph3⟩
    · rfl
  split
  · next hok =>
    refine base _ (eff_callHandler _ _ _ _ _ _) ?_
    intro _
    right
    rcases rq2 with h | h
    · rw [h] at hok
      unfold Timer.cancel at hok
      cases hs : w.reqT.set
      · simp [hs] at hok
      · rfl
    · rw [h] at hok; simp [Timer.cancel] at hok
  · refine base _ (Eff.refl _) ?_
    simp [hasHdr, Item.isHdr]
    intro h; exact Or.inl h

theorem std_onMessage {w : World} {call eof : Bool} {c : Choice} {rest : List Item} (hp : w.phase = .body) :
    Std ⟨w, .exec eof :: rest⟩ c (onMessage w call eof c rest) := by
  have hny : ¬ w.young := by intro h; rcases h with h | h <;> (rw [hp] at h; cases h)
  have key : ∀ (w1 : World) (s' : State), Eff w1 s'.w → w1.phase = .done → w1.upgrade = w.upgrade → (w1.reqT = w.reqT ∨ w1.reqT = {}) → w1.log = w.log →
      w1.respT = w.respT → w1.written = w.written → w1.closes = w.closes → (hasHdr s'.stack = true → hasHdr rest = true) →
      Std ⟨w, .exec eof :: rest⟩ c s' := by
    intro w1 s' he h1 h2 h3 h4 h5 h6 h7 h8
    refine std_trans he ?_ ?_ ?_ ?_ h3 h4 h5 h6 h7 ?_ rfl
    · intro h; rcases h with h | h <;> (rw [h1] at h; cases h)
    · intro _; exact Or.inl hny
    · intro h; rw [h1] at h; cases h
    · intro h; left; rw [← h2]; exact h
    · intro h; left; simpa [hasHdr, Item.isHdr] using h8 h
  have hm : ∀ w : World, hasHdr (callHandler w .message [.user .message false false, .exec eof] [.messageEnd .success, .exec eof] call rest).stack = true →
      hasHdr rest = true := by
    intro w h
    rcases hdr_callHandler _ _ _ _ _ _ h with h | h | h
    · simp [hasHdr, Item.isHdr] at h
    · simp [hasHdr, Item.isHdr] at h
    · exact h
  have hc : (w.reqT.cancel c.cancel).1 = w.reqT ∨ (w.reqT.cancel c.cancel).1 = {} := by
    unfold Timer.cancel; split <;> simp
  unfold onMessage
  simp only
  split
  · exact key { w with phase := .done, skip := false } _ (eff_callHandler _ _ _ _ _ _) rfl rfl (Or.inl rfl) rfl rfl rfl rfl (hm _)
  · split
    · exact key { w with phase := .done, skip := false, reqT := (w.reqT.cancel c.cancel).1, finish := .restart } _ (eff_callHandler _ _ _ _ _ _) rfl rfl hc rfl rfl rfl rfl (hm _)
    · exact key { w with phase := .done, skip := false, reqT := (w.reqT.cancel c.cancel).1 } _ (Eff.refl _) rfl rfl hc rfl rfl rfl rfl (by simp [hasHdr, Item.isHdr])

theorem std_exec {w : World} {eof : Bool} {c : Choice} {rest : List Item} {s' : State} (hu : ∀ u, c.act = .onUrl u → w.phase = .start)
    (h : execStep w eof c rest = some s') : Std ⟨w, .exec eof :: rest⟩ c s' := by
  unfold execStep at h
  split at h
  · simp at h; subst h
    exact std_of_eff (Eff.refl w) (by simp [hasHdr, Item.isHdr]) rfl
  · split at h
    · next u ha =>
      split at h <;> simp at h
      subst h
      exact std_onUrl (hu u ha)
    · split at h
      · split at h
        · split at h
          · simp at h; subst h
            refine std_of_eff ?_ (by simp [hasHdr]) rfl
            constructor <;> simp [World.young]
          · simp at h; subst h
            refine std_of_eff (eff_callHandler _ _ _ _ _ _) ?_ rfl
            intro h
            rcases hdr_callHandler _ _ _ _ _ _ h with h | h | h <;> simpa [hasHdr, Item.isHdr] using h
        · simp at h; subst h
          exact std_of_eff (Eff.refl w) (by simp [hasHdr, Item.isHdr]) rfl
      · simp at h
    · next ka ug b ca ha =>
      split at h <;> simp at h
      next hp =>
      subst h
      exact std_onHeaders hp ha (by simp)
    · split at h <;> simp at h
      subst h
      refine std_of_eff (eff_callHandler _ _ _ _ _ _) ?_ rfl
      intro h
      rcases hdr_callHandler _ _ _ _ _ _ h with h | h | h <;> simpa [hasHdr, Item.isHdr] using h
    · split at h <;> simp at h
      next hp =>
      subst h
      exact std_onMessage hp
    · split at h <;> simp at h
      subst h
      exact std_of_eff (Eff.refl w) (by simp [hasHdr, Item.isHdr]) rfl
    · split at h <;> simp at h
      subst h
      refine std_of_eff ?_ (by simp [hasHdr, Item.isHdr]) rfl
      constructor <;> simp [World.young]
    · simp at h

theorem std_tail (w : World) (eof bad : Bool) (c : Choice) (rest : List Item) : Std ⟨w, .tail eof bad :: rest⟩ c (tailStep w eof bad c rest) := by
  have e0 : Eff w { w with parsing := w.parsing - 1 } := by constructor <;> simp [World.young]
  unfold tailStep
  simp only
  split
  · exact std_of_eff (e0.trans (eff_closeClient _ _)) (by simp [hasHdr, Item.isHdr]) rfl
  · split
    · exact std_of_eff (e0.trans (eff_respondOrClose _ c)) (by simp [hdr_respondOrClose, hasHdr, Item.isHdr]) rfl
    · split
      · exact std_of_eff (e0.trans (eff_closeClient _ _)) (by simp [hasHdr, Item.isHdr]) rfl
      · split
        · exact std_of_eff e0 (by simp [hasHdr, Item.isHdr]) rfl
        · have e1 : ∀ f : Finish, Eff w { w with parsing := w.parsing - 1, finish := f, reading := true } := by
            intro f; constructor <;> simp [World.young]
          have e2 : Eff w { w with parsing := w.parsing - 1, reading := true } := by constructor <;> simp [World.young]
          split
          · exact std_of_eff (e1 _) (by simp [hasHdr, Item.isHdr]) rfl
          · exact std_of_eff e2 (by simp [hasHdr, Item.isHdr]) rfl
          · exact std_of_eff e2 (by simp [hasHdr, Item.isHdr]) rfl
          · exact std_of_eff e0 (by simp [hasHdr, Item.isHdr]) rfl

theorem std_messageEnd {w : World} {r : Ret} {rest : List Item} {c : Choice} {s' : State} (hnu : w.ub = false) (hso : w.sock ≠ .freed)
    (h : step ⟨w, .messageEnd r :: rest⟩ c = some s') : Std ⟨w, .messageEnd r :: rest⟩ c s' := by
  simp only [step, hnu, hso] at h
  simp only [Bool.false_eq_true, if_false] at h
  split at h
  · simp at h; subst h
    exact std_of_eff (Eff.refl w) (by simp [hasHdr, Item.isHdr]) rfl
  · split at h
    · simp at h; subst h
      exact std_of_eff (by constructor <;> simp [World.young]) (by simp [hasHdr, Item.isHdr]) rfl
    · simp at h; subst h
      exact std_of_eff (by constructor <;> simp [World.young]) (by simp [hasHdr, Item.isHdr]) rfl
    · simp at h

/-- Every step of a connection that is not being closed is of one of three kinds. -/
theorem step_kinds {s s' : State} {c : Choice} (ho : Open s.w s.stack) (hr : Rule s c) (h : step s c = some s') : Std s c s' ∨ Again s s' ∨ Body s c s' := by
  obtain ⟨w, st⟩ := s
  have hnu := ho.nu
  have hso := ho.so
  simp only at ho hnu hso
  cases st with
  | nil =>
    simp only [step, hnu] at h
    exact Or.inl (std_event h)
  | cons x rest =>
    have hnf : w.sock ≠ .freed := by rw [hso]; simp
    cases x with
    | exec eof =>
      simp only [step, hnu, hso] at h
      exact Or.inl (std_exec hr.url h)
    | tail eof bad =>
      simp [step, hnu, hso] at h
      subst h
      exact Or.inl (std_tail w eof bad c rest)
    | bsRet =>
      simp only [step] at h
      rw [if_neg (by rw [hnu]; exact Bool.false_ne_true), if_neg hnf] at h
      injection h with h
      subst h
      left
      refine std_of_eff ?_ (by simp [hasHdr, Item.isHdr]) rfl
      have e0 : Eff w { w with running := w.running - 1 } := by constructor <;> simp [World.young]
      simp only
      split
      · exact e0.trans (eff_streamClose _ _)
      · exact e0
    | user cb last body =>
      simp only [step, hnu, hso] at h
      exact Or.inl (std_user h)
    | urlNext =>
      left
      simp [step, hnu, hso] at h
      split at h
      · split at h <;> simp at h
        subst h
        exact std_of_eff (eff_ev _ _ (by simp) rfl) (by simp [hasHdr, Item.isHdr]) rfl
      · simp at h; subst h
        exact std_of_eff (Eff.refl w) (by simp [hasHdr, Item.isHdr]) rfl
      · simp at h
    | headersEnd body =>
      right; right
      simp [step, hnu, hso] at h
      subst h
      unfold headersEndStep
      constructor <;> cases ha : c.arm <;> simp [hasHdr, Item.isHdr, bodyArmed, ha]
    | messageEnd r => exact Or.inl (std_messageEnd hnu hnf h)
    | serverError =>
      left
      simp [step, hnu, hso] at h
      subst h
      exact std_of_eff ((eff_ev _ .onError (by simp) rfl).trans (eff_respondOrMark _ c)) (by simp [hdr_respondOrMark, hasHdr, Item.isHdr]) rfl
    | written ok =>
      left
      simp [step, hnu, hso] at h
      subst h
      have e1 : Eff w { w with respT := (w.respT.cancel c.cancel).1, completed := true } := by
        constructor <;> simp [World.young]
        unfold Timer.cancel; split <;> simp
      unfold writtenStep
      simp only
      split
      · exact std_of_eff (e1.trans (eff_ev _ _ (by simp) rfl)) (by simp [hasHdr, Item.isHdr]) rfl
      · exact std_of_eff e1 (by simp [hasHdr, Item.isHdr]) rfl
    | userWritten ok =>
      left
      simp [step, hnu, hso] at h
      split at h
      · next k b _ =>
        simp at h; subst h
        exact std_of_eff (eff_writeResponse w k b c) (by simp [hdr_writeResponse]) rfl
      · simp at h; subst h
        exact std_of_eff (eff_mark w _) (by simp) rfl
      · simp at h; subst h
        exact std_of_eff (Eff.refl w) (by simp [hasHdr, Item.isHdr]) rfl
      · simp at h
    | writtenEnd cancelled ok =>
      left
      simp [step, hnu, hso] at h
      subst h
      unfold writtenEndStep
      split
      · exact std_of_eff (Eff.refl w) (by simp [hasHdr, Item.isHdr]) rfl
      · split
        · exact std_of_eff (eff_mark w _) (by simp [hasHdr, Item.isHdr]) rfl
        · exact std_of_eff (Eff.refl w) (by simp [hasHdr, Item.isHdr]) rfl
    | restart =>
      simp [step, hnu, hso] at h
      subst h
      unfold restartStep
      split
      · next hc =>
        have he := eff_freeHandler w
        have hph : w.phase = .done := (ho.rc (by simp at hc; exact hc.1)).2
        have hr1 : (freeHandler w).respT = w.respT := by unfold freeHandler; split <;> rfl
        have hr2 : (freeHandler w).closes = w.closes := by unfold freeHandler; split <;> rfl
        have hr3 : (freeHandler w).reqT = w.reqT := by unfold freeHandler; split <;> rfl
        have hr4 : responses (freeHandler w).log = responses w.log := by
          unfold freeHandler; split <;> simp [World.ev, responses, List.countP_cons, Ev.isResponse]
        have hny : ¬ (freeHandler w).young := by intro h; rcases h with h | h <;> (rw [he.pb, hph] at h; cases h)
        have hnb : (freeHandler w).phase ≠ .body := by rw [he.pb, hph]; simp
        generalize freeHandler w = v at *
        cases ha : c.arm
        · left
          obtain ⟨g0, g0', g1, g2, g3, g4, g5, g6, g7, g8⟩ := he
          simp only [Timer.arm, Bool.false_eq_true, if_false]
          constructor
          · intro h; exact absurd h hny
          · intro _; left; intro h; rcases h with h | h <;> (simp only at h; rw [hph] at h; cases h)
          · intro h; exact absurd h hnb
          · intro h; left; rw [← g1]; exact h
          · simp [hr3]
          · intro h; exact absurd h hny
          · exact g3
          · exact g4
          · exact g5
          · exact g6
          · exact g7
          · exact g8
          · intro h; left; simpa [hasHdr, Item.isHdr] using h
          · rfl
        · right; left
          simp only [if_true, Timer.arm]
          constructor <;> simp [World.ev, List.count_cons, hr1, hr2, he.rs, hasHdr, Item.isHdr, bodyArmed]
          rw [← hr4]
          simp [responses, List.countP_cons, Ev.isResponse]
      · left
        exact std_of_eff (Eff.refl w) (by simp [hasHdr, Item.isHdr]) rfl

end Cio.HttpLife
