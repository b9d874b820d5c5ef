import Verif.HttpLife.Steps4
/-
All steps that obey the rules keep the invariants; so do all executions.
-/
namespace Cio.HttpLife

theorem inv_step_closed {s s' : State} (h : Closed s.w s.stack) (c : Choice) (hr : Rule s c) (hs : step s c = some s') : Inv s' := by
  obtain ⟨w, st⟩ := s
  obtain ⟨h1, h2, h3, h4, h5, h6, h7⟩ := h
  have hl := hr.linger
  simp only at h1 h2 h3 h4 h5 h6 h7 hl
  right
  rcases h7 with ⟨rfl, hrun, hsock, hrd, hwr⟩ | ⟨rfl, hrun, hsock, hsc⟩
  · simp only [step, h2] at hs
    simp [eventStep, hrd, hwr, h4, h5, h1, h6] at hs
    split at hs <;> simp at hs
    obtain ⟨ho, hs⟩ := hs
    subst hs
    constructor <;> simp_all [World.ev]
  · simp only [step, h2, hsock] at hs
    simp [hrun, hsc] at hs
    subst hs
    unfold streamClose
    constructor <;> cases hlg : c.linger <;> simp_all [World.ev]

theorem inv_step_open {s s' : State} (h : Open s.w s.stack) (c : Choice) (hr : Rule s c) (hs : step s c = some s') : Inv s' := by
  obtain ⟨w, st⟩ := s
  have hnu := h.nu
  have hso := h.so
  simp only at h hnu hso
  cases st with
  | nil =>
    simp only [step, hnu] at hs
    exact inv_event h c s' hr.linger hs
  | cons x rest =>
    cases x with
    | exec eof =>
      simp only [step, hnu, hso] at hs
      exact inv_exec h c s' hr.url hr.alloc hs
    | tail eof bad =>
      simp [step, hnu, hso] at hs
      subst hs
      exact inv_tail h c hr.linger
    | bsRet =>
      have hp : w.parsing = 0 := by
        rcases h.shape with h1 | h1 | h1
        · have := h1.2.2.1; cases rest <;> simp [deep, Item.inner] at this
        · exact h1.1
        · exact h1.1
      have hb := open_base h hp
      simp [strip] at hb
      obtain ⟨rfl, hrun⟩ := hb
      have hsc := h.sc
      simp [step, hnu, hso, hrun, hsc] at hs
      subst hs
      left
      obtain ⟨⟩ := h
      features
      fields
    | user cb last body =>
      simp only [step, hnu, hso] at hs
      exact inv_user h c s' hs
    | urlNext =>
      have hp := parsing_of h (by simp [strip]) (by simp)
      simp [step, hnu, hso] at hs
      split at hs
      · split at hs <;> simp at hs
        subst hs
        left
        refine open_ev ?_ _
        obtain ⟨⟩ := h
        features
        fields
      · simp at hs
        subst hs
        left
        obtain ⟨⟩ := h
        features
        fields
      · simp at hs
    | headersEnd body =>
      simp [step, hnu, hso] at hs
      subst hs
      exact inv_headersEnd h c
    | messageEnd r => exact inv_messageEnd h c s' hs
    | serverError =>
      simp [step, hnu, hso] at hs
      subst hs
      exact inv_serverError h c hr.linger
    | written ok =>
      simp [step, hnu, hso] at hs
      subst hs
      exact inv_written h c
    | userWritten ok =>
      have hw := h.uw (by simp [hasUw, Item.isUw])
      simp [step, hnu, hso] at hs
      split at hs
      · simp [writeResponse, hw] at hs
        subst hs
        exact Or.inl h
      · next hact =>
        simp at hs
        subst hs
        have := hr.close ok rest rfl hact
        rw [mark, if_neg this]
        exact Or.inl (open_marked h)
      · simp at hs
        subst hs
        exact inv_userWritten h
      · simp at hs
    | writtenEnd cancelled ok =>
      simp [step, hnu, hso] at hs
      subst hs
      exact inv_writtenEnd h c hr.linger
    | restart =>
      simp [step, hnu, hso] at hs
      subst hs
      exact inv_restart h c

theorem inv_step {s s' : State} (h : Inv s) (c : Choice) (hr : Rule s c) (hs : step s c = some s') : Inv s' := by
  rcases h with h | h
  · exact inv_step_open h c hr hs
  · exact inv_step_closed h c hr hs

/-- Every step of the execution obeys the rules. -/
def Obeys : State → List Choice → Prop
  | _, [] => True
  | s, c :: cs => Rule s c ∧ ∀ s', step s c = some s' → Obeys s' cs

theorem inv_run {s : State} (h : Inv s) (cs : List Choice) (ho : Obeys s cs) {s' : State} (hs : run s cs = some s') : Inv s' := by
  induction cs generalizing s with
  | nil => simp [run] at hs; subst hs; exact h
  | cons c cs ih =>
    unfold run at hs
    split at hs
    · next s1 h1 => exact ih (inv_step h c ho.1 h1) (ho.2 _ h1) hs
    · simp at hs

end Cio.HttpLife
