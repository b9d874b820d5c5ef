import Verif.HttpLife.Steps3
/-
`parse` behind the parser, the events, and all steps together.
-/
namespace Cio.HttpLife

theorem inv_tail {w : World} {rest : List Item} {eof bad : Bool} (h : Open w (.tail eof bad :: rest)) (c : Choice) (hl : w.writing = true → c.linger = false) :
    Inv (tailStep w eof bad c rest) := by
  have hp := parsing_of h (by simp [strip]) (by simp)
  have hr := deep_of h hp
  obtain rfl := deep_tail hr
  have hrun : w.running = 1 := by rcases h.shape with h | h | h <;> omega
  have hb : ([Item.bsRet] = [] ∧ w.running = 0) ∨ ([Item.bsRet] = [.bsRet] ∧ w.running = 1) := Or.inr ⟨rfl, hrun⟩
  unfold tailStep
  simp only [hp, Nat.sub_self]
  cases he : eof
  · cases hbad : bad
    · cases ht : w.toBeClosed
      · cases hu : w.upgrade
        · subst he hbad
          left
          cases hf : w.finish <;> obtain ⟨⟩ := h <;> features <;> fields
        · simp only [hu]
          subst he hbad
          left
          obtain ⟨⟩ := h; features; fields
      · exact Or.inr (closed_closeClient h.c0 h.so h.nu rfl hb hl)
    · simp only [respondOrClose, writeResponse, mark]
      by_cases hw : w.written = true
      · simp only [hw, if_true]
        exact Or.inr (closed_closeClient h.c0 h.so h.nu rfl hb hl)
      · cases ha : c.arm
        · simp only [hw, World.ev]
          refine Or.inr (closed_closeClient h.c0 h.so h.nu rfl hb hl)
        · subst he hbad
          cases ho : c.out
          · simp only [hw, World.ev]
            left
            obtain ⟨⟩ := h; features; fields
          · simp only [hw, World.ev]
            left
            obtain ⟨⟩ := h; features; fields
          · simp only [hw, World.ev]
            exact Or.inr (closed_closeClient h.c0 h.so h.nu rfl hb hl)
  · exact Or.inr (closed_closeClient h.c0 h.so h.nu rfl hb hl)

/-- A timeout: the timer is not running any more, a response is written or the client is closed. -/
theorem inv_timeout {w w' : World} (h : Open w []) (hw' : (w' = { w with reqT := {} }) ∨ (w' = { w with respT := {} } )) (c : Choice)
    (hl : w.writing = true → c.linger = false) : Inv ⟨(respondOrMark w' c).1, (respondOrMark w' c).2⟩ := by
  have hp : w.parsing = 0 := by rcases h.shape with h | h | h <;> simp_all [deep]
  have hr : w.running = 0 := by rcases h.shape with h | h | h <;> simp_all [deep, strip]
  have e : w'.parsing = 0 ∧ w'.running = 0 ∧ w'.closes = 0 ∧ w'.sock = .open ∧ w'.ub = false ∧ w'.written = w.written ∧ w'.writing = w.writing := by
    rcases hw' with rfl | rfl <;> exact ⟨hp, hr, h.c0, h.so, h.nu, rfl, rfl⟩
  obtain ⟨e1, e2, e3, e4, e5, e6, e7⟩ := e
  have hl' : w'.writing = true → c.linger = false := by rw [e7]; exact hl
  simp only [respondOrMark, writeResponse, mark]
  by_cases hw : w'.written = true
  · simp only [hw, if_true, e1]
    exact Or.inr (closed_closeClient e3 e4 e5 e1 (Or.inl ⟨rfl, e2⟩) hl')
  · cases ha : c.arm
    · simp only [hw, World.ev, e1]
      exact Or.inr (closed_closeClient e3 e4 e5 rfl (Or.inl ⟨rfl, e2⟩) hl')
    · cases ho : c.out
      · simp only [hw, World.ev]
        left
        rcases hw' with rfl | rfl <;> obtain ⟨⟩ := h <;> features <;> fields
      · simp only [hw, World.ev]
        left
        rcases hw' with rfl | rfl <;> obtain ⟨⟩ := h <;> features <;> fields
      · simp only [hw, World.ev, e1]
        exact Or.inr (closed_closeClient e3 e4 e5 rfl (Or.inl ⟨rfl, e2⟩) hl')

/-- A response given outside of the callbacks. -/
theorem inv_userRespond {w : World} (h : Open w []) (kind : Kind) (cb : Bool) (c : Choice) (hl : w.writing = true → c.linger = false) :
    Inv ⟨(writeResponse w kind cb c).1, (writeResponse w kind cb c).2.1⟩ := by
  have hp : w.parsing = 0 := by rcases h.shape with h | h | h <;> simp_all [deep]
  have hr : w.running = 0 := by rcases h.shape with h | h | h <;> simp_all [deep, strip]
  simp only [writeResponse, mark]
  by_cases hw : w.written = true
  · simp only [hw, if_true]
    exact Or.inl h
  · cases ha : c.arm
    · simp only [hw, World.ev, hp]
      exact Or.inr (closed_closeClient h.c0 h.so h.nu rfl (Or.inl ⟨rfl, hr⟩) hl)
    · cases ho : c.out
      · simp only [hw, World.ev]
        left
        obtain ⟨⟩ := h; features; fields
      · simp only [hw, World.ev]
        left
        obtain ⟨⟩ := h; features; fields
      · simp only [hw, World.ev]
        left
        obtain ⟨⟩ := h; features; fields

theorem inv_event {w : World} (h : Open w []) (c : Choice) (s' : State) (hl : w.writing = true → c.linger = false)
    (hs : eventStep w c = some s') : Inv s' := by
  have hp : w.parsing = 0 := by rcases h.shape with h | h | h <;> simp_all [deep]
  have hr : w.running = 0 := by rcases h.shape with h | h | h <;> simp_all [deep, strip]
  unfold eventStep at hs
  split at hs
  · split at hs <;> simp at hs
    subst hs; left; unfold parseStart; obtain ⟨⟩ := h; features; fields
  · split at hs <;> simp at hs
    subst hs; left; unfold parseStart; obtain ⟨⟩ := h; features; fields
  · split at hs <;> simp at hs
    subst hs; left; obtain ⟨⟩ := h; features; fields
  · split at hs <;> simp at hs
    subst hs; left; obtain ⟨⟩ := h; features; fields
  · split at hs <;> simp at hs
    subst hs; exact inv_timeout h (Or.inl rfl) c hl
  · split at hs <;> simp at hs
    subst hs; exact inv_timeout h (Or.inr rfl) c hl
  · split at hs <;> simp at hs
    next hc => have := h.so; rw [hc] at this; simp at this
  · split at hs <;> simp at hs
    subst hs
    rw [mark, if_pos hp]
    exact Or.inr (closed_closeClient h.c0 h.so h.nu hp (Or.inl ⟨rfl, hr⟩) hl)
  · split at hs <;> simp at hs
    subst hs
    exact inv_userRespond h _ _ c hl
  · simp at hs

theorem inv_messageEnd {w : World} {rest : List Item} {r : Ret} (h : Open w (.messageEnd r :: rest)) (c : Choice) (s' : State)
    (hs : step ⟨w, .messageEnd r :: rest⟩ c = some s') : Inv s' := by
  have hp := parsing_of h (by simp [strip]) (by simp)
  have hr := deep_of h hp
  rw [deep_inner (by rfl)] at hr
  have hnu := h.nu
  have hso := h.so
  simp only [step, hnu, hso] at hs
  simp at hs
  by_cases hw : w.written = true
  · simp [hw] at hs
    split at hs
    · simp at hs
      subst hs
      left
      obtain ⟨⟩ := h; features; fields
    · obtain rfl := deep_exec hr
      simp at hs
      subst hs
      left
      cases hsh : c.short <;> obtain ⟨⟩ := h <;> features <;> fields
    · simp at hs
  · simp [hw] at hs
    subst hs
    left
    obtain ⟨⟩ := h; features; fields

end Cio.HttpLife
