import Verif.HttpLife.Steps2
/-
http_parser, `parse`, the events, and all together.
-/
namespace Cio.HttpLife

/-- Calling the location handler, or not, while a request is parsed. -/
theorem inv_call {w : World} {cb : Cb} {item after rest : List Item} {call : Bool} (hh : w.fired = false → w.handler ≠ none)
    (h1 : Open w (item ++ rest)) (h2 : Open w (after ++ rest)) : Inv (callHandler w cb item after call rest) := by
  unfold callHandler
  split
  · exact Or.inl h2
  · next hf =>
    rw [if_neg (hh (by simpa using hf))]
    split
    · exact Or.inl (open_ev h1 _)
    · exact Or.inl h2

theorem inv_onUrl {w : World} {eof : Bool} {u : Url} (h : Open w [.exec eof, .bsRet]) (c : Choice) (hph : w.phase = .start) (hu : u ≠ .noHandler)
    (hu' : u ≠ .noFree) (hd : w.dead = false) : Inv (onUrl w u eof c [.bsRet]) := by
  left
  have hp := parsing_of h (by simp [strip]) (by simp)
  have hsk : w.skip = false := by have := h.sk; grind
  unfold onUrl
  cases u
  · obtain ⟨⟩ := h; cases hs : c.short <;> features <;> fields
  · unfold writeResponse mark
    by_cases hw : w.written = true
    · simp only [hw, if_true, List.nil_append]
      obtain ⟨⟩ := h; features; fields
    · cases ha : c.arm
      · simp only [hw, hp, World.ev, List.nil_append, List.cons_append]
        obtain ⟨⟩ := h
        features
        fields
      · cases ho : c.out
        · simp only [hw, World.ev, List.nil_append, List.cons_append]
          obtain ⟨⟩ := h
          features
          fields
        · simp only [hw, World.ev, List.nil_append, List.cons_append]
          obtain ⟨⟩ := h
          features
          fields
        · simp only [hw, World.ev, List.nil_append, List.cons_append]
          obtain ⟨⟩ := h
          features
          fields
  · exact absurd rfl hu
  · exact absurd rfl hu'
  · simp only [newHandler, World.ev]
    obtain ⟨⟩ := h; features; fields
  · simp only [newHandler, World.ev]
    obtain ⟨⟩ := h; features; fields

theorem inv_onHeaders {w : World} {eof : Bool} (h : Open w [.exec eof, .bsRet]) (ka up body call : Bool) (c : Choice) (hph : w.phase = .header)
    (hd : w.dead = false) : Inv (onHeaders w ka up body call eof c [.bsRet]) := by
  have hp := parsing_of h (by simp [strip]) (by simp)
  have hsk : w.skip = false := by have := h.sk; grind
  have hn := h.hn hd (Or.inl hph)
  unfold onHeaders
  have key : ∀ b : Bool, Open { w with phase := .body, upgrade := up, keepAlive := ka, toBeClosed := b || w.toBeClosed, reqT := {} } [.headersEnd body, .exec eof, .bsRet] ∧
      Open { w with phase := .body, upgrade := up, keepAlive := ka, toBeClosed := b || w.toBeClosed, reqT := {} } [.user .headers false body, .exec eof, .bsRet] ∧
      ∀ t, Open { w with phase := .body, upgrade := up, keepAlive := ka, toBeClosed := b || w.toBeClosed, reqT := t } [.serverError, .exec eof, .bsRet] := by
    intro b
    obtain ⟨⟩ := h
    refine ⟨?_, ?_, ?_⟩
    · features; fields
    · features; fields
    · intro t; features; fields
  have hm : (if (!ka && w.fired) = true then mark { w with phase := .body, upgrade := up, keepAlive := ka } c.linger
      else { w with phase := .body, upgrade := up, keepAlive := ka }) =
      { w with phase := .body, upgrade := up, keepAlive := ka, toBeClosed := (!ka && w.fired) || w.toBeClosed } := by
    cases (!ka && w.fired) <;> simp [mark, hp]
  simp only
  rw [hm]
  simp only [Timer.cancel]
  cases hb : (!ka && w.fired)
  · obtain ⟨k1, k2, k3⟩ := key false
    simp only [Bool.false_or] at k1 k2 k3
    cases hc : (w.reqT.set && c.cancel)
    · exact Or.inl (k3 _)
    · exact inv_call (by intro h; exact hn (Or.inl h)) k2 k1
  · obtain ⟨k1, k2, k3⟩ := key true
    simp only [Bool.true_or] at k1 k2 k3
    cases hc : (w.reqT.set && c.cancel)
    · exact Or.inl (k3 _)
    · exact inv_call (by intro h; exact hn (Or.inl h)) k2 k1

theorem inv_onMessage {w : World} {eof : Bool} (h : Open w [.exec eof, .bsRet]) (call : Bool) (c : Choice) (hph : w.phase = .body)
    (hd : w.dead = false) : Inv (onMessage w call eof c [.bsRet]) := by
  have hp := parsing_of h (by simp [strip]) (by simp)
  have hn := h.hn hd (Or.inr hph)
  unfold onMessage
  simp only [Timer.cancel]
  cases hu : w.upgrade
  · cases hc : (w.reqT.set && c.cancel)
    · left
      obtain ⟨⟩ := h; features; fields
    · refine inv_call (by intro h; exact hn (Or.inl h)) ?_ ?_
      · obtain ⟨⟩ := h; features; fields
      · obtain ⟨⟩ := h; features; fields
  · refine inv_call (by intro h; exact hn (Or.inl h)) ?_ ?_
    · obtain ⟨⟩ := h; features; fields
    · obtain ⟨⟩ := h; features; fields

theorem inv_exec {w : World} {eof : Bool} {rest : List Item} (h : Open w (.exec eof :: rest)) (c : Choice) (s' : State) (hu : ∀ u, c.act = .onUrl u → w.phase = .start)
    (ha : c.act ≠ .onUrl .noHandler ∧ c.act ≠ .onUrl .noFree) (hs : execStep w eof c rest = some s') : Inv s' := by
  have hp := parsing_of h (by simp [strip]) (by simp)
  have hr := deep_of h hp
  obtain rfl := deep_exec hr
  unfold execStep at hs
  by_cases hd : w.dead = true
  · simp [hd] at hs
    subst hs
    left
    cases eof <;> obtain ⟨⟩ := h <;> features <;> fields
  have hd' : w.dead = false := by simpa using hd
  rw [if_neg hd] at hs
  split at hs
  · next u hact =>
    split at hs <;> simp at hs
    subst hs
    exact inv_onUrl h c (hu u hact) (by rintro rfl; exact ha.1 hact) (by rintro rfl; exact ha.2 hact) hd'
  · split at hs
    · next hcond =>
      split at hs
      · next hf =>
        have hne : w.handler ≠ none := h.hn hd' (by simp at hcond; exact hcond.2) (Or.inr hf)
        rw [if_neg hne] at hs
        simp at hs; subst hs
        refine inv_call (fun _ => hne) ?_ h
        obtain ⟨⟩ := h; simp at hcond; features; fields
      · simp at hs; subst hs; exact Or.inl h
    · simp at hs
  · split at hs <;> simp at hs
    next hcond =>
    subst hs; exact inv_onHeaders h _ _ _ _ c (by simpa using hcond) hd'
  · split at hs <;> simp at hs
    next hcond =>
    subst hs
    simp at hcond
    refine inv_call (fun hf => h.hn hd' (Or.inr hcond.2) (Or.inl hf)) ?_ h
    obtain ⟨⟩ := h; features; fields
  · split at hs <;> simp at hs
    next hcond =>
    subst hs; exact inv_onMessage h _ c (by simpa using hcond) hd'
  · split at hs <;> simp at hs
    next hcond =>
    subst hs
    left
    simp at hcond
    obtain ⟨⟩ := h; features; fields
  · split at hs <;> simp at hs
    next hcond =>
    subst hs
    left
    simp at hcond
    obtain ⟨⟩ := h; features; fields
  · simp at hs

end Cio.HttpLife
