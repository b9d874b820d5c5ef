import Verif.HttpLife.Steps
/-
The steps of the parser and of user code, and the events.
-/
namespace Cio.HttpLife

theorem deep_of {w : World} {st : List Item} (h : Open w st) (hp : w.parsing = 1) : deep st = true := by
  rcases h.shape with h | h | h
  · exact h.2.2.1
  · omega
  · omega

theorem deep_exec {eof : Bool} {rest : List Item} (h : deep (.exec eof :: rest) = true) : rest = [.bsRet] := by
  cases rest with
  | nil => simp [deep, Item.inner] at h
  | cons x l => cases l <;> cases x <;> simp_all [deep, Item.inner]

theorem deep_tail {eof bad : Bool} {rest : List Item} (h : deep (.tail eof bad :: rest) = true) : rest = [.bsRet] := by
  cases rest with
  | nil => simp [deep, Item.inner] at h
  | cons x l => cases l <;> cases x <;> simp_all [deep, Item.inner]

theorem parsing_of {w : World} {x : Item} {rest : List Item} (h : Open w (x :: rest)) (hx : strip (x :: rest) = x :: rest) (hb : x ≠ .bsRet) :
    w.parsing = 1 := by
  rcases h.shape with h | h | h
  · exact h.1
  · rw [hx] at h; simp at h
  · rw [hx] at h; simp at h; exact absurd h.2.2.1 hb

/-- A response written while a request is parsed. -/
theorem open_respond {w : World} {st : List Item} (h : Open w st) (hp : w.parsing = 1) (hs : w.skip = false) (hb : topBad st = false) (hd : w.dead = false) (k : Kind) (cb : Bool) (c : Choice) :
    Open (writeResponse w k cb c).1 ((writeResponse w k cb c).2.1 ++ st) := by
  unfold writeResponse mark
  by_cases hw : w.written = true
  · simpa only [hw, if_true, List.nil_append] using h
  · cases ha : c.arm
    · simp only [hw, hp, World.ev]
      obtain ⟨⟩ := h
      features
      fields
    · cases ho : c.out
      · simp only [hw, World.ev]
        obtain ⟨⟩ := h
        features
        fields
      · simp only [hw, World.ev]
        obtain ⟨⟩ := h
        features
        fields
      · simp only [hw, World.ev]
        obtain ⟨⟩ := h
        features
        fields

theorem open_skip {w : World} {st : List Item} (h : Open w st) (ht : topExec st = false) : w.skip = false := by
  have := h.sk
  grind

theorem inv_user {w : World} {rest : List Item} {cb : Cb} {last body : Bool} (h : Open w (.user cb last body :: rest)) (c : Choice) (s' : State)
    (hs : userStep w cb last body c rest = some s') : Inv s' := by
  have hp := parsing_of h (by simp [strip]) (by simp)
  have hsk := open_skip h (by simp [topExec])
  left
  unfold userStep at hs
  split at hs
  · simp only [Option.some.injEq] at hs
    subst hs
    exact open_respond h hp hsk rfl (by have := h.dd; simp [topExec, topTail, hp] at this; simpa using this) _ _ c
  · simp only [Option.some.injEq] at hs
    subst hs
    rw [mark, if_neg (by omega)]
    exact open_marked h
  · split at hs
    · have hr := deep_of h hp
      rw [deep_inner (by rfl)] at hr
      obtain rfl := deep_exec hr
      split at hs <;> simp only [Option.some.injEq] at hs <;> subst hs <;> obtain ⟨⟩ := h <;> features <;> fields
    · simp only [Option.some.injEq] at hs
      subst hs
      obtain ⟨⟩ := h
      features
      fields
    · have hr := deep_of h hp
      rw [deep_inner (by rfl)] at hr
      obtain rfl := deep_exec hr
      split at hs
      · simp only [Option.some.injEq] at hs
        subst hs; cases hsh : c.short <;> obtain ⟨⟩ := h <;> features <;> fields
      · split at hs <;> simp only [Option.some.injEq] at hs <;> subst hs <;> obtain ⟨⟩ := h <;> features <;> fields
    · next hne _ => 
      have hr := deep_of h hp
      rw [deep_inner (by rfl)] at hr
      obtain rfl := deep_exec hr
      cases cb <;> simp at *
      · split at hs <;> simp only [Option.some.injEq] at hs <;> subst hs <;> (try cases hsh : c.short) <;> obtain ⟨⟩ := h <;> features <;> fields
      · split at hs <;> simp only [Option.some.injEq] at hs <;> subst hs <;> (try cases hsh : c.short) <;> obtain ⟨⟩ := h <;> features <;> fields
    · simp at hs
  · simp at hs

end Cio.HttpLife
