import Verif.HttpLife.Inv
/-
Every step that obeys the rules keeps the invariants.
-/
namespace Cio.HttpLife

/-- `Open` does not depend on the log, and marking a client that is being parsed keeps it. -/
theorem open_ev {w : World} {st : List Item} (h : Open w st) (e : Ev) : Open (w.ev e) st := by
  obtain ⟨⟩ := h
  constructor <;> assumption

theorem open_marked {w : World} {st : List Item} (h : Open w st) : Open { w with toBeClosed := true } st := by
  obtain ⟨⟩ := h
  constructor <;> grind

/-- What the stack contributes to `Open`. -/
macro "features" : tactic => `(tactic| (
  simp only [hasErr, hasEnd, hasMsg, hasHdr, hasUw, Item.isUw, hasUrl, Item.isUrl, Item.isErr, Item.isEnd, Item.isMsg, Item.isHdr, topExec, topTail, topBad, strip, deep, seated, Bool.not_true, Bool.not_false, Bool.and_true,
    deep_inner, Item.inner, Bool.or_false, Bool.false_or, Bool.true_or, Bool.or_true, Bool.true_and, List.cons_append, List.nil_append] at *))

macro "fields" : tactic => `(tactic| (
  constructor <;> first | assumption | (try simp only [hasErr, hasEnd, hasMsg, hasHdr, hasUw, Item.isUw, hasUrl, Item.isUrl, Item.isErr, Item.isEnd, Item.isMsg, Item.isHdr, topExec, topTail, topBad, strip, deep, seated, Bool.not_true, Bool.not_false, Bool.and_true,
    deep_inner, Item.inner, Bool.or_false, Bool.false_or, Bool.true_or, Bool.or_true, Bool.true_and, List.cons_append, List.nil_append]) <;> grind [Timer.arm, hasErr, hasEnd, hasMsg, hasHdr, hasUw, Item.isUw, hasUrl, Item.isUrl, Item.isErr, Item.isEnd, Item.isMsg, Item.isHdr, topExec, topTail, topBad, strip, seated, deep_inner, deep_base1, deep_base2, Item.inner]))

theorem inv_serverError {w : World} {rest : List Item} (h : Open w (.serverError :: rest)) (c : Choice) (hl : w.writing = true → c.linger = false) :
    Inv ⟨(respondOrMark (w.ev .onError) c).1, (respondOrMark (w.ev .onError) c).2 ++ rest⟩ := by
  have h' := open_ev h .onError
  clear h
  revert h' hl
  rw [show w.writing = (w.ev .onError).writing from rfl]
  generalize w.ev .onError = w
  intro hl h
  have hp : w.parsing = 0 ∨ w.parsing = 1 := by rcases h.shape with h | h | h <;> simp [h]
  rcases hp with hp | hp
  · have hb : (rest = [] ∧ w.running = 0) ∨ (rest = [.bsRet] ∧ w.running = 1) := by
      rcases h.shape with h1 | h1 | h1
      · omega
      · exact Or.inl ⟨by simpa [strip] using h1.2.2, h1.2.1⟩
      · exact Or.inr ⟨by simpa [strip] using h1.2.2, h1.2.1⟩
    unfold respondOrMark writeResponse
    by_cases hw : w.written = true
    · simp only [hw, if_true, mark, hp]
      exact Or.inr (closed_closeClient h.c0 h.so h.nu hp hb hl)
    · cases ha : c.arm
      · simp only [hw, mark, hp, World.ev]
        refine Or.inr (closed_closeClient h.c0 h.so h.nu rfl hb hl)
      · cases ho : c.out
        · simp only [hw, World.ev]
          left
          obtain ⟨⟩ := h
          rcases hb with ⟨rfl, hr⟩ | ⟨rfl, hr⟩ <;> features
          · fields
          · fields
        · simp only [hw, World.ev]
          left
          obtain ⟨⟩ := h
          rcases hb with ⟨rfl, hr⟩ | ⟨rfl, hr⟩ <;> features
          · fields
          · fields
        · simp only [hw, World.ev, mark, hp]
          refine Or.inr (closed_closeClient h.c0 h.so h.nu rfl hb hl)
  · unfold respondOrMark writeResponse
    left
    by_cases hw : w.written = true
    · simp only [hw, if_true, mark, hp]
      obtain ⟨⟩ := h
      features
      fields
    · cases ha : c.arm
      · simp only [hw, mark, hp, World.ev]
        obtain ⟨⟩ := h
        features
        fields
      · cases ho : c.out
        · simp only [hw, World.ev]
          obtain ⟨⟩ := h
          features
          fields
        · simp only [hw, World.ev]
          obtain ⟨⟩ := h
          features
          fields
        · simp only [hw, World.ev, mark, hp]
          obtain ⟨⟩ := h
          features
          fields

theorem open_parsing {w : World} {st : List Item} (h : Open w st) : w.parsing = 0 ∨ w.parsing = 1 := by
  rcases h.shape with h | h | h <;> simp [h]

theorem open_base {w : World} {st : List Item} (h : Open w st) (hp : w.parsing = 0) :
    (strip st = [] ∧ w.running = 0) ∨ (strip st = [.bsRet] ∧ w.running = 1) := by
  rcases h.shape with h1 | h1 | h1
  · omega
  · exact Or.inl ⟨h1.2.2, h1.2.1⟩
  · exact Or.inr ⟨h1.2.2, h1.2.1⟩

set_option maxHeartbeats 1000000 in
theorem inv_written {w : World} {rest : List Item} {ok : Bool} (h : Open w (.written ok :: rest)) (c : Choice) :
    Inv (writtenStep w ok c rest) := by
  left
  unfold writtenStep Timer.cancel
  rcases open_parsing h with hp | hp
  · have hb := open_base h hp
    obtain ⟨⟩ := h
    simp only [strip] at hb
    cases hcb : w.respCb <;> cases hset : w.respT.set <;> cases hca : c.cancel <;>
      (rcases hb with ⟨rfl, hr⟩ | ⟨rfl, hr⟩ <;> simp only [World.ev] <;> features <;> fields)
  · obtain ⟨⟩ := h
    cases hcb : w.respCb <;> cases hset : w.respT.set <;> cases hca : c.cancel <;> simp only [World.ev] <;> features <;> fields

theorem inv_userWritten {w : World} {rest : List Item} {ok : Bool} (h : Open w (.userWritten ok :: rest)) : Inv ⟨w, rest⟩ := by
  left
  rcases open_parsing h with hp | hp
  · have hb := open_base h hp
    have hst : ∃ a b, rest = [.writtenEnd a b] ∨ rest = [.writtenEnd a b, .bsRet] := by
      cases rest with
      | nil => simp [strip] at hb
      | cons x l => 
        cases x with
        | writtenEnd p q => exact ⟨p, q, by simpa [strip] using hb.imp And.left And.left⟩
        | _ => simp [strip] at hb
    obtain ⟨a, b, rfl | rfl⟩ := hst
    · obtain ⟨⟩ := h; features; fields
    · obtain ⟨⟩ := h; features; fields
  · obtain ⟨⟩ := h; features; fields

theorem inv_writtenEnd {w : World} {rest : List Item} {cancelled ok : Bool} (h : Open w (.writtenEnd cancelled ok :: rest)) (c : Choice)
    (hl : w.writing = true → c.linger = false) : Inv (writtenEndStep w cancelled ok c rest) := by
  unfold writtenEndStep
  by_cases h1 : (!cancelled || !ok) = true
  · rw [if_pos h1]
    left
    rcases open_parsing h with hp | hp
    · have hb := open_base h hp
      simp only [strip] at hb
      obtain ⟨⟩ := h
      rcases hb with ⟨rfl, hr⟩ | ⟨rfl, hr⟩ <;> features <;> fields
    · obtain ⟨⟩ := h; features; fields
  · rw [if_neg h1]
    by_cases h2 : (w.closeImm || !w.keepAlive) = true
    · rw [if_pos h2]
      unfold mark
      rcases open_parsing h with hp | hp
      · have hb := open_base h hp
        simp only [strip] at hb
        rw [if_pos hp]
        exact Or.inr (closed_closeClient h.c0 h.so h.nu hp hb hl)
      · rw [if_neg (by omega)]
        left
        obtain ⟨⟩ := h; features; fields
    · rw [if_neg h2]
      left
      rcases open_parsing h with hp | hp
      · have hb := open_base h hp
        simp only [strip] at hb
        obtain ⟨⟩ := h
        rcases hb with ⟨rfl, hr⟩ | ⟨rfl, hr⟩ <;> features <;> fields
      · obtain ⟨⟩ := h; features; fields

theorem inv_restart {w : World} {rest : List Item} (h : Open w (.restart :: rest)) (c : Choice) : Inv (restartStep w c rest) := by
  left
  unfold restartStep
  by_cases h1 : (w.reqComplete && w.completed) = true
  · rw [if_pos h1]
    rcases open_parsing h with hp | hp
    · have hb := open_base h hp
      simp only [strip] at hb
      cases hh : w.handler <;> cases ha : c.arm <;> simp only [freeHandler, hh, World.ev] <;>
        (obtain ⟨⟩ := h; rcases hb with ⟨rfl, hr⟩ | ⟨rfl, hr⟩ <;> features <;> fields)
    · exfalso
      obtain ⟨⟩ := h; features; grind
  · rw [if_neg h1]
    rcases open_parsing h with hp | hp
    · have hb := open_base h hp
      simp only [strip] at hb
      obtain ⟨⟩ := h
      rcases hb with ⟨rfl, hr⟩ | ⟨rfl, hr⟩ <;> features <;> fields
    · obtain ⟨⟩ := h; features; fields

theorem inv_headersEnd {w : World} {rest : List Item} {body : Bool} (h : Open w (.headersEnd body :: rest)) (c : Choice) :
    Inv (headersEndStep w body c rest) := by
  left
  unfold headersEndStep
  rcases open_parsing h with hp | hp
  · exfalso
    have hb := open_base h hp
    simp [strip] at hb
  · obtain ⟨⟩ := h
    cases ha : c.arm <;> cases body <;> features <;> fields

end Cio.HttpLife
