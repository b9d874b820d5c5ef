import Verif.HttpLife.All
/-
What is allocated is freed once, and the client is closed and released once.
-/
namespace Cio.HttpLife

/-- The latest event about a handler is its allocation. -/
def live : List Ev → Bool
  | [] => false
  | .handlerAlloc _ :: _ => true
  | .handlerFree _ :: _ => false
  | _ :: l => live l

/-- Callbacks are called only while there is a handler. -/
def okCb : List Ev → Bool
  | [] => true
  | .callback _ :: l => live l && okCb l
  | _ :: l => okCb l

structure Acc (w : World) : Prop where
  al : ∀ id, (id < w.allocs → w.log.count (.handlerAlloc id) = 1) ∧ (¬ id < w.allocs → w.log.count (.handlerAlloc id) = 0)
  fr : ∀ id, (id < w.allocs ∧ w.handler ≠ some id → w.log.count (.handlerFree id) = 1) ∧
    (¬ (id < w.allocs ∧ w.handler ≠ some id) → w.log.count (.handlerFree id) = 0)
  hl : ∀ id, w.handler = some id → id < w.allocs
  cl : w.log.count .closing = w.closes
  fd : (w.sock = .freed → w.log.count .freed = 1) ∧ (w.sock ≠ .freed → w.log.count .freed = 0)
  lv : live w.log = w.handler.isSome
  cb : okCb w.log = true

theorem acc_frame {w w' : World} (h : Acc w) (h1 : w'.log = w.log) (h2 : w'.allocs = w.allocs) (h3 : w'.handler = w.handler) (h4 : w'.closes = w.closes)
    (h5 : w'.sock = .freed ↔ w.sock = .freed) : Acc w' := by
  obtain ⟨a1, a2, a3, a4, a5, a6, a7⟩ := h
  constructor
  · intro id; rw [h1, h2]; exact a1 id
  · intro id; rw [h1, h2, h3]; exact a2 id
  · intro id; rw [h2, h3]; exact a3 id
  · rw [h1, h4]; exact a4
  · rw [h1]; simpa only [Ne, h5] using a5
  · rw [h1, h3]; exact a6
  · rw [h1]; exact a7

/-- Events that are not counted. -/
def Ev.plain : Ev → Bool
  | .callback _ | .handlerAlloc _ | .handlerFree _ | .closing | .freed => false
  | _ => true

theorem acc_ev {w : World} (h : Acc w) (e : Ev) (he : e.plain = true) : Acc (w.ev e) := by
  obtain ⟨a1, a2, a3, a4, a5, a6, a7⟩ := h
  cases e <;> first | (simp [Ev.plain] at he; done) | (constructor <;> simp_all [World.ev, live, okCb, List.count_cons])

theorem acc_callback {w : World} (h : Acc w) (cb : Cb) (hh : w.handler ≠ none) : Acc (w.ev (.callback cb)) := by
  obtain ⟨a1, a2, a3, a4, a5, a6, a7⟩ := h
  have : w.handler.isSome = true := by cases h : w.handler <;> simp_all
  constructor <;> simp_all [World.ev, live, okCb, List.count_cons]

theorem acc_freeHandler {w : World} (h : Acc w) : Acc (freeHandler w) := by
  unfold freeHandler
  split
  · next id hid =>
    obtain ⟨a1, a2, a3, a4, a5, a6, a7⟩ := h
    have hlt := a3 id hid
    constructor
    · simpa [World.ev, List.count_cons] using a1
    · intro id'
      have := a2 id'
      simp only [World.ev, List.count_cons]
      by_cases he : id = id'
      · subst he; simp [hlt, this, hid]
      · have he' : ¬ id' = id := fun h => he h.symm
        simp only [hid, ne_eq, Option.some.injEq, he, not_false_eq_true, and_true] at this
        simp [he]; exact ⟨this.1, fun h => this.2 (by omega)⟩
    · simp [World.ev]
    · simpa [World.ev, List.count_cons] using a4
    · simpa [World.ev, List.count_cons] using a5
    · simp [World.ev, live]
    · simpa [World.ev, okCb] using a7
  · exact h

theorem acc_newHandler {w : World} (h : Acc w) (hh : w.handler = none) : Acc (newHandler w) := by
  unfold newHandler
  obtain ⟨a1, a2, a3, a4, a5, a6, a7⟩ := h
  constructor
  · intro id
    have := a1 id
    simp only [World.ev, List.count_cons]
    by_cases he : w.allocs = id
    · subst he; simp [this]
    · simp [this, he]; grind
  · intro id
    have := a2 id
    simp only [World.ev, List.count_cons]
    simp [this, hh]
    grind
  · simp [World.ev]
  · simpa [World.ev, List.count_cons] using a4
  · simpa [World.ev, List.count_cons] using a5
  · simp [World.ev, live]
  · simpa [World.ev, okCb] using a7

theorem acc_streamClose {w : World} (h : Acc w) (hs : w.sock ≠ .freed) (l : Bool) : Acc (streamClose w l) := by
  unfold streamClose
  split
  · exact acc_frame h (by rfl) (by rfl) (by rfl) (by rfl) (by simp [hs])
  · obtain ⟨a1, a2, a3, a4, a5, a6, a7⟩ := h
    constructor <;> simp_all [World.ev, live, okCb, List.count_cons]

theorem acc_bsClose {w : World} (h : Acc w) (hs : w.sock ≠ .freed) (l : Bool) : Acc (bsClose w l) := by
  unfold bsClose
  split
  · exact acc_streamClose h hs l
  · exact acc_frame h (by rfl) (by rfl) (by rfl) (by rfl) (by exact Iff.rfl)

theorem sock_freeHandler (w : World) : (freeHandler w).sock = w.sock := by
  unfold freeHandler
  split <;> rfl

theorem acc_closeClient {w : World} (h : Acc w) (hs : w.sock ≠ .freed) (l : Bool) : Acc (closeClient w l) := by
  unfold closeClient
  refine acc_bsClose (acc_freeHandler ?_) (by rw [sock_freeHandler]; exact hs) l
  obtain ⟨a1, a2, a3, a4, a5, a6, a7⟩ := h
  constructor <;> simp_all [World.ev, live, okCb, List.count_cons]

theorem acc_mark {w : World} (h : Acc w) (hs : w.sock ≠ .freed) (l : Bool) : Acc (mark w l) := by
  unfold mark
  split
  · exact acc_closeClient h hs l
  · exact acc_frame h (by rfl) (by rfl) (by rfl) (by rfl) (by exact Iff.rfl)

theorem acc_writeResponse {w : World} (h : Acc w) (hs : w.sock ≠ .freed) (k : Kind) (cb : Bool) (c : Choice) : Acc (writeResponse w k cb c).1 := by
  unfold writeResponse
  by_cases hw : w.written = true
  · simpa [hw] using h
  · have hw : w.written = false := by simpa using hw
    simp only [hw, Bool.false_eq_true, if_false]
    split
    · split
      · exact acc_ev (acc_frame h (by rfl) (by rfl) (by rfl) (by rfl) (by exact Iff.rfl)) _ (by rfl)
      · exact acc_frame (acc_ev h (.response k) (by rfl)) (by rfl) (by rfl) (by rfl) (by rfl) (by exact Iff.rfl)
      · exact acc_ev (acc_frame h (by rfl) (by rfl) (by rfl) (by rfl) (by exact Iff.rfl)) _ (by rfl)
    · exact acc_mark (w := World.ev { w with respCb := cb, fired := true, closeImm := w.closeImm || k == Kind.closing, respT := w.respT.arm c.arm, written := false } .onError) (acc_ev (acc_frame h (by rfl) (by rfl) (by rfl) (by rfl) (by exact Iff.rfl)) .onError (by rfl)) hs _

/-- If `write_response` has failed nothing was closed. -/
theorem sock_writeResponse {w w' : World} {items : List Item} {k : Kind} {cb : Bool} {c : Choice} (h : writeResponse w k cb c = (w', items, false)) :
    w'.sock = w.sock := by
  unfold writeResponse at h
  split at h
  · cases h; rfl
  · simp only at h
    split at h
    · split at h
      · cases h
      · cases h
      · cases h; rfl
    · cases h

theorem acc_respondOrMark {w : World} (h : Acc w) (hs : w.sock ≠ .freed) (c : Choice) : Acc (respondOrMark w c).1 := by
  have h1 := acc_writeResponse h hs .closing false c
  unfold respondOrMark
  split
  · next heq => rw [heq] at h1; exact h1
  · next heq => rw [heq] at h1; exact acc_mark h1 (by rw [sock_writeResponse heq]; exact hs) _

theorem acc_respondOrClose {w : World} (h : Acc w) (hs : w.sock ≠ .freed) (c : Choice) : Acc (respondOrClose w c).1 := by
  have h1 := acc_writeResponse h hs .closing false c
  unfold respondOrClose
  split
  · next heq => rw [heq] at h1; exact h1
  · next heq => rw [heq] at h1; exact acc_closeClient h1 (by rw [sock_writeResponse heq]; exact hs) _

theorem acc_callHandler {w : World} (h : Acc w) (cb : Cb) (i a : List Item) (call : Bool) (rest : List Item) : Acc (callHandler w cb i a call rest).w := by
  unfold callHandler
  split
  · exact h
  · split
    · exact acc_frame h (by rfl) (by rfl) (by rfl) (by rfl) (by exact Iff.rfl)
    · next hh =>
      split
      · exact acc_callback h cb hh
      · exact h

theorem acc_onUrl {w : World} (h : Acc w) (hs : w.sock ≠ .freed) (hh : w.handler = none) (u : Url) (eof : Bool) (c : Choice) (rest : List Item) :
    Acc (onUrl w u eof c rest).w := by
  have h0 : ∀ b : Bool, Acc { w with phase := .header, fieldCb := b } := fun b => acc_frame h (by rfl) (by rfl) (by rfl) (by rfl) (by exact Iff.rfl)
  cases u
  · exact acc_frame h (by rfl) (by rfl) (by rfl) (by rfl) (by exact Iff.rfl)
  · exact acc_writeResponse (h0 false) hs .plain false c
  · exact h0 true
  · exact h0 true
  · exact acc_newHandler (h0 true) hh
  · exact acc_newHandler (h0 true) hh

theorem acc_onHeaders {w : World} (h : Acc w) (hs : w.sock ≠ .freed) (ka up body call eof : Bool) (c : Choice) (rest : List Item) :
    Acc (onHeaders w ka up body call eof c rest).w := by
  unfold onHeaders
  have h1 : Acc { w with phase := .body, upgrade := up, keepAlive := ka } := acc_frame h (by rfl) (by rfl) (by rfl) (by rfl) (by exact Iff.rfl)
  simp only
  generalize hw' : (if (!ka && w.fired) = true then mark { w with phase := .body, upgrade := up, keepAlive := ka } c.linger
      else { w with phase := .body, upgrade := up, keepAlive := ka }) = w'
  have h2 : Acc w' := by
    rw [← hw']
    split
    · exact acc_mark h1 hs _
    · exact h1
  split
  · exact acc_callHandler (acc_frame h2 (by rfl) (by rfl) (by rfl) (by rfl) (by exact Iff.rfl)) _ _ _ _ _
  · exact acc_frame h2 (by rfl) (by rfl) (by rfl) (by rfl) (by exact Iff.rfl)

theorem acc_onMessage {w : World} (h : Acc w) (call eof : Bool) (c : Choice) (rest : List Item) : Acc (onMessage w call eof c rest).w := by
  unfold onMessage
  simp only
  split
  · exact acc_callHandler (acc_frame h (by rfl) (by rfl) (by rfl) (by rfl) (by exact Iff.rfl)) _ _ _ _ _
  · split
    · exact acc_callHandler (acc_frame h (by rfl) (by rfl) (by rfl) (by rfl) (by exact Iff.rfl)) _ _ _ _ _
    · exact acc_frame h (by rfl) (by rfl) (by rfl) (by rfl) (by exact Iff.rfl)

theorem acc_exec {w : World} (h : Acc w) (hsk : w.sock ≠ .freed) (eof : Bool) (c : Choice) (rest : List Item) (s' : State)
    (hh : ∀ u, c.act = .onUrl u → w.handler = none) (hs : execStep w eof c rest = some s') : Acc s'.w := by
  unfold execStep at hs
  split at hs
  · simp at hs; subst hs; exact h
  split at hs
  · next u hact =>
    split at hs <;> simp at hs
    subst hs; exact acc_onUrl h hsk (hh _ hact) _ _ _ _
  · split at hs
    · split at hs
      · split at hs
        · simp at hs; subst hs; exact acc_frame h (by rfl) (by rfl) (by rfl) (by rfl) (by exact Iff.rfl)
        · simp at hs; subst hs; exact acc_callHandler h _ _ _ _ _
      · simp at hs; subst hs; exact h
    · simp at hs
  · split at hs <;> simp at hs
    subst hs; exact acc_onHeaders h hsk _ _ _ _ _ _ _
  · split at hs <;> simp at hs
    subst hs; exact acc_callHandler h _ _ _ _ _
  · split at hs <;> simp at hs
    subst hs; exact acc_onMessage h _ _ _ _
  · split at hs <;> simp at hs
    subst hs; exact h
  · split at hs <;> simp at hs
    subst hs; exact acc_frame h (by rfl) (by rfl) (by rfl) (by rfl) (by exact Iff.rfl)
  · simp at hs

theorem acc_tail {w : World} (h : Acc w) (hsk : w.sock ≠ .freed) (eof bad : Bool) (c : Choice) (rest : List Item) : Acc (tailStep w eof bad c rest).w := by
  have h0 : Acc { w with parsing := w.parsing - 1 } := acc_frame h (by rfl) (by rfl) (by rfl) (by rfl) (by exact Iff.rfl)
  unfold tailStep
  simp only
  split
  · exact acc_closeClient h0 hsk _
  · split
    · exact acc_respondOrClose h0 hsk c
    · split
      · exact acc_closeClient h0 hsk _
      · split
        · exact h0
        · split <;> exact acc_frame h (by rfl) (by rfl) (by rfl) (by rfl) (by exact Iff.rfl)

theorem acc_restart {w : World} (h : Acc w) (c : Choice) (rest : List Item) : Acc (restartStep w c rest).w := by
  have h0 := acc_freeHandler h
  unfold restartStep
  split
  · simp only
    split
    · exact acc_ev (acc_frame h0 (by rfl) (by rfl) (by rfl) (by rfl) (by exact Iff.rfl)) _ (by rfl)
    · exact acc_frame h0 (by rfl) (by rfl) (by rfl) (by rfl) (by exact Iff.rfl)
  · exact h

theorem acc_event {w : World} (h : Acc w) (hsk : w.sock ≠ .freed) (c : Choice) (s' : State) (hs : eventStep w c = some s') : Acc s'.w := by
  unfold eventStep at hs
  split at hs
  · split at hs <;> simp at hs
    subst hs; exact acc_frame h (by rfl) (by rfl) (by rfl) (by rfl) (by exact Iff.rfl)
  · split at hs <;> simp at hs
    subst hs; exact acc_frame h (by rfl) (by rfl) (by rfl) (by rfl) (by exact Iff.rfl)
  · split at hs <;> simp at hs
    subst hs; exact acc_frame h (by rfl) (by rfl) (by rfl) (by rfl) (by exact Iff.rfl)
  · split at hs <;> simp at hs
    subst hs; exact acc_frame h (by rfl) (by rfl) (by rfl) (by rfl) (by exact Iff.rfl)
  · split at hs <;> simp at hs
    subst hs; exact acc_respondOrMark (acc_frame h (by rfl) (by rfl) (by rfl) (by rfl) (by exact Iff.rfl)) (by exact hsk) _
  · split at hs <;> simp at hs
    subst hs; exact acc_respondOrMark (acc_frame h (by rfl) (by rfl) (by rfl) (by rfl) (by exact Iff.rfl)) (by exact hsk) _
  · split at hs <;> simp at hs
    subst hs
    obtain ⟨a1, a2, a3, a4, a5, a6, a7⟩ := h
    constructor <;> simp_all [World.ev, live, okCb, List.count_cons]
  · split at hs <;> simp at hs
    subst hs; exact acc_mark h hsk _
  · split at hs <;> simp at hs
    subst hs; exact acc_writeResponse h hsk _ _ _
  · simp at hs

theorem acc_user {w : World} (h : Acc w) (hsk : w.sock ≠ .freed) (cb : Cb) (last body : Bool) (c : Choice) (rest : List Item) (s' : State)
    (hs : userStep w cb last body c rest = some s') : Acc s'.w := by
  unfold userStep at hs
  split at hs
  · simp at hs; subst hs; exact acc_writeResponse h hsk _ _ _
  · simp at hs; subst hs; exact acc_mark h hsk _
  · split at hs
    · split at hs <;> simp at hs <;> subst hs <;> exact acc_frame h (by rfl) (by rfl) (by rfl) (by rfl) (by exact Iff.rfl)
    · simp at hs; subst hs; exact h
    · split at hs
      · simp at hs; subst hs; exact acc_frame h (by rfl) (by rfl) (by rfl) (by rfl) (by exact Iff.rfl)
      · split at hs <;> (simp at hs; subst hs; exact h)
    · split at hs <;> (simp at hs; subst hs; exact acc_frame h (by rfl) (by rfl) (by rfl) (by rfl) (by exact Iff.rfl))
    · simp at hs
  · simp at hs

/-- In `on_url` there is a handler, unless a response was fired. -/
def UrlHandler (s : State) : Prop := ∀ rest, s.stack = .urlNext :: rest → s.w.fired = false → s.w.handler ≠ none

theorem acc_step {s s' : State} (h : Acc s.w) (c : Choice) (hsk : s.w.sock ≠ .freed) (hh : ∀ u, c.act = .onUrl u → s.w.phase = .start → s.w.handler = none)
    (hu : ∀ u, c.act = .onUrl u → s.w.phase = .start) (hn : UrlHandler s) (hs : step s c = some s') : Acc s'.w := by
  unfold step at hs
  split at hs
  · simp at hs
  · split at hs
    · exact acc_event h hsk c s' hs
    · next item rest hst =>
      · split at hs
        · exact acc_user h hsk _ _ _ _ _ _ hs
        · split at hs
          · simp at hs; subst hs; exact acc_writeResponse h hsk _ _ _
          · simp at hs; subst hs; exact acc_mark h hsk _
          · simp at hs; subst hs; exact h
          · simp at hs
        · exact acc_exec h hsk _ _ _ _ (fun u he => hh u he (hu u he)) hs
        · split at hs
          · split at hs
            · simp at hs
            · next hf => simp at hs; subst hs; exact acc_callback h _ (hn _ hst (by simpa using hf))
          · simp at hs; subst hs; exact h
          · simp at hs
        · simp at hs; subst hs; exact acc_tail h hsk _ _ _ _
        · simp at hs; subst hs
          simp only
          split
          · exact acc_streamClose (acc_frame h (by rfl) (by rfl) (by rfl) (by rfl) (by exact Iff.rfl)) (by exact hsk) _
          · exact acc_frame h (by rfl) (by rfl) (by rfl) (by rfl) (by exact Iff.rfl)
        · simp at hs; subst hs
          unfold headersEndStep; simp only
          split <;> exact acc_frame h (by rfl) (by rfl) (by rfl) (by rfl) (by exact Iff.rfl)
        · split at hs
          · simp at hs; subst hs; exact h
          · simp only at hs
            split at hs
            · simp at hs; subst hs; exact acc_frame h (by rfl) (by rfl) (by rfl) (by rfl) (by exact Iff.rfl)
            · simp at hs; subst hs; exact acc_frame h (by rfl) (by rfl) (by rfl) (by rfl) (by exact Iff.rfl)
            · simp at hs
        · simp at hs; subst hs; exact acc_respondOrMark (acc_ev h _ (by rfl)) hsk c
        · simp at hs; subst hs
          unfold writtenStep; simp only
          split
          · exact acc_ev (acc_frame h (by rfl) (by rfl) (by rfl) (by rfl) (by exact Iff.rfl)) _ (by rfl)
          · exact acc_frame h (by rfl) (by rfl) (by rfl) (by rfl) (by exact Iff.rfl)
        · simp at hs; subst hs
          unfold writtenEndStep
          split
          · exact h
          · split
            · exact acc_mark h hsk _
            · exact h
        · simp at hs; subst hs; exact acc_restart h _ _

end Cio.HttpLife
