import Verif.HttpLife.Model
/-
What holds in every execution, whatever the parser, the peer, the user and the operating system do: one response per request, no callback of the
location handler behind a response.
-/
namespace Cio.HttpLife

/-- No response has been given to the stream since the server became ready for this request. -/
def clean : List Ev → Bool
  | [] => true
  | .restarted :: _ => true
  | .response _ :: _ => false
  | _ :: l => clean l

/-- At every response and at every callback no response had been given to the stream before for this request. -/
def okLog : List Ev → Bool
  | [] => true
  | .response _ :: l => clean l && okLog l
  | .callback _ :: l => clean l && okLog l
  | _ :: l => okLog l

structure LogInv (w : World) : Prop where
  ok : okLog w.log = true
  cl : w.written = false → clean w.log = true
  wf : w.written = true → w.fired = true

theorem logInv_frame {w w' : World} (h : LogInv w) (h1 : w'.log = w.log) (h2 : w'.written = w.written) (h3 : w'.fired = w.fired) : LogInv w' :=
  ⟨by rw [h1]; exact h.ok, by rw [h1, h2]; exact h.cl, by rw [h2, h3]; exact h.wf⟩

/-- Events that are neither responses nor callbacks nor the start of a request. -/
def Ev.other : Ev → Bool
  | .response _ | .callback _ | .restarted => false
  | _ => true

theorem logInv_ev {w : World} (h : LogInv w) (e : Ev) (he : e.other = true) : LogInv (w.ev e) := by
  obtain ⟨h1, h2, h3⟩ := h
  refine ⟨?_, ?_, h3⟩
  · cases e <;> simp_all [Ev.other, World.ev, okLog]
  · intro hw
    have := h2 hw
    cases e <;> simp_all [Ev.other, World.ev, clean]

theorem logInv_callback {w : World} (h : LogInv w) (cb : Cb) (hf : w.fired = false) : LogInv (w.ev (.callback cb)) := by
  obtain ⟨h1, h2, h3⟩ := h
  have hw : w.written = false := by cases hw : w.written <;> simp_all
  refine ⟨?_, ?_, h3⟩
  · simp [World.ev, okLog, h1, h2 hw]
  · intro _; simpa [World.ev, clean] using h2 hw

theorem logInv_freeHandler {w : World} (h : LogInv w) : LogInv (freeHandler w) := by
  unfold freeHandler
  split
  · exact logInv_ev (logInv_frame h (by rfl) (by rfl) (by rfl)) _ (by rfl)
  · exact h

theorem logInv_streamClose {w : World} (h : LogInv w) (l : Bool) : LogInv (streamClose w l) := by
  unfold streamClose
  split
  · exact logInv_frame h (by rfl) (by rfl) (by rfl)
  · exact logInv_ev (logInv_frame h (by rfl) (by rfl) (by rfl)) _ (by rfl)

theorem logInv_bsClose {w : World} (h : LogInv w) (l : Bool) : LogInv (bsClose w l) := by
  unfold bsClose
  split
  · exact logInv_streamClose h l
  · exact logInv_frame h (by rfl) (by rfl) (by rfl)

theorem logInv_closeClient {w : World} (h : LogInv w) (l : Bool) : LogInv (closeClient w l) := by
  unfold closeClient
  exact logInv_bsClose (logInv_freeHandler (logInv_ev (logInv_frame h (by rfl) (by rfl) (by rfl)) _ (by rfl))) l

theorem logInv_mark {w : World} (h : LogInv w) (l : Bool) : LogInv (mark w l) := by
  unfold mark
  split
  · exact logInv_closeClient h l
  · exact logInv_frame h (by rfl) (by rfl) (by rfl)

theorem logInv_writeResponse {w : World} (h : LogInv w) (k : Kind) (cb : Bool) (c : Choice) : LogInv (writeResponse w k cb c).1 := by
  unfold writeResponse
  by_cases hw : w.written = true
  · simpa [hw] using h
  · have hw : w.written = false := by simpa using hw
    have h0 : ∀ a b d : Bool, ∀ t : Timer, LogInv { w with respCb := a, fired := true, closeImm := b, respT := t } :=
      fun a b d t => ⟨h.ok, h.cl, fun _ => rfl⟩
    have h1 : ∀ a b d : Bool, ∀ t : Timer, LogInv (({ w with respCb := a, fired := true, closeImm := b, respT := t, written := true, writing := d } : World).ev (.response k)) := by
      intro a b d t
      refine ⟨?_, ?_, fun _ => rfl⟩
      · simp [World.ev, okLog, h.ok, h.cl hw]
      · intro hc; simp [World.ev] at hc
    simp only [hw] at h0 ⊢
    simp only [Bool.false_eq_true, if_false]
    split
    · split
      · exact h1 _ _ _ _
      · exact h1 _ _ _ _
      · exact h1 _ _ _ _
    · exact logInv_mark (logInv_ev (h0 _ _ true _) .onError (by rfl)) _

theorem logInv_respondOrMark {w : World} (h : LogInv w) (c : Choice) : LogInv (respondOrMark w c).1 := by
  have h1 := logInv_writeResponse h .closing false c
  unfold respondOrMark
  split
  · next heq => rw [heq] at h1; exact h1
  · next heq => rw [heq] at h1; exact logInv_mark h1 _

theorem logInv_respondOrClose {w : World} (h : LogInv w) (c : Choice) : LogInv (respondOrClose w c).1 := by
  have h1 := logInv_writeResponse h .closing false c
  unfold respondOrClose
  split
  · next heq => rw [heq] at h1; exact h1
  · next heq => rw [heq] at h1; exact logInv_closeClient h1 _

theorem logInv_callHandler {w : World} (h : LogInv w) (cb : Cb) (i a : List Item) (call : Bool) (rest : List Item) :
    LogInv (callHandler w cb i a call rest).w := by
  unfold callHandler
  split
  · exact h
  · next hf =>
    split
    · exact logInv_frame h (by rfl) (by rfl) (by rfl)
    · split
      · exact logInv_callback h cb (by simpa using hf)
      · exact h

theorem logInv_newHandler {w : World} (h : LogInv w) : LogInv (newHandler w) := by
  unfold newHandler
  exact logInv_ev (logInv_frame h (by rfl) (by rfl) (by rfl)) _ (by rfl)

theorem logInv_onUrl {w : World} (h : LogInv w) (u : Url) (eof : Bool) (c : Choice) (rest : List Item) : LogInv (onUrl w u eof c rest).w := by
  have h0 : ∀ b : Bool, LogInv { w with phase := .header, fieldCb := b } := fun b => logInv_frame h (by rfl) (by rfl) (by rfl)
  cases u
  · exact logInv_frame h (by rfl) (by rfl) (by rfl)
  · exact logInv_writeResponse (h0 false) .plain false c
  · exact h0 true
  · exact h0 true
  · exact logInv_newHandler (h0 true)
  · exact logInv_newHandler (h0 true)

theorem logInv_onHeaders {w : World} (h : LogInv w) (ka up body call eof : Bool) (c : Choice) (rest : List Item) :
    LogInv (onHeaders w ka up body call eof c rest).w := by
  unfold onHeaders
  have h1 : LogInv { w with phase := .body, upgrade := up, keepAlive := ka } := logInv_frame h (by rfl) (by rfl) (by rfl)
  simp only
  generalize hw' : (if (!ka && w.fired) = true then mark { w with phase := .body, upgrade := up, keepAlive := ka } c.linger
      else { w with phase := .body, upgrade := up, keepAlive := ka }) = w'
  have h2 : LogInv w' := by
    rw [← hw']
    split
    · exact logInv_mark h1 _
    · exact h1
  split
  · exact logInv_callHandler (logInv_frame h2 (by rfl) (by rfl) (by rfl)) _ _ _ _ _
  · exact logInv_frame h2 (by rfl) (by rfl) (by rfl)

theorem logInv_onMessage {w : World} (h : LogInv w) (call eof : Bool) (c : Choice) (rest : List Item) : LogInv (onMessage w call eof c rest).w := by
  unfold onMessage
  simp only
  split
  · exact logInv_callHandler (logInv_frame h (by rfl) (by rfl) (by rfl)) _ _ _ _ _
  · split
    · exact logInv_callHandler (logInv_frame h (by rfl) (by rfl) (by rfl)) _ _ _ _ _
    · exact logInv_frame h (by rfl) (by rfl) (by rfl)

theorem logInv_exec {w : World} (h : LogInv w) (eof : Bool) (c : Choice) (rest : List Item) (s' : State) (hs : execStep w eof c rest = some s') :
    LogInv s'.w := by
  unfold execStep at hs
  split at hs
  · simp at hs; subst hs; exact h
  split at hs
  · split at hs <;> simp at hs
    subst hs; exact logInv_onUrl h _ _ _ _
  · split at hs
    · split at hs
      · split at hs
        · simp at hs; subst hs; exact logInv_frame h (by rfl) (by rfl) (by rfl)
        · simp at hs; subst hs; exact logInv_callHandler h _ _ _ _ _
      · simp at hs; subst hs; exact h
    · simp at hs
  · split at hs <;> simp at hs
    subst hs; exact logInv_onHeaders h _ _ _ _ _ _ _
  · split at hs <;> simp at hs
    subst hs; exact logInv_callHandler h _ _ _ _ _
  · split at hs <;> simp at hs
    subst hs; exact logInv_onMessage h _ _ _ _
  · split at hs <;> simp at hs
    subst hs; exact h
  · split at hs <;> simp at hs
    subst hs; exact logInv_frame h (by rfl) (by rfl) (by rfl)
  · simp at hs

theorem logInv_tail {w : World} (h : LogInv w) (eof bad : Bool) (c : Choice) (rest : List Item) : LogInv (tailStep w eof bad c rest).w := by
  have h0 : LogInv { w with parsing := w.parsing - 1 } := logInv_frame h (by rfl) (by rfl) (by rfl)
  unfold tailStep
  simp only
  split
  · exact logInv_closeClient h0 _
  · split
    · exact logInv_respondOrClose h0 c
    · split
      · exact logInv_closeClient h0 _
      · split
        · exact h0
        · split
          · exact logInv_frame h (by rfl) (by rfl) (by rfl)
          · exact logInv_frame h (by rfl) (by rfl) (by rfl)
          · exact logInv_frame h (by rfl) (by rfl) (by rfl)
          · exact logInv_frame h (by rfl) (by rfl) (by rfl)

theorem logInv_restart {w : World} (h : LogInv w) (c : Choice) (rest : List Item) : LogInv (restartStep w c rest).w := by
  have h0 := logInv_freeHandler h
  unfold restartStep
  split
  · simp only
    split
    · refine ⟨?_, ?_, ?_⟩
      · simpa [World.ev, okLog] using h0.ok
      · intro _; simp [World.ev, clean]
      · intro hc; simp [World.ev] at hc
    · exact logInv_frame h0 (by rfl) (by rfl) (by rfl)
  · exact h

theorem logInv_event {w : World} (h : LogInv w) (c : Choice) (s' : State) (hs : eventStep w c = some s') : LogInv s'.w := by
  unfold eventStep at hs
  split at hs
  · split at hs <;> simp at hs
    subst hs; exact logInv_frame h (by rfl) (by rfl) (by rfl)
  · split at hs <;> simp at hs
    subst hs; exact logInv_frame h (by rfl) (by rfl) (by rfl)
  · split at hs <;> simp at hs
    subst hs; exact logInv_frame h (by rfl) (by rfl) (by rfl)
  · split at hs <;> simp at hs
    subst hs; exact logInv_frame h (by rfl) (by rfl) (by rfl)
  · split at hs <;> simp at hs
    subst hs; exact logInv_respondOrMark (logInv_frame h (by rfl) (by rfl) (by rfl)) _
  · split at hs <;> simp at hs
    subst hs; exact logInv_respondOrMark (logInv_frame h (by rfl) (by rfl) (by rfl)) _
  · split at hs <;> simp at hs
    subst hs; exact logInv_ev (logInv_frame h (by rfl) (by rfl) (by rfl)) _ (by rfl)
  · split at hs <;> simp at hs
    subst hs; exact logInv_mark h _
  · split at hs <;> simp at hs
    subst hs; exact logInv_writeResponse h _ _ _
  · simp at hs

theorem logInv_user {w : World} (h : LogInv w) (cb : Cb) (last body : Bool) (c : Choice) (rest : List Item) (s' : State)
    (hs : userStep w cb last body c rest = some s') : LogInv s'.w := by
  unfold userStep at hs
  split at hs
  · simp at hs; subst hs; exact logInv_writeResponse h _ _ _
  · simp at hs; subst hs; exact logInv_mark h _
  · split at hs
    · split at hs <;> simp at hs <;> subst hs
      · exact h
      · exact logInv_frame h (by rfl) (by rfl) (by rfl)
      · exact logInv_frame h (by rfl) (by rfl) (by rfl)
    · simp at hs; subst hs; exact h
    · split at hs
      · simp at hs; subst hs; exact logInv_frame h (by rfl) (by rfl) (by rfl)
      · split at hs <;> (simp at hs; subst hs; exact h)
    · split at hs <;> (simp at hs; subst hs; exact logInv_frame h (by rfl) (by rfl) (by rfl))
    · simp at hs
  · simp at hs

theorem logInv_step {s s' : State} (h : LogInv s.w) (c : Choice) (hs : step s c = some s') : LogInv s'.w := by
  unfold step at hs
  split at hs
  · simp at hs
  · split at hs
    · exact logInv_event h c s' hs
    · split at hs
      · simp at hs; subst hs; exact logInv_frame h (by rfl) (by rfl) (by rfl)
      · split at hs
        · exact logInv_user h _ _ _ _ _ _ hs
        · split at hs
          · simp at hs; subst hs; exact logInv_writeResponse h _ _ _
          · simp at hs; subst hs; exact logInv_mark h _
          · simp at hs; subst hs; exact h
          · simp at hs
        · exact logInv_exec h _ _ _ _ hs
        · split at hs
          · split at hs
            · simp at hs
            · next hf => simp at hs; subst hs; exact logInv_callback h _ (by simpa using hf)
          · simp at hs; subst hs; exact h
          · simp at hs
        · simp at hs; subst hs; exact logInv_tail h _ _ _ _
        · simp at hs; subst hs
          simp only
          split
          · exact logInv_streamClose (logInv_frame h (by rfl) (by rfl) (by rfl)) _
          · exact logInv_frame h (by rfl) (by rfl) (by rfl)
        · simp at hs; subst hs
          unfold headersEndStep; simp only
          split <;> exact logInv_frame h (by rfl) (by rfl) (by rfl)
        · split at hs
          · simp at hs; subst hs; exact h
          · simp only at hs
            split at hs
            · simp at hs; subst hs; exact logInv_frame h (by rfl) (by rfl) (by rfl)
            · simp at hs; subst hs; exact logInv_frame h (by rfl) (by rfl) (by rfl)
            · simp at hs
        · simp at hs; subst hs; exact logInv_respondOrMark (logInv_ev h _ (by rfl)) c
        · simp at hs; subst hs
          unfold writtenStep; simp only
          split
          · exact logInv_ev (logInv_frame h (by rfl) (by rfl) (by rfl)) _ (by rfl)
          · exact logInv_frame h (by rfl) (by rfl) (by rfl)
        · simp at hs; subst hs
          unfold writtenEndStep
          split
          · exact h
          · split
            · exact logInv_mark h _
            · exact h
        · simp at hs; subst hs; exact logInv_restart h _ _

theorem logInv_run {s : State} (h : LogInv s.w) (cs : List Choice) {s' : State} (hs : run s cs = some s') : LogInv s'.w := by
  induction cs generalizing s with
  | nil => simp [run] at hs; subst hs; exact h
  | cons c cs ih =>
    unfold run at hs
    split at hs
    · next s1 h1 => exact ih (logInv_step h c h1) hs
    · simp at hs

theorem logInv_init : LogInv init.w := ⟨rfl, fun _ => rfl, fun h => by simp [init] at h⟩

theorem clean_split {l : List Ev} (h : clean l = true) {a c : List Ev} {k : Kind} (hl : l = a ++ .response k :: c) : Ev.restarted ∈ a := by
  induction a generalizing l with
  | nil => subst hl; simp [clean] at h
  | cons e a ih =>
    subst hl
    cases e <;> first | exact List.mem_cons_self | (simp [clean] at h; done) | exact List.mem_cons_of_mem _ (ih (l := a ++ .response k :: c) h rfl)

theorem okLog_split {l : List Ev} (h : okLog l = true) {a b c : List Ev} {e : Ev} {k : Kind} (he : (∃ k', e = .response k') ∨ ∃ cb, e = .callback cb)
    (hl : l = a ++ e :: b ++ .response k :: c) : Ev.restarted ∈ b := by
  induction a generalizing l with
  | nil =>
    subst hl
    rcases he with ⟨k', rfl⟩ | ⟨cb, rfl⟩
    · simp only [List.nil_append, List.cons_append, okLog, Bool.and_eq_true] at h
      exact clean_split h.1 rfl
    · simp only [List.nil_append, List.cons_append, okLog, Bool.and_eq_true] at h
      exact clean_split h.1 rfl
  | cons e' a ih =>
    subst hl
    have : okLog (a ++ e :: b ++ .response k :: c) = true := by
      cases e' <;> simp_all [okLog]
    exact ih this rfl

end Cio.HttpLife
