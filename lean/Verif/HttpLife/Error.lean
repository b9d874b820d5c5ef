import Verif.HttpLife.Neg
/-
C63: what happens when a callback of the location handler returns an error.  No rule is needed: this holds whatever the user, the peer and the
operating system do.
-/
namespace Cio.HttpLife

/-- Directly in `http_parser_execute`. -/
def atExec : List Item → Bool
  | [.exec _, .bsRet] => true
  | _ => false

/-- `http_parser_execute` is never nested, and it is in at most one callback. -/
def shaped : List Item → Bool
  | [] => true
  | .bsRet :: l => l == []
  | .exec _ :: l => l == [.bsRet]
  | .tail _ _ :: l => l == [.bsRet]
  | .user _ _ _ :: l => atExec l
  | .urlNext :: l => atExec l
  | .headersEnd _ :: l => atExec l
  | .messageEnd _ :: l => atExec l
  | _ :: l => shaped l

/-- The same, and no callback of the parser is under way. -/
def bare : List Item → Bool
  | [] => true
  | .bsRet :: l => l == []
  | .exec _ :: l => l == [.bsRet]
  | .tail _ _ :: l => l == [.bsRet]
  | .user _ _ _ :: _ => false
  | .urlNext :: _ => false
  | .headersEnd _ :: _ => false
  | .messageEnd _ :: _ => false
  | _ :: l => bare l

/-- `parsing` belongs to this stack. -/
def depth : List Item → Nat
  | [] => 0
  | .exec _ :: l => depth l + 1
  | .tail _ _ :: l => depth l + 1
  | _ :: l => depth l

/-- A callback other than the one for the complete message is under way. -/
def inCallback : List Item → Bool
  | [] => false
  | .user .message _ _ :: _ => false
  | .user _ _ _ :: _ => true
  | _ :: l => inCallback l

structure Base (s : State) : Prop where
  sh : shaped s.stack = true
  pa : s.w.ub = false → s.w.parsing = depth s.stack
  wf : s.w.written = true → s.w.fired = true
  rf : s.w.reqComplete = true → s.w.fired = true
  ic : inCallback s.stack = true → s.w.reqComplete = false

/-- The parser is dead, and nothing can bring it back. -/
structure Dead (s : State) : Prop where
  sh : bare s.stack = true
  dd : s.w.dead = true
  rc : s.w.reqComplete = false


theorem atExec_eq {l : List Item} (h : atExec l = true) : ∃ e, l = [.exec e, .bsRet] := by
  unfold atExec at h
  split at h
  · exact ⟨_, rfl⟩
  · simp at h

/-- Nothing happens to the parser and to what is complete, and neither a callback is called nor the next request begun. -/
structure Quiet (w w' : World) : Prop where
  dd : w'.dead = w.dead
  rc : w'.reqComplete = w.reqComplete
  pa : w'.parsing = w.parsing
  ub : w'.ub = w.ub
  fi : w.fired = true → w'.fired = true
  wf : (w.written = true → w.fired = true) → w'.written = true → w'.fired = true
  lg : ∃ l, w'.log = l ++ w.log ∧ (∀ cb, Ev.callback cb ∉ l) ∧ Ev.restarted ∉ l

theorem Quiet.refl (w : World) : Quiet w w := ⟨rfl, rfl, rfl, rfl, id, id, [], rfl, by simp, by simp⟩

theorem Quiet.trans {a b c : World} (h1 : Quiet a b) (h2 : Quiet b c) : Quiet a c := by
  obtain ⟨l1, e1, n1, m1⟩ := h1.lg
  obtain ⟨l2, e2, n2, m2⟩ := h2.lg
  refine ⟨h2.dd.trans h1.dd, h2.rc.trans h1.rc, h2.pa.trans h1.pa, h2.ub.trans h1.ub, fun h => h2.fi (h1.fi h), fun h => h2.wf (h1.wf h), l2 ++ l1, ?_, ?_, ?_⟩
  · rw [e2, e1, List.append_assoc]
  · intro cb h; rcases List.mem_append.1 h with h | h
    · exact n2 cb h
    · exact n1 cb h
  · intro h; rcases List.mem_append.1 h with h | h
    · exact m2 h
    · exact m1 h

/-- Changes of other fields. -/
theorem quiet_frame {w w' : World} (h1 : w'.dead = w.dead) (h2 : w'.reqComplete = w.reqComplete) (h3 : w'.parsing = w.parsing) (h4 : w'.ub = w.ub)
    (h5 : w'.fired = w.fired) (h6 : w'.written = w.written) (h7 : w'.log = w.log) : Quiet w w' :=
  ⟨h1, h2, h3, h4, by rw [h5]; exact id, by rw [h5, h6]; exact id, [], by rw [h7]; rfl, by simp, by simp⟩

theorem quiet_ev (w : World) (e : Ev) (h1 : ∀ cb, e ≠ .callback cb) (h2 : e ≠ .restarted) : Quiet w (w.ev e) :=
  ⟨rfl, rfl, rfl, rfl, id, id, [e], rfl, by simpa [eq_comm] using h1, by simpa [eq_comm] using h2⟩

theorem quiet_streamClose (w : World) (l : Bool) : Quiet w (streamClose w l) := by
  unfold streamClose
  split
  · exact quiet_frame rfl rfl rfl rfl rfl rfl rfl
  · exact Quiet.trans (b := { w with sock := .freed, reading := false, writing := false }) (quiet_frame rfl rfl rfl rfl rfl rfl rfl) (quiet_ev _ _ (by simp) (by simp))

theorem quiet_bsClose (w : World) (l : Bool) : Quiet w (bsClose w l) := by
  unfold bsClose
  split
  · exact quiet_streamClose w l
  · exact quiet_frame rfl rfl rfl rfl rfl rfl rfl

theorem quiet_freeHandler (w : World) : Quiet w (freeHandler w) := by
  unfold freeHandler
  split
  · exact Quiet.trans (b := { w with handler := none }) (quiet_frame rfl rfl rfl rfl rfl rfl rfl) (quiet_ev _ _ (by simp) (by simp))
  · exact Quiet.refl w

theorem quiet_closeClient (w : World) (l : Bool) : Quiet w (closeClient w l) := by
  unfold closeClient
  refine Quiet.trans ?_ (quiet_bsClose _ l)
  refine Quiet.trans ?_ (quiet_freeHandler _)
  exact Quiet.trans (b := { w with reqT := {}, respT := {}, closes := w.closes + 1 }) (quiet_frame rfl rfl rfl rfl rfl rfl rfl) (quiet_ev _ _ (by simp) (by simp))

theorem quiet_mark (w : World) (l : Bool) : Quiet w (mark w l) := by
  unfold mark
  split
  · exact quiet_closeClient w l
  · exact quiet_frame rfl rfl rfl rfl rfl rfl rfl

theorem quiet_writeResponse (w : World) (k : Kind) (cb : Bool) (c : Choice) : Quiet w (writeResponse w k cb c).1 := by
  unfold writeResponse
  by_cases hw : w.written = true
  · rw [if_pos hw]; exact Quiet.refl w
  · rw [if_neg hw]
    dsimp only
    have h0 : ∀ ci t, Quiet w { w with respCb := cb, fired := true, closeImm := ci, respT := t } := fun ci t =>
      ⟨rfl, rfl, rfl, rfl, fun _ => rfl, fun _ _ => rfl, [], rfl, by simp, by simp⟩
    have h1 : ∀ ci t wr, Quiet w (World.ev { w with respCb := cb, fired := true, closeImm := ci, respT := t, written := true, writing := wr } (.response k)) := fun ci t wr =>
      ⟨rfl, rfl, rfl, rfl, fun _ => rfl, fun _ _ => rfl, [.response k], rfl, by simp, by simp⟩
    split
    · split
      · exact h1 _ _ _
      · exact h1 _ _ _
      · exact h1 _ _ _
    · exact Quiet.trans (Quiet.trans (h0 _ _) (quiet_ev _ .onError (by simp) (by simp))) (quiet_mark _ _)

theorem writeResponse_items (w : World) (k : Kind) (cb : Bool) (c : Choice) :
    (writeResponse w k cb c).2.1 = [] ∨ ∃ ok, (writeResponse w k cb c).2.1 = [.written ok] := by
  unfold writeResponse
  dsimp only
  split
  · exact Or.inl rfl
  · split
    · split
      · exact Or.inr ⟨_, rfl⟩
      · exact Or.inl rfl
      · exact Or.inl rfl
    · exact Or.inl rfl

theorem quiet_respondOrMark (w : World) (c : Choice) : Quiet w (respondOrMark w c).1 := by
  have h1 := quiet_writeResponse w .closing false c
  unfold respondOrMark
  split
  · next heq => rw [heq] at h1; exact h1
  · next heq => rw [heq] at h1; exact Quiet.trans h1 (quiet_mark _ _)

theorem respondOrMark_items (w : World) (c : Choice) : (respondOrMark w c).2 = [] ∨ ∃ ok, (respondOrMark w c).2 = [.written ok] := by
  have h1 := writeResponse_items w .closing false c
  unfold respondOrMark
  split
  · next heq => rw [heq] at h1; exact h1
  · next heq => rw [heq] at h1; exact h1

theorem quiet_respondOrClose (w : World) (c : Choice) : Quiet w (respondOrClose w c).1 := by
  have h1 := quiet_writeResponse w .closing false c
  unfold respondOrClose
  split
  · next heq => rw [heq] at h1; exact h1
  · next heq => rw [heq] at h1; exact Quiet.trans h1 (quiet_closeClient _ _)

theorem respondOrClose_items (w : World) (c : Choice) : (respondOrClose w c).2 = [] ∨ ∃ ok, (respondOrClose w c).2 = [.written ok] := by
  have h1 := writeResponse_items w .closing false c
  unfold respondOrClose
  split
  · next heq => rw [heq] at h1; exact h1
  · next heq => rw [heq] at h1; exact h1

/-- Up to one `written` on top. -/
theorem base_quiet {w w' : World} {st items : List Item} (h : Base ⟨w, st⟩) (hq : Quiet w w') (hi : items = [] ∨ ∃ ok, items = [.written ok]) :
    Base ⟨w', items ++ st⟩ := by
  obtain ⟨h1, h2, h3, h4, h5⟩ := h
  simp only at h1 h2 h3 h4 h5
  have hx : ∀ st', shaped st' = true → depth st' = depth st → (inCallback st' = true → inCallback st = true) → Base ⟨w', st'⟩ := by
    intro st' a b d
    refine ⟨a, ?_, hq.wf h3, ?_, ?_⟩
    · intro hu; rw [hq.ub] at hu; rw [hq.pa, b]; exact h2 hu
    · intro hr; rw [hq.rc] at hr; exact hq.fi (h4 hr)
    · intro hc; rw [hq.rc]; exact h5 (d hc)
  rcases hi with rfl | ⟨ok, rfl⟩
  · exact hx _ h1 rfl id
  · exact hx _ h1 rfl id

theorem dead_quiet {w w' : World} {st items : List Item} (h : Dead ⟨w, st⟩) (hq : Quiet w w') (hi : items = [] ∨ ∃ ok, items = [.written ok]) :
    Dead ⟨w', items ++ st⟩ := by
  obtain ⟨h1, h2, h3⟩ := h
  simp only at h1 h2 h3
  rcases hi with rfl | ⟨ok, rfl⟩
  · exact ⟨h1, hq.dd.trans h2, hq.rc.trans h3⟩
  · exact ⟨h1, hq.dd.trans h2, hq.rc.trans h3⟩

/-- What the log got. -/
def Silent (w w' : World) : Prop := ∃ l, w'.log = l ++ w.log ∧ (∀ cb, Ev.callback cb ∉ l) ∧ Ev.restarted ∉ l

theorem Silent.trans {a b c : World} (h1 : Silent a b) (h2 : Silent b c) : Silent a c := by
  obtain ⟨l1, e1, n1, m1⟩ := h1
  obtain ⟨l2, e2, n2, m2⟩ := h2
  refine ⟨l2 ++ l1, ?_, ?_, ?_⟩
  · rw [e2, e1, List.append_assoc]
  · intro cb h; rcases List.mem_append.1 h with h | h
    · exact n2 cb h
    · exact n1 cb h
  · intro h; rcases List.mem_append.1 h with h | h
    · exact m2 h
    · exact m1 h

theorem dead_of_quiet {w w' : World} {st st' : List Item} (h : Dead ⟨w, st⟩) (hq : Quiet w w') (hb : bare st' = true) :
    Dead ⟨w', st'⟩ ∧ Silent w w' := ⟨⟨hb, hq.dd.trans h.dd, hq.rc.trans h.rc⟩, hq.lg⟩

theorem bare_items {items st : List Item} (hi : items = [] ∨ ∃ ok, items = [.written ok]) (h : bare st = true) : bare (items ++ st) = true := by
  rcases hi with rfl | ⟨ok, rfl⟩ <;> exact h

theorem dead_frame {w w' : World} {st st' : List Item} (h : Dead ⟨w, st⟩) (h1 : w'.dead = w.dead) (h2 : w'.reqComplete = w.reqComplete)
    (h3 : w'.log = w.log) (hb : bare st' = true) : Dead ⟨w', st'⟩ ∧ Silent w w' :=
  ⟨⟨hb, h1.trans h.dd, h2.trans h.rc⟩, [], by rw [h3]; rfl, by simp, by simp⟩

theorem dead_event {w : World} (h : Dead ⟨w, []⟩) (c : Choice) (s' : State) (hs : eventStep w c = some s') : Dead s' ∧ Silent w s'.w := by
  unfold eventStep at hs
  split at hs
  · split at hs <;> simp at hs
    subst hs; exact dead_frame h rfl rfl rfl rfl
  · split at hs <;> simp at hs
    subst hs; exact dead_frame h rfl rfl rfl rfl
  · split at hs <;> simp at hs
    subst hs; exact dead_frame h rfl rfl rfl rfl
  · split at hs <;> simp at hs
    subst hs; exact dead_frame h rfl rfl rfl rfl
  · split at hs <;> simp at hs
    subst hs
    refine dead_of_quiet h (Quiet.trans (b := { w with reqT := {} }) (quiet_frame rfl rfl rfl rfl rfl rfl rfl) (quiet_respondOrMark _ c)) ?_
    rw [← List.append_nil (respondOrMark _ c).2]
    exact bare_items (respondOrMark_items _ c) rfl
  · split at hs <;> simp at hs
    subst hs
    refine dead_of_quiet h (Quiet.trans (b := { w with respT := {} }) (quiet_frame rfl rfl rfl rfl rfl rfl rfl) (quiet_respondOrMark _ c)) ?_
    rw [← List.append_nil (respondOrMark _ c).2]
    exact bare_items (respondOrMark_items _ c) rfl
  · split at hs <;> simp at hs
    subst hs
    exact dead_of_quiet h (Quiet.trans (b := { w with sock := .freed, writing := false }) (quiet_frame rfl rfl rfl rfl rfl rfl rfl) (quiet_ev _ _ (by simp) (by simp))) rfl
  · split at hs <;> simp at hs
    subst hs
    exact dead_of_quiet h (quiet_mark w _) rfl
  · split at hs <;> simp at hs
    subst hs
    refine dead_of_quiet h (quiet_writeResponse w _ _ c) ?_
    rw [← List.append_nil (writeResponse w _ _ c).2.1]
    exact bare_items (writeResponse_items w _ _ c) rfl
  · simp at hs

theorem dead_step {s s' : State} (h : Dead s) (c : Choice) (hs : step s c = some s') : Dead s' ∧ Silent s.w s'.w := by
  obtain ⟨w, st⟩ := s
  have hb := h.sh
  simp only at hb
  unfold step at hs
  dsimp only at hs
  split at hs
  · simp at hs
  · split at hs
    · exact dead_event h c s' hs
    · next item rest =>
      split at hs
      · simp at hs; subst hs
        exact dead_frame h rfl rfl rfl rfl
      · cases item with
        | user cb last body => simp [bare] at hb
        | urlNext => simp [bare] at hb
        | headersEnd b => simp [bare] at hb
        | messageEnd r => simp [bare] at hb
        | exec eof =>
          simp [bare] at hb
          subst hb
          have hd : w.dead = true := h.dd
          simp only [execStep, hd, if_true] at hs
          cases hs
          exact dead_frame h rfl rfl rfl rfl
        | tail eof bad =>
          simp [bare] at hb
          subst hb
          simp at hs; subst hs
          unfold tailStep
          have h' : Dead ⟨{ w with parsing := w.parsing - 1 }, [.bsRet]⟩ := ⟨rfl, h.dd, h.rc⟩
          have key : ∀ w'' st', Dead ⟨w'', st'⟩ ∧ Silent { w with parsing := w.parsing - 1 } w'' → Dead ⟨w'', st'⟩ ∧ Silent w w'' := fun _ _ h => h
          dsimp only
          split
          · exact key _ _ (dead_of_quiet h' (quiet_closeClient _ _) rfl)
          · split
            · exact key _ _ (dead_of_quiet h' (quiet_respondOrClose _ c) (bare_items (respondOrClose_items _ c) rfl))
            · split
              · exact key _ _ (dead_of_quiet h' (quiet_closeClient _ _) rfl)
              · split
                · exact dead_frame h rfl rfl rfl rfl
                · split
                  · exact dead_frame h rfl rfl rfl rfl
                  · exact dead_frame h rfl rfl rfl rfl
                  · exact dead_frame h rfl rfl rfl rfl
                  · exact dead_frame h rfl rfl rfl rfl
        | bsRet =>
          simp [bare] at hb
          subst hb
          simp at hs; subst hs
          split
          · exact dead_of_quiet h (Quiet.trans (b := { w with running := w.running - 1 }) (quiet_frame rfl rfl rfl rfl rfl rfl rfl) (quiet_streamClose _ _)) rfl
          · exact dead_frame h rfl rfl rfl rfl
        | serverError =>
          simp at hs; subst hs
          exact dead_of_quiet h (Quiet.trans (quiet_ev w .onError (by simp) (by simp)) (quiet_respondOrMark _ c)) (bare_items (respondOrMark_items _ c) hb)
        | written ok =>
          simp at hs; subst hs
          unfold writtenStep Timer.cancel
          dsimp only
          split <;> split
          all_goals first
            | exact dead_frame h rfl rfl rfl hb
            | exact dead_of_quiet h (Quiet.trans (quiet_frame (w' := { w with respT := {}, completed := true }) rfl rfl rfl rfl rfl rfl rfl) (quiet_ev _ .responseCb (by simp) (by simp))) hb
            | exact dead_of_quiet h (Quiet.trans (quiet_frame (w' := { w with completed := true }) rfl rfl rfl rfl rfl rfl rfl) (quiet_ev _ .responseCb (by simp) (by simp))) hb
        | userWritten ok =>
          dsimp only at hs
          split at hs
          · simp at hs; subst hs
            exact dead_of_quiet h (quiet_writeResponse w _ _ c) (bare_items (writeResponse_items w _ _ c) hb)
          · simp at hs; subst hs
            exact dead_of_quiet h (quiet_mark w _) hb
          · simp at hs; subst hs
            exact dead_frame h rfl rfl rfl hb
          · simp at hs
        | writtenEnd cancelled ok =>
          simp at hs; subst hs
          unfold writtenEndStep
          split
          · exact dead_frame h rfl rfl rfl hb
          · split
            · exact dead_of_quiet h (quiet_mark w _) hb
            · exact dead_frame h rfl rfl rfl hb
        | restart =>
          simp at hs; subst hs
          have hrc : w.reqComplete = false := h.rc
          have n1 : ¬ ((w.reqComplete && w.completed) = true) := by rw [hrc]; simp
          unfold restartStep
          rw [if_neg n1]
          exact dead_frame h rfl rfl rfl hb

theorem dead_run {s : State} (h : Dead s) (cs : List Choice) {s' : State} (hs : run s cs = some s') : Silent s.w s'.w := by
  induction cs generalizing s with
  | nil => simp [run] at hs; subst hs; exact ⟨[], rfl, by simp, by simp⟩
  | cons c cs ih =>
    unfold run at hs
    split at hs
    · next s1 h1 =>
      have := dead_step h c h1
      exact Silent.trans this.2 (ih this.1 hs)
    · simp at hs


/- ### Where callbacks are called -/

/-- What `Base` says without the stack. -/
structure Base0 (w : World) (n : Nat) : Prop where
  pa : w.ub = false → w.parsing = n
  wf : w.written = true → w.fired = true
  rf : w.reqComplete = true → w.fired = true

theorem Base.zero {s : State} (h : Base s) : Base0 s.w (depth s.stack) := ⟨h.pa, h.wf, h.rf⟩

theorem base0_quiet {w w' : World} {n : Nat} (h : Base0 w n) (hq : Quiet w w') : Base0 w' n :=
  ⟨fun hu => by rw [hq.ub] at hu; rw [hq.pa]; exact h.pa hu, hq.wf h.wf, fun hr => by rw [hq.rc] at hr; exact hq.fi (h.rf hr)⟩

theorem base_of {w : World} {st : List Item} {n : Nat} (h : Base0 w n) (h1 : shaped st = true) (h2 : depth st = n) (h3 : inCallback st = false) :
    Base ⟨w, st⟩ := ⟨h1, fun hu => (h.pa hu).trans h2.symm, h.wf, h.rf, fun hc => by rw [h3] at hc; cases hc⟩

theorem base_ub (w : World) {n : Nat} (h : Base0 w n) : Base ⟨{ w with ub := true }, []⟩ :=
  ⟨rfl, (fun hu => nomatch hu), h.wf, h.rf, (fun hc => nomatch hc)⟩

theorem base0_frame {w w' : World} {n : Nat} (h : Base0 w n) (h1 : w'.ub = w.ub) (h2 : w'.parsing = w.parsing) (h3 : w'.written = w.written)
    (h4 : w'.fired = w.fired) (h5 : w'.reqComplete = w.reqComplete) : Base0 w' n :=
  ⟨by rw [h1, h2]; exact h.pa, by rw [h3, h4]; exact h.wf, by rw [h5, h4]; exact h.rf⟩

theorem base_callHandler {w : World} {cb : Cb} {item after rest : List Item} {call : Bool} {n : Nat} (h : Base0 w n)
    (h1 : shaped (item ++ rest) = true) (h2 : depth (item ++ rest) = n) (h3 : shaped (after ++ rest) = true) (h4 : depth (after ++ rest) = n)
    (h5 : inCallback (after ++ rest) = false) : Base (callHandler w cb item after call rest) := by
  unfold callHandler
  by_cases hf : w.fired = true
  · rw [if_pos hf]; exact base_of h h3 h4 h5
  · rw [if_neg hf]
    have hrc : w.reqComplete = false := by
      cases hr : w.reqComplete
      · rfl
      · exact absurd (h.rf hr) hf
    by_cases hh : w.handler = none
    · rw [if_pos hh]; exact base_ub w h
    · rw [if_neg hh]
      by_cases hc : call = true
      · rw [if_pos hc]
        exact ⟨h1, fun hu => (h.pa hu).trans h2.symm, h.wf, h.rf, fun _ => hrc⟩
      · rw [if_neg hc]; exact base_of h h3 h4 h5

theorem shaped_items {items st : List Item} (hi : items = [] ∨ ∃ ok, items = [.written ok]) :
    shaped (items ++ st) = shaped st ∧ depth (items ++ st) = depth st ∧ inCallback (items ++ st) = inCallback st := by
  rcases hi with rfl | ⟨ok, rfl⟩ <;> exact ⟨rfl, rfl, rfl⟩

theorem base_onHeaders {w : World} (h : Base0 w 1) (keepAlive upgrade body call eof : Bool) (c : Choice) :
    Base (onHeaders w keepAlive upgrade body call eof c [.bsRet]) := by
  unfold onHeaders Timer.cancel
  dsimp only
  have h1 : Base0 { w with phase := .body, upgrade := upgrade, keepAlive := keepAlive } 1 := base0_frame h rfl rfl rfl rfl rfl
  have h2 : Base0 (if (!keepAlive && w.fired) = true then mark { w with phase := .body, upgrade := upgrade, keepAlive := keepAlive } c.linger
      else { w with phase := .body, upgrade := upgrade, keepAlive := keepAlive }) 1 := by
    split
    · exact base0_quiet h1 (quiet_mark _ _)
    · exact h1
  generalize (if (!keepAlive && w.fired) = true then mark { w with phase := .body, upgrade := upgrade, keepAlive := keepAlive } c.linger
      else { w with phase := .body, upgrade := upgrade, keepAlive := keepAlive }) = w2 at h2 ⊢
  by_cases hb : (w2.reqT.set && c.cancel) = true
  · rw [if_pos hb]
    exact base_callHandler (base0_frame h2 rfl rfl rfl rfl rfl) rfl rfl rfl rfl rfl
  · rw [if_neg hb]
    exact base_of (base0_frame h2 rfl rfl rfl rfl rfl) rfl rfl rfl

theorem base_onMessage {w : World} (h : Base0 w 1) (call eof : Bool) (c : Choice) : Base (onMessage w call eof c [.bsRet]) := by
  unfold onMessage Timer.cancel
  dsimp only
  split
  · exact base_callHandler (base0_frame h rfl rfl rfl rfl rfl) rfl rfl rfl rfl rfl
  · by_cases hb : (w.reqT.set && c.cancel) = true
    · rw [if_pos hb]
      exact base_callHandler (base0_frame h rfl rfl rfl rfl rfl) rfl rfl rfl rfl rfl
    · rw [if_neg hb]
      exact base_of (base0_frame h rfl rfl rfl rfl rfl) rfl rfl rfl

theorem base_exec {w : World} {eof : Bool} (h : Base0 w 1) (c : Choice) (s' : State) (hs : execStep w eof c [.bsRet] = some s') : Base s' := by
  have frame : ∀ {w' : World}, w'.ub = w.ub → w'.parsing = w.parsing → w'.written = w.written → w'.fired = w.fired → w'.reqComplete = w.reqComplete → Base0 w' 1 :=
    fun h1 h2 h3 h4 h5 => base0_frame h h1 h2 h3 h4 h5
  unfold execStep at hs
  split at hs
  · cases hs; exact base_of h rfl rfl rfl
  · split at hs
    · -- on_url
      split at hs <;> cases hs
      unfold onUrl
      dsimp only
      split
      · exact base_of (frame rfl rfl rfl rfl rfl) rfl rfl rfl
      · have hq := quiet_writeResponse { w with phase := .header, fieldCb := false } .plain false c
        have hi := writeResponse_items { w with phase := .header, fieldCb := false } .plain false c
        obtain ⟨a1, a2, a3⟩ := shaped_items (st := [.exec eof, .bsRet]) hi
        exact base_of (base0_quiet (w := { w with phase := .header, fieldCb := false }) (frame rfl rfl rfl rfl rfl) hq) (a1.trans rfl) (a2.trans rfl) (a3.trans rfl)
      · exact base_of (frame rfl rfl rfl rfl rfl) rfl rfl rfl
      · exact base_of (frame rfl rfl rfl rfl rfl) rfl rfl rfl
      · exact base_of (frame rfl rfl rfl rfl rfl) rfl rfl rfl
      · exact base_of (frame rfl rfl rfl rfl rfl) rfl rfl rfl
    · -- a field
      split at hs
      · split at hs
        · split at hs
          · cases hs; exact base_ub w h
          · cases hs; exact base_callHandler h rfl rfl rfl rfl rfl
        · cases hs; exact base_of h rfl rfl rfl
      · cases hs
    · -- headers complete
      split at hs <;> cases hs
      exact base_onHeaders h ..
    · split at hs
      · cases hs; exact base_callHandler h rfl rfl rfl rfl rfl
      · cases hs
    · -- message complete
      split at hs <;> cases hs
      exact base_onMessage h ..
    · split at hs <;> cases hs
      exact base_of h rfl rfl rfl
    · split at hs <;> cases hs
      exact base_of (frame rfl rfl rfl rfl rfl) rfl rfl rfl
    · cases hs


theorem base_event {w : World} (h : Base0 w 0) (hu : w.ub = false) (c : Choice) (s' : State) (hs : eventStep w c = some s') : Base s' := by
  have frame : ∀ {w' : World}, w'.ub = w.ub → w'.parsing = w.parsing → w'.written = w.written → w'.fired = w.fired → w'.reqComplete = w.reqComplete → Base0 w' 0 :=
    fun h1 h2 h3 h4 h5 => base0_frame h h1 h2 h3 h4 h5
  have hp := h.pa hu
  unfold eventStep at hs
  split at hs
  · split at hs <;> cases hs
    exact ⟨rfl, fun _ => congrArg (· + 1) hp, h.wf, h.rf, (fun hc => nomatch hc)⟩
  · split at hs <;> cases hs
    exact ⟨rfl, fun _ => congrArg (· + 1) hp, h.wf, h.rf, (fun hc => nomatch hc)⟩
  · split at hs <;> cases hs
    exact base_of (frame rfl rfl rfl rfl rfl) rfl rfl rfl
  · split at hs <;> cases hs
    exact base_of (frame rfl rfl rfl rfl rfl) rfl rfl rfl
  · split at hs <;> cases hs
    have hb := base_quiet (st := []) (base_of (w := { w with reqT := {} }) (frame rfl rfl rfl rfl rfl) rfl rfl rfl) (quiet_respondOrMark _ c) (respondOrMark_items { w with reqT := {} } c)
    rw [List.append_nil] at hb; exact hb
  · split at hs <;> cases hs
    have hb := base_quiet (st := []) (base_of (w := { w with respT := {} }) (frame rfl rfl rfl rfl rfl) rfl rfl rfl) (quiet_respondOrMark _ c) (respondOrMark_items { w with respT := {} } c)
    rw [List.append_nil] at hb; exact hb
  · split at hs <;> cases hs
    exact base_of (frame rfl rfl rfl rfl rfl) rfl rfl rfl
  · split at hs <;> cases hs
    exact base_of (base0_quiet h (quiet_mark _ _)) rfl rfl rfl
  · next k b _ =>
    split at hs <;> cases hs
    have hb := base_quiet (st := []) (base_of h rfl rfl rfl) (quiet_writeResponse w k b c) (writeResponse_items w k b c)
    rw [List.append_nil] at hb; exact hb
  · cases hs

theorem base_user {w : World} {cb : Cb} {last body : Bool} {rest : List Item} (h : Base ⟨w, .user cb last body :: rest⟩) (c : Choice) (s' : State)
    (hs : userStep w cb last body c rest = some s') : Base s' := by
  obtain ⟨e, rfl⟩ := atExec_eq (show atExec rest = true from h.sh)
  have h0 : Base0 w 1 := h.zero
  unfold userStep at hs
  split at hs
  · cases hs
    exact base_quiet h (quiet_writeResponse w _ _ c) (writeResponse_items w _ _ c)
  · cases hs
    exact base_quiet (items := []) h (quiet_mark w _) (Or.inl rfl)
  · split at hs
    · next heq =>
      cases heq
      split at hs <;> cases hs <;> exact base_of (base0_frame h0 rfl rfl rfl rfl rfl) rfl rfl rfl
    · cases hs; exact base_of h0 rfl rfl rfl
    · next heq =>
      cases heq
      split at hs
      · cases hs; exact base_of (base0_frame h0 rfl rfl rfl rfl rfl) rfl rfl rfl
      · split at hs <;> cases hs <;> exact base_of (base0_frame h0 rfl rfl rfl rfl rfl) rfl rfl rfl
    · next heq =>
      cases heq
      split at hs <;> cases hs <;> exact base_of (base0_frame h0 rfl rfl rfl rfl rfl) rfl rfl rfl
    · cases hs
  · cases hs

theorem base_step {s s' : State} (h : Base s) (c : Choice) (hs : step s c = some s') : Base s' := by
  obtain ⟨w, st⟩ := s
  have hb := h.sh
  have h0 := h.zero
  simp only at hb h0
  unfold step at hs
  dsimp only at hs
  split at hs
  · cases hs
  · next hub =>
    have hub : w.ub = false := by simpa using hub
    split at hs
    · exact base_event h0 hub c s' hs
    · next item rest =>
      split at hs
      · cases hs; exact base_ub w h0
      · cases item with
        | user cb last body => exact base_user h c s' hs
        | urlNext =>
          obtain ⟨e, rfl⟩ := atExec_eq (show atExec rest = true from hb)
          dsimp only at hs
          split at hs
          · split at hs
            · cases hs
            · next hf =>
              cases hs
              refine ⟨rfl, fun hu => h0.pa hu, h0.wf, h0.rf, fun _ => ?_⟩
              cases hr : w.reqComplete
              · exact hr
              · exact absurd (h0.rf hr) hf
          · cases hs; exact base_of h0 rfl rfl rfl
          · cases hs
        | headersEnd b =>
          obtain ⟨e, rfl⟩ := atExec_eq (show atExec rest = true from hb)
          cases hs
          unfold headersEndStep
          dsimp only
          split <;> exact base_of (base0_frame h0 rfl rfl rfl rfl rfl) rfl rfl rfl
        | messageEnd r =>
          obtain ⟨e, rfl⟩ := atExec_eq (show atExec rest = true from hb)
          dsimp only at hs
          split at hs
          · cases hs; exact base_of h0 rfl rfl rfl
          · next hw =>
            have hw : w.written = true := by simpa using hw
            have hf := h0.wf hw
            split at hs
            · cases hs
              exact ⟨rfl, h0.pa, fun _ => hf, fun _ => hf, (fun hc => nomatch hc)⟩
            · next heq =>
              cases heq
              cases hs
              exact ⟨rfl, h0.pa, fun _ => hf, fun _ => hf, (fun hc => nomatch hc)⟩
            · cases hs
        | exec eof =>
          have hr : rest = [.bsRet] := by simpa [shaped] using hb
          subst hr
          exact base_exec h0 c s' hs
        | tail eof bad =>
          have hr : rest = [.bsRet] := by simpa [shaped] using hb
          subst hr
          cases hs
          have hp : w.parsing = 1 := h0.pa hub
          have h1 : Base0 { w with parsing := w.parsing - 1 } 0 := ⟨fun _ => by rw [hp], h0.wf, h0.rf⟩
          unfold tailStep
          dsimp only
          split
          · exact base_of (base0_quiet h1 (quiet_closeClient _ _)) rfl rfl rfl
          · split
            · exact base_quiet (base_of h1 rfl rfl rfl) (quiet_respondOrClose _ c) (respondOrClose_items _ c)
            · split
              · exact base_of (base0_quiet h1 (quiet_closeClient _ _)) rfl rfl rfl
              · split
                · exact base_of h1 rfl rfl rfl
                · split <;> exact base_of (base0_frame h1 rfl rfl rfl rfl rfl) rfl rfl rfl
        | bsRet =>
          have hr : rest = [] := by simpa [shaped] using hb
          subst hr
          cases hs
          have h1 : Base0 { w with running := w.running - 1 } 0 := base0_frame h0 rfl rfl rfl rfl rfl
          split
          · exact base_of (base0_quiet h1 (quiet_streamClose _ _)) rfl rfl rfl
          · exact base_of h1 rfl rfl rfl
        | serverError =>
          cases hs
          have h1 : Base ⟨w, rest⟩ := ⟨hb, h0.pa, h0.wf, h0.rf, h.ic⟩
          exact base_quiet h1 (Quiet.trans (quiet_ev w .onError (by simp) (by simp)) (quiet_respondOrMark _ c)) (respondOrMark_items _ c)
        | written ok =>
          cases hs
          unfold writtenStep Timer.cancel
          dsimp only
          split <;> split <;> exact ⟨hb, h0.pa, h0.wf, h0.rf, h.ic⟩
        | userWritten ok =>
          dsimp only at hs
          split at hs
          · cases hs
            exact base_quiet h (quiet_writeResponse w _ _ c) (writeResponse_items w _ _ c)
          · cases hs
            exact base_quiet (items := []) h (quiet_mark w _) (Or.inl rfl)
          · cases hs
            exact ⟨hb, h0.pa, h0.wf, h0.rf, h.ic⟩
          · cases hs
        | writtenEnd cancelled ok =>
          cases hs
          have h1 : Base ⟨w, rest⟩ := ⟨hb, h0.pa, h0.wf, h0.rf, h.ic⟩
          unfold writtenEndStep
          split
          · exact ⟨hb, h0.pa, h0.wf, h0.rf, h.ic⟩
          · split
            · exact base_quiet (items := []) h1 (quiet_mark w _) (Or.inl rfl)
            · exact ⟨hb, h0.pa, h0.wf, h0.rf, h.ic⟩
        | restart =>
          cases hs
          have h1 : Base ⟨w, rest⟩ := ⟨hb, h0.pa, h0.wf, h0.rf, h.ic⟩
          have h2 : Base ⟨freeHandler w, rest⟩ := base_quiet (items := []) h1 (quiet_freeHandler w) (Or.inl rfl)
          unfold restartStep
          split
          · dsimp only
            generalize freeHandler w = v at h2 ⊢
            split
            · exact ⟨hb, h2.pa, (fun hc => nomatch hc), (fun hc => nomatch hc), fun _ => rfl⟩
            · exact ⟨hb, h2.pa, h2.wf, h2.rf, h2.ic⟩
          · exact h1

theorem base_init : Base init := ⟨rfl, fun _ => rfl, (fun h => nomatch h), (fun h => nomatch h), (fun h => nomatch h)⟩

theorem base_run {s : State} (h : Base s) (cs : List Choice) {s' : State} (hs : run s cs = some s') : Base s' := by
  induction cs generalizing s with
  | nil => simp [run] at hs; subst hs; exact h
  | cons c cs ih =>
    unfold run at hs
    split at hs
    · next s1 h1 => exact ih (base_step h c h1) hs
    · simp at hs


/- ### The property -/

/-- Where a callback that is not the one for the complete message returns an error, the parser is dead for ever. -/
theorem dead_of_error {cs : List Choice} {s s' : State} (hs : run init cs = some s) {cb : Cb} {last body : Bool} {rest : List Item}
    (hst : s.stack = .user cb last body :: rest) (hcb : cb ≠ .message) (c : Choice) (hc : c.act = .ret .error) (h1 : step s c = some s') :
    (s'.w.ub = true ∨ (Dead s' ∧ ∃ e, s'.stack = [.tail e (c.short || cb == .headers), .bsRet])) ∧ s'.w.log = s.w.log ∧ s'.w.parsing = s.w.parsing := by
  have hb := base_run base_init cs hs
  obtain ⟨w, st⟩ := s
  simp only at hst
  subst hst
  obtain ⟨e, rfl⟩ := atExec_eq (show atExec rest = true from hb.sh)
  have hrc : w.reqComplete = false := hb.ic (by cases cb <;> simp_all [inCallback])
  unfold step at h1
  dsimp only at h1
  split at h1
  · cases h1
  · split at h1
    · cases h1
      exact ⟨Or.inl rfl, rfl, rfl⟩
    · unfold userStep at h1
      rw [hc] at h1
      dsimp only at h1
      cases cb with
      | message => exact absurd rfl hcb
      | headers => cases h1; exact ⟨Or.inr ⟨⟨rfl, rfl, hrc⟩, e, by simp⟩, rfl, rfl⟩
      | url => simp only [true_or, if_true] at h1; cases h1; exact ⟨Or.inr ⟨⟨rfl, rfl, hrc⟩, e, by cases c.short <;> rfl⟩, rfl, rfl⟩
      | field => dsimp only at h1; cases h1; exact ⟨Or.inr ⟨⟨rfl, rfl, hrc⟩, e, by cases c.short <;> rfl⟩, rfl, rfl⟩
      | body => dsimp only at h1; cases h1; exact ⟨Or.inr ⟨⟨rfl, rfl, hrc⟩, e, by cases c.short <;> rfl⟩, rfl, rfl⟩


/-- C63: when a callback of the location handler (other than the one for the complete message) returns an error, no callback of a location handler is
called on this connection any more, and no further request is read, whatever happens. -/
theorem error_is_final (cs cs' : List Choice) {s s' : State} (hs : run init cs = some s) {cb : Cb} {last body : Bool} {rest : List Item}
    (hst : s.stack = .user cb last body :: rest) (hcb : cb ≠ .message) (c : Choice) (hc : c.act = .ret .error) (h1 : run s (c :: cs') = some s') :
    ∃ later, s'.w.log = later ++ s.w.log ∧ (∀ cb', Ev.callback cb' ∉ later) ∧ Ev.restarted ∉ later := by
  unfold run at h1
  split at h1
  · next s1 h2 =>
    obtain ⟨h3, h4, _⟩ := dead_of_error hs hst hcb c hc h2
    rcases h3 with h3 | ⟨h3, _⟩
    · cases cs' with
      | nil => cases h1; exact ⟨[], by rw [h4]; rfl, by simp, by simp⟩
      | cons c' cs' =>
        unfold run at h1
        have : step s1 c' = none := by unfold step; rw [if_pos h3]
        rw [this] at h1; cases h1
    · have := dead_run h3 cs' h1
      rw [Silent, h4] at this
      exact this
  · cases h1

theorem closing_in_closeClient (v : World) (l : Bool) : Ev.closing ∈ (closeClient v l).log := by
  unfold closeClient bsClose streamClose freeHandler
  cases v.handler <;> cases l <;> simp [World.ev] <;> split <;> simp

/-- C63: if http_parser stops in the middle of the data it was given, as it does for all callbacks in front of the end of the data, and always for the
callback for the complete header, the error is acted upon at once: the response 400 is given to the stream, or the connection is closed. -/
theorem error_answered_partial (cs : List Choice) {s s1 s2 : State} (hs : run init cs = some s) {cb : Cb} {last body : Bool} {rest : List Item}
    (hst : s.stack = .user cb last body :: rest) (hcb : cb ≠ .message) (c c' : Choice) (hc : c.act = .ret .error) (hsh : c.short = true ∨ cb = .headers)
    (h1 : step s c = some s1) (h2 : step s1 c' = some s2) (hu : s2.w.ub = false) :
    s2.w.log = .response .closing :: s.w.log ∨ Ev.closing ∈ s2.w.log := by
  have hb := base_step (base_run base_init cs hs) c h1
  obtain ⟨h3, h4, h5⟩ := dead_of_error hs hst hcb c hc h1
  have hu1 : ¬ s1.w.ub = true := fun h => by unfold step at h2; rw [if_pos h] at h2; cases h2
  obtain ⟨_, e, h6⟩ := h3.resolve_left hu1
  have hbad : (c.short || cb == .headers) = true := by rcases hsh with h | h <;> simp [h]
  rw [hbad] at h6
  have hp : s1.w.parsing = 1 := by have := hb.pa (by simpa using hu1); rw [h6] at this; exact this
  rw [← h4]
  obtain ⟨w, st⟩ := s1
  simp only at h6 hp hu1 ⊢
  subst h6
  unfold step at h2
  dsimp only at h2
  rw [if_neg hu1] at h2
  split at h2
  · cases h2; cases hu
  · cases h2
    unfold tailStep
    dsimp only
    split
    · exact Or.inr (closing_in_closeClient _ _)
    · rw [if_pos rfl, hp]
      unfold respondOrClose writeResponse mark
      dsimp only
      cases hw : w.written <;> cases ha : c'.arm <;> cases ho : c'.out <;> simp [closing_in_closeClient, World.ev]

private abbrev a : Act → Choice := Choice.of

set_option maxRecDepth 20000 in
/-- A header field that the handler does not like: the hypotheses of `error_is_final` and `error_answered_partial` are met, the client gets 400 and the
connection is closed. -/
example :
    ((run init [a .readData, a (.onUrl .ok), a (.urlCall true), a (.ret .success), a .parsed, a .go, a .go, a .readData, a (.onField true)]).map
      (fun s => s.stack)) = some [.user .field false false, .exec false, .bsRet] ∧
    seen [a .readData, a (.onUrl .ok), a (.urlCall true), a (.ret .success), a .parsed, a .go, a .go, a .readData, a (.onField true), a (.ret .error), a .go,
      a .go, a .go, a .go] =
      some ([.handlerAlloc 0, .callback .url, .callback .field, .response .closing, .closing, .handlerFree 0, .freed], false, true) := by decide +kernel

set_option maxRecDepth 20000 in
/-- C63, negation: the callback for the complete message returns an error when its response has been written.  http_parser has parsed all bytes of the
request, so nothing is left of the error: the connection goes on with the next request, http_server.c 439-446, 587-614. -/
theorem message_error_ignored :
    seen (request false ++ respondNow ++ [a (.ret .error), { act := .go, short := false }, a .go, a .go, a .go] ++ [a .readData, a (.onUrl .ok), a (.urlCall true)]) =
      some ([.handlerAlloc 0, .callback .url, .callback .field, .callback .message, .response .plain, .responseCb, .handlerFree 0, .restarted,
        .handlerAlloc 1, .callback .url], false, false) := by decide +kernel

set_option maxRecDepth 20000 in
/-- A response given outside of the callbacks, while the body is awaited: all rules are obeyed, and the next request is read when the body is complete. -/
theorem example_async :
    obeysB init [a .readData, a (.onUrl .ok), a (.urlCall true), a (.ret .success), a .parsed, a .go, a .go, a .readData, a (.onHeaders true false true true),
      a (.ret .success), a .go, a .parsed, a .go, a .go, a (.userRespond .plain true), a .go, a (.ret .success), a .go, a .go, a .readData, a (.onBody true),
      a (.onMessage true), a .go, a .parsed, a .go, a .go, a .go] = true ∧
    seen [a .readData, a (.onUrl .ok), a (.urlCall true), a (.ret .success), a .parsed, a .go, a .go, a .readData, a (.onHeaders true false true true),
      a (.ret .success), a .go, a .parsed, a .go, a .go, a (.userRespond .plain true), a .go, a (.ret .success), a .go, a .go, a .readData, a (.onBody true),
      a (.onMessage true), a .go, a .parsed, a .go, a .go, a .go] =
      some ([.handlerAlloc 0, .callback .url, .callback .headers, .response .plain, .responseCb, .handlerFree 0, .restarted], false, true) := by decide +kernel

end Cio.HttpLife
