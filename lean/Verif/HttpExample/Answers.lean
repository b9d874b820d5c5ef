import Verif.HttpExample.Model
import Verif.HttpLife.Props
import Verif.HttpLife.Neg
/-
The example HTTP server answers every complete request at once, and keeps to the rules of the library (C104).
-/
namespace Cio.HttpExample
open HttpLife (State Choice Act Kind Item World Ev Cb Url Timer)

/-! ### Specification -/

/-- The newest entry is a call of `on_message_complete`. -/
def pend : List Ev → Bool
  | .callback .message :: _ => true
  | _ => false

/-- Each call of `on_message_complete` is followed directly by a response of kind `plain` (200) or by a call of `on_error`.  The log is newest
first. -/
def Answered (l : List Ev) : Prop := ∀ a e b, l = a ++ e :: .callback .message :: b → e = .response .plain ∨ e = .onError

/-! ### Invariant of the world -/

structure Calm (w : World) : Prop where
  ans : Answered w.log
  np : pend w.log = false
  ns : Ev.response .switching ∉ w.log
  rc : w.respCb = false

theorem Answered.cons {l : List Ev} (h : Answered l) {x : Ev} (hx : pend l = true → x = .response .plain ∨ x = .onError) : Answered (x :: l) := by
  intro a e b hl
  cases a with
  | nil =>
    simp only [List.nil_append, List.cons.injEq] at hl
    obtain ⟨rfl, rfl⟩ := hl
    exact hx rfl
  | cons y a =>
    simp only [List.cons_append, List.cons.injEq] at hl
    exact h a e b hl.2

theorem calm_frame {w w' : World} (h : Calm w) (h1 : w'.log = w.log) (h2 : w'.respCb = w.respCb) : Calm w' :=
  ⟨by rw [h1]; exact h.ans, by rw [h1]; exact h.np, by rw [h1]; exact h.ns, by rw [h2]; exact h.rc⟩

/-- Events other than a call of `on_message_complete` and a response 101. -/
def plainEv : Ev → Bool
  | .callback .message | .response .switching => false
  | _ => true

theorem calm_ev {w : World} (h : Calm w) (e : Ev) (he : plainEv e = true) : Calm (w.ev e) := by
  refine ⟨h.ans.cons (fun hp => by rw [h.np] at hp; cases hp), ?_, ?_, h.rc⟩
  · cases e with
    | callback cb => cases cb <;> simp_all [plainEv, World.ev, pend]
    | _ => rfl
  · intro hm
    simp only [World.ev, List.mem_cons] at hm
    rcases hm with hm | hm
    · subst hm; cases he
    · exact h.ns hm

theorem calm_freeHandler {w : World} (h : Calm w) : Calm (HttpLife.freeHandler w) := by
  unfold HttpLife.freeHandler
  split
  · exact calm_ev (calm_frame h (by rfl) (by rfl)) _ (by rfl)
  · exact h

theorem calm_streamClose {w : World} (h : Calm w) (l : Bool) : Calm (HttpLife.streamClose w l) := by
  unfold HttpLife.streamClose
  split
  · exact calm_frame h (by rfl) (by rfl)
  · exact calm_ev (calm_frame h (by rfl) (by rfl)) _ (by rfl)

theorem calm_bsClose {w : World} (h : Calm w) (l : Bool) : Calm (HttpLife.bsClose w l) := by
  unfold HttpLife.bsClose
  split
  · exact calm_streamClose h l
  · exact calm_frame h (by rfl) (by rfl)

theorem calm_closeClient {w : World} (h : Calm w) (l : Bool) : Calm (HttpLife.closeClient w l) := by
  unfold HttpLife.closeClient
  exact calm_bsClose (calm_freeHandler (calm_ev (calm_frame h (by rfl) (by rfl)) _ (by rfl))) l

theorem calm_mark {w : World} (h : Calm w) (l : Bool) : Calm (HttpLife.mark w l) := by
  unfold HttpLife.mark
  split
  · exact calm_closeClient h l
  · exact calm_frame h (by rfl) (by rfl)

/-! ### Invariant of the stack -/

def isUser : Item → Bool
  | .user .. | .userWritten _ => true
  | _ => false

/-- Items above the parser that are no user code. -/
def isAbove : Item → Bool
  | .exec _ | .tail _ _ | .bsRet | .user .. | .userWritten _ => false
  | .messageEnd r => r == .success
  | _ => true

/-- The only user code is `dummy_on_message_complete`, and it is called by the parser, which is called once. -/
def okSt : List Item → Bool
  | [] => true
  | .userWritten _ :: _ => false
  | .user cb _ _ :: l => cb == .message && !l.any isUser && okSt l
  | .exec _ :: l | .tail _ _ :: l | .bsRet :: l => !l.any isUser && okSt l
  | .messageEnd r :: l => r == .success && okSt l
  | _ :: l => okSt l

theorem okSt_above {i : Item} {l : List Item} (h : isAbove i = true) : okSt (i :: l) = okSt l := by
  cases i <;> simp_all [isAbove, okSt]

theorem okSt_append {is l : List Item} (h : ∀ i ∈ is, isAbove i = true) (hl : okSt l = true) : okSt (is ++ l) = true := by
  induction is with
  | nil => exact hl
  | cons i is ih =>
    rw [List.cons_append, okSt_above (h i (by simp))]
    exact ih fun j hj => h j (by simp [hj])

theorem any_above {is l : List Item} (h : ∀ i ∈ is, isAbove i = true) : (is ++ l).any isUser = l.any isUser := by
  induction is with
  | nil => rfl
  | cons i is ih =>
    have hi := h i (by simp)
    have : isUser i = false := by cases i <;> simp_all [isAbove, isUser]
    simp [this, ih fun j hj => h j (by simp [hj])]

/-- A world and a stack without a user frame that has still to respond. -/
structure Good (s : State) : Prop where
  calm : Calm s.w
  st : okSt s.stack = true

theorem writeResponse_items (w : World) (k : Kind) (cb : Bool) (c : Choice) : ∀ i ∈ (HttpLife.writeResponse w k cb c).2.1, isAbove i = true := by
  unfold HttpLife.writeResponse
  split
  · simp
  · simp only
    split
    · split <;> simp [isAbove]
    · simp

theorem calm_writeResponse {w : World} (h : Calm w) (k : Kind) (hk : k ≠ .switching) (c : Choice) :
    Calm (HttpLife.writeResponse w k false c).1 := by
  unfold HttpLife.writeResponse
  split
  · exact h
  · have he : plainEv (.response k) = true := by cases k <;> simp_all [plainEv]
    have h0 : ∀ a b : Bool, ∀ t : Timer, Calm { w with respCb := false, fired := a, closeImm := b, respT := t } :=
      fun a b t => ⟨h.ans, h.np, h.ns, rfl⟩
    have h1 : ∀ a b : Bool, ∀ t : Timer, Calm (({ w with respCb := false, fired := a, closeImm := b, respT := t, written := true } : World).ev (.response k)) :=
      fun a b t => calm_ev (calm_frame (h0 a b t) (by rfl) (by rfl)) _ he
    simp only
    split
    · split
      · exact h1 _ _ _
      · exact calm_frame (h1 _ _ _) (by rfl) (by rfl)
      · exact h1 _ _ _
    · exact calm_mark (calm_ev (h0 _ _ _) .onError rfl) _

theorem respondOrMark_items (w : World) (c : Choice) : ∀ i ∈ (HttpLife.respondOrMark w c).2, isAbove i = true := by
  have h := writeResponse_items w .closing false c
  unfold HttpLife.respondOrMark
  split <;> (next heq => rw [heq] at h; exact h)

theorem calm_respondOrMark {w : World} (h : Calm w) (c : Choice) : Calm (HttpLife.respondOrMark w c).1 := by
  have h1 := calm_writeResponse h .closing nofun c
  unfold HttpLife.respondOrMark
  split
  · next heq => rw [heq] at h1; exact h1
  · next heq => rw [heq] at h1; exact calm_mark h1 _

theorem respondOrClose_items (w : World) (c : Choice) : ∀ i ∈ (HttpLife.respondOrClose w c).2, isAbove i = true := by
  have h := writeResponse_items w .closing false c
  unfold HttpLife.respondOrClose
  split <;> (next heq => rw [heq] at h; exact h)

theorem calm_respondOrClose {w : World} (h : Calm w) (c : Choice) : Calm (HttpLife.respondOrClose w c).1 := by
  have h1 := calm_writeResponse h .closing nofun c
  unfold HttpLife.respondOrClose
  split
  · next heq => rw [heq] at h1; exact h1
  · next heq => rw [heq] at h1; exact calm_closeClient h1 _

/-- A callback the handler does not have. -/
theorem good_noCall {w : World} (h : Calm w) (cb : Cb) (i a : List Item) {rest : List Item} (ha : okSt (a ++ rest) = true) :
    Good (HttpLife.callHandler w cb i a false rest) := by
  unfold HttpLife.callHandler
  split
  · exact ⟨h, ha⟩
  · split
    · exact ⟨calm_frame h (by rfl) (by rfl), rfl⟩
    · exact ⟨h, ha⟩

theorem good_onUrl {w : World} (h : Calm w) (u : Url) (eof : Bool) (c : Choice) {rest : List Item} (hr : okSt (.exec eof :: rest) = true) :
    Good (HttpLife.onUrl w u eof c rest) := by
  have h0 : ∀ b : Bool, Calm { w with phase := .header, fieldCb := b } := fun b => calm_frame h (by rfl) (by rfl)
  have hn : ∀ {v : World}, Calm v → Calm (HttpLife.newHandler v) := fun h => by unfold HttpLife.newHandler; exact calm_ev (calm_frame h (by rfl) (by rfl)) _ (by rfl)
  cases u with
  | bad => exact ⟨calm_frame h (by rfl) (by rfl), by simpa [HttpLife.onUrl, okSt] using hr⟩
  | noLocation =>
    exact ⟨calm_writeResponse (h0 false) .plain nofun c, okSt_append (writeResponse_items _ _ _ _) hr⟩
  | noHandler => exact ⟨h0 true, hr⟩
  | noFree => exact ⟨h0 true, hr⟩
  | noCallbacks => exact ⟨hn (h0 true), hr⟩
  | ok => exact ⟨hn (h0 true), hr⟩

theorem good_onHeaders {w : World} (h : Calm w) (ka up body eof : Bool) (c : Choice) {rest : List Item} (hr : okSt (.exec eof :: rest) = true) :
    Good (HttpLife.onHeaders w ka up body false eof c rest) := by
  unfold HttpLife.onHeaders
  have h1 : Calm { w with phase := .body, upgrade := up, keepAlive := ka } := calm_frame h (by rfl) (by rfl)
  simp only
  generalize hw' : (if (!ka && w.fired) = true then HttpLife.mark { w with phase := .body, upgrade := up, keepAlive := ka } c.linger
      else { w with phase := .body, upgrade := up, keepAlive := ka }) = w'
  have h2 : Calm w' := by
    rw [← hw']
    split
    · exact calm_mark h1 _
    · exact h1
  split
  · exact good_noCall (calm_frame h2 (by rfl) (by rfl)) _ _ [.headersEnd body, .exec eof] (by simpa [okSt] using hr)
  · exact ⟨calm_frame h2 (by rfl) (by rfl), hr⟩

/-- `dummy_on_message_complete` was just called. -/
structure Waiting (s : State) : Prop where
  log : ∃ l, s.w.log = .callback .message :: l
  ans : Answered s.w.log
  ns : Ev.response .switching ∉ s.w.log
  rc : s.w.respCb = false
  fired : s.w.fired = false
  sock : s.w.sock ≠ .freed
  st : okSt s.stack = true
  top : ∃ a b rest, s.stack = .user .message a b :: rest

theorem call_message {w : World} (h : Calm w) (hsock : w.sock ≠ .freed) (eof : Bool) {rest : List Item} (hr : okSt (.exec eof :: rest) = true) (call : Bool) :
    Good (HttpLife.callHandler w .message [.user .message false false, .exec eof] [.messageEnd .success, .exec eof] call rest) ∧
      (HttpLife.callHandler w .message [.user .message false false, .exec eof] [.messageEnd .success, .exec eof] call rest).stack.any isUser = false ∨
    Waiting (HttpLife.callHandler w .message [.user .message false false, .exec eof] [.messageEnd .success, .exec eof] call rest) := by
  have hr' : rest.any isUser = false ∧ okSt rest = true := by simpa [okSt] using hr
  unfold HttpLife.callHandler
  split
  · exact .inl ⟨⟨h, hr⟩, by simpa [isUser] using hr'.1⟩
  · next hf =>
    split
    · exact .inl ⟨⟨calm_frame h (by rfl) (by rfl), rfl⟩, rfl⟩
    · split
      · refine .inr ⟨⟨_, rfl⟩, h.ans.cons (fun hp => by rw [h.np] at hp; cases hp), ?_, h.rc, by simpa [World.ev] using hf, hsock, ?_, ⟨_, _, _, rfl⟩⟩
        · intro hm
          simp only [World.ev, List.mem_cons] at hm
          rcases hm with hm | hm
          · cases hm
          · exact h.ns hm
        · simpa [okSt, isUser] using hr'
      · exact .inl ⟨⟨h, hr⟩, by simpa [isUser] using hr'.1⟩

/-- The state of a connection of the program. -/
inductive CInv (k : Conn) : Prop
  | good (h : Good k.st) (hp : k.st.stack.any isUser = true → k.pc ≠ .respond)
  | waiting (h : Waiting k.st) (hp : k.pc = .respond)

theorem cinv_new : CInv newConn := by
  refine .good ⟨⟨?_, rfl, ?_, rfl⟩, rfl⟩ (by simp [newConn, HttpLife.init])
  · intro a e b h
    simp [newConn, HttpLife.init] at h
  · simp [newConn, HttpLife.init]

/-- The response of the program. -/
theorem calm_respond {s : State} (h : Waiting s) (hw : s.w.written = false) (c : Choice) :
    Calm (HttpLife.writeResponse s.w .plain false c).1 := by
  obtain ⟨l, hl⟩ := h.log
  have h0 : ∀ a b : Bool, ∀ t : Timer, ∀ e : Ev, e = .response .plain ∨ e = .onError → ∀ x : Bool,
      Calm (({ s.w with respCb := false, fired := a, closeImm := b, respT := t, written := x } : World).ev e) := by
    intro a b t e he x
    refine ⟨h.ans.cons (fun _ => he), ?_, ?_, rfl⟩
    · rcases he with rfl | rfl <;> rfl
    · intro hm
      simp only [World.ev, List.mem_cons] at hm
      rcases hm with hm | hm
      · rcases he with rfl | rfl <;> cases hm
      · exact h.ns hm
  unfold HttpLife.writeResponse
  rw [hw]
  simp only [Bool.false_eq_true, if_false]
  split
  · split
    · exact h0 _ _ _ _ (.inl rfl) _
    · exact calm_frame (h0 true (s.w.closeImm || Kind.plain == Kind.closing) (s.w.respT.arm c.arm) (.response .plain) (.inl rfl) true) (by rfl) (by rfl)
    · exact h0 _ _ _ _ (.inl rfl) _
  · exact calm_mark (h0 true (s.w.closeImm || Kind.plain == Kind.closing) (s.w.respT.arm c.arm) .onError (.inr rfl) s.w.written |> fun h => by rw [hw] at h; exact h) _

theorem event_good {w : World} (h : Calm w) {c : Choice} {s' : State} (hs : HttpLife.eventStep w c = some s')
    (ha : c.act ≠ .userClose ∧ ∀ k b, c.act ≠ .userRespond k b) : Good s' ∧ s'.stack.any isUser = false := by
  unfold HttpLife.eventStep at hs
  split at hs
  · split at hs <;> simp at hs
    subst hs; exact ⟨⟨calm_frame h (by rfl) (by rfl), rfl⟩, rfl⟩
  · split at hs <;> simp at hs
    subst hs; exact ⟨⟨calm_frame h (by rfl) (by rfl), rfl⟩, rfl⟩
  · split at hs <;> simp at hs
    subst hs; exact ⟨⟨calm_frame h (by rfl) (by rfl), rfl⟩, rfl⟩
  · split at hs <;> simp at hs
    subst hs; exact ⟨⟨calm_frame h (by rfl) (by rfl), rfl⟩, rfl⟩
  · split at hs <;> simp at hs
    subst hs
    have hi := respondOrMark_items { w with reqT := {} } c
    exact ⟨⟨calm_respondOrMark (calm_frame h (by rfl) (by rfl)) _, by simpa using okSt_append (l := []) hi rfl⟩, by simpa using any_above (l := []) hi⟩
  · split at hs <;> simp at hs
    subst hs
    have hi := respondOrMark_items { w with respT := {} } c
    exact ⟨⟨calm_respondOrMark (calm_frame h (by rfl) (by rfl)) _, by simpa using okSt_append (l := []) hi rfl⟩, by simpa using any_above (l := []) hi⟩
  · split at hs <;> simp at hs
    subst hs; exact ⟨⟨calm_ev (calm_frame h (by rfl) (by rfl)) _ (by rfl), rfl⟩, rfl⟩
  · exact absurd (by assumption) ha.1
  · exact absurd (by assumption) (ha.2 _ _)
  · simp at hs

theorem noUser_onUrl {w : World} {u : Url} {eof : Bool} {c : Choice} {rest : List Item} (hr : rest.any isUser = false) :
    (HttpLife.onUrl w u eof c rest).stack.any isUser = false := by
  cases u with
  | noLocation =>
    have := any_above (l := .exec eof :: rest) (writeResponse_items { w with phase := .header, fieldCb := false } .plain false c)
    simp only [HttpLife.onUrl]
    rw [this]
    simpa [isUser] using hr
  | _ => simpa [HttpLife.onUrl, isUser] using hr

theorem noUser_noCall {w : World} {cb : Cb} {i a rest : List Item} (ha : (a ++ rest).any isUser = false) :
    (HttpLife.callHandler w cb i a false rest).stack.any isUser = false := by
  unfold HttpLife.callHandler
  split
  · exact ha
  · split
    · rfl
    · exact ha

theorem noUser_onHeaders {w : World} {ka up body eof : Bool} {c : Choice} {rest : List Item} (hr : rest.any isUser = false) :
    (HttpLife.onHeaders w ka up body false eof c rest).stack.any isUser = false := by
  unfold HttpLife.onHeaders
  simp only
  generalize (if (!ka && w.fired) = true then HttpLife.mark { w with phase := .body, upgrade := up, keepAlive := ka } c.linger
      else { w with phase := .body, upgrade := up, keepAlive := ka }) = w'
  split
  · exact noUser_noCall (a := [.headersEnd body, .exec eof]) (by simpa [isUser] using hr)
  · simpa [isUser] using hr

/-- A step of the parser: it may call `dummy_on_message_complete`. -/
theorem exec_cinv {w : World} (h : Calm w) (hsock : w.sock ≠ .freed) {eof : Bool} {c : Choice} {rest : List Item} {s' : State}
    (hr : okSt (.exec eof :: rest) = true) (hs : HttpLife.execStep w eof c rest = some s')
    (ha : ∀ b, c.act ≠ .onField true ∧ c.act ≠ .onBody true ∧ ∀ x y z, c.act ≠ .onHeaders x y z true ∧ (c.act = .onMessage b → b = true)) :
    (Good s' ∧ s'.stack.any isUser = false) ∨ Waiting s' := by
  have hr' : rest.any isUser = false ∧ okSt rest = true := by simpa [okSt] using hr
  unfold HttpLife.execStep at hs
  split at hs
  · simp at hs; subst hs; exact .inl ⟨⟨h, by simpa [okSt] using hr⟩, by simpa [isUser] using hr'.1⟩
  split at hs
  · split at hs <;> simp at hs
    subst hs; exact .inl ⟨good_onUrl h _ _ _ hr, noUser_onUrl hr'.1⟩
  · next call hact =>
    have hc : call = false := by
      cases call with
      | false => rfl
      | true => exact absurd hact (ha true).1
    subst hc
    split at hs
    · split at hs
      · split at hs
        · simp at hs; subst hs; exact .inl ⟨⟨calm_frame h (by rfl) (by rfl), rfl⟩, rfl⟩
        · simp at hs; subst hs
          exact .inl ⟨good_noCall h _ _ [.exec eof] (by simpa using hr), noUser_noCall (a := [.exec eof]) (by simpa [isUser] using hr'.1)⟩
      · simp at hs; subst hs; exact .inl ⟨⟨h, hr⟩, by simpa [isUser] using hr'.1⟩
    · simp at hs
  · next x y z call hact =>
    have hc : call = false := by
      cases call with
      | false => rfl
      | true => exact absurd hact ((ha true).2.2 _ _ _).1
    subst hc
    split at hs <;> simp at hs
    subst hs; exact .inl ⟨good_onHeaders h _ _ _ _ _ hr, noUser_onHeaders hr'.1⟩
  · next call hact =>
    have hc : call = false := by
      cases call with
      | false => rfl
      | true => exact absurd hact (ha true).2.1
    subst hc
    split at hs <;> simp at hs
    subst hs
    exact .inl ⟨good_noCall h _ _ [.exec eof] (by simpa using hr), noUser_noCall (a := [.exec eof]) (by simpa [isUser] using hr'.1)⟩
  · split at hs <;> simp at hs
    subst hs
    unfold HttpLife.onMessage
    simp only
    split
    · exact call_message (w := { w with phase := .done, skip := false }) (calm_frame h (by rfl) (by rfl)) hsock _ hr _
    · split
      · exact call_message (w := { w with phase := .done, skip := false, reqT := (w.reqT.cancel c.cancel).1, finish := .restart })
          (calm_frame h (by rfl) (by rfl)) hsock _ hr _
      · exact .inl ⟨⟨calm_frame h (by rfl) (by rfl), hr⟩, by simpa [isUser] using hr'.1⟩
  · split at hs <;> simp at hs
    subst hs; exact .inl ⟨⟨h, by simpa [okSt] using hr⟩, by simpa [isUser] using hr'.1⟩
  · split at hs <;> simp at hs
    subst hs; exact .inl ⟨⟨calm_frame h (by rfl) (by rfl), by simpa [okSt] using hr⟩, by simpa [isUser] using hr'.1⟩
  · simp at hs

theorem good_tail {w : World} (h : Calm w) (eof bad : Bool) (c : Choice) {rest : List Item} (hr : okSt rest = true) (hu : rest.any isUser = false) :
    Good (HttpLife.tailStep w eof bad c rest) ∧ (HttpLife.tailStep w eof bad c rest).stack.any isUser = false := by
  have h0 : Calm { w with parsing := w.parsing - 1 } := calm_frame h (by rfl) (by rfl)
  unfold HttpLife.tailStep
  simp only
  split
  · exact ⟨⟨calm_closeClient h0 _, hr⟩, hu⟩
  · split
    · have hi := respondOrClose_items { w with parsing := w.parsing - 1 } c
      exact ⟨⟨calm_respondOrClose h0 c, okSt_append hi hr⟩, by rw [any_above hi]; exact hu⟩
    · split
      · exact ⟨⟨calm_closeClient h0 _, hr⟩, hu⟩
      · split
        · exact ⟨⟨h0, hr⟩, hu⟩
        · split <;> exact ⟨⟨calm_frame h (by rfl) (by rfl), hr⟩, hu⟩

theorem isAbove_noUser {i : Item} (h : isAbove i = true) : isUser i = false := by cases i <;> simp_all [isAbove, isUser]

theorem calm_restart {w : World} (h : Calm w) (c : Choice) (rest : List Item) (hr : okSt rest = true) :
    Good (HttpLife.restartStep w c rest) ∧ (HttpLife.restartStep w c rest).stack.any isUser = rest.any isUser := by
  unfold HttpLife.restartStep
  split
  · have h1 : Calm { HttpLife.freeHandler w with reqT := (HttpLife.freeHandler w).reqT.arm c.arm } := calm_frame (calm_freeHandler h) (by rfl) (by rfl)
    simp only
    split
    · exact ⟨⟨calm_ev (calm_frame h1 (by rfl) (by rfl)) .restarted rfl, hr⟩, rfl⟩
    · exact ⟨⟨h1, by simpa [okSt] using hr⟩, by simp [isUser]⟩
  · exact ⟨⟨h, hr⟩, rfl⟩

theorem respond_items_ok {w : World} (c : Choice) {i : Item} {rest : List Item} (ht : okSt (i :: rest) = true) :
    okSt ((HttpLife.writeResponse w .plain false c).2.1 ++ i :: rest) = true := okSt_append (writeResponse_items _ _ _ _) ht

/-- A step of the library that is neither the parser nor user code. -/
theorem item_good {w : World} (h : Calm w) {i : Item} {rest : List Item} {c : Choice} {s' : State} (hi : isAbove i = true)
    (hr : okSt rest = true) (hnf : w.sock ≠ .freed) (hub : w.ub = false) (ha : c.act = .go ∨ c.act = .urlDone)
    (hs : HttpLife.step ⟨w, i :: rest⟩ c = some s') : Good s' ∧ s'.stack.any isUser = rest.any isUser := by
  unfold HttpLife.step at hs
  simp only [hub, hnf, Bool.false_eq_true, if_false] at hs
  cases i with
  | user => cases hi
  | userWritten => cases hi
  | exec => cases hi
  | tail => cases hi
  | bsRet => cases hi
  | urlNext =>
    rcases ha with ha | ha <;> simp only [ha] at hs
    · cases hs
    · cases hs; exact ⟨⟨h, hr⟩, rfl⟩
  | headersEnd body =>
    simp only [Option.some.injEq] at hs
    subst hs
    unfold HttpLife.headersEndStep
    simp only
    split
    · exact ⟨⟨calm_frame h (by rfl) (by rfl), hr⟩, rfl⟩
    · exact ⟨⟨calm_frame h (by rfl) (by rfl), by simpa [okSt] using hr⟩, by simp [isUser]⟩
  | messageEnd r =>
    have hm : r = .success := by simpa [isAbove] using hi
    subst hm
    simp only at hs
    split at hs
    · simp only [Option.some.injEq] at hs
      subst hs
      exact ⟨⟨h, by simpa [okSt] using hr⟩, by simp [isUser]⟩
    · simp only [Option.some.injEq] at hs
      subst hs
      exact ⟨⟨calm_frame h (by rfl) (by rfl), hr⟩, rfl⟩
  | serverError =>
    simp only [Option.some.injEq] at hs
    subst hs
    have hi := respondOrMark_items (w.ev .onError) c
    exact ⟨⟨calm_respondOrMark (calm_ev h .onError rfl) c, okSt_append hi hr⟩, any_above hi⟩
  | written ok =>
    simp only [Option.some.injEq] at hs
    subst hs
    unfold HttpLife.writtenStep
    simp only [h.rc, Bool.false_eq_true, if_false]
    exact ⟨⟨calm_frame h (by rfl) (by rw [h.rc]), by simpa [okSt] using hr⟩, by simp [isUser]⟩
  | writtenEnd b ok =>
    simp only [Option.some.injEq] at hs
    subst hs
    unfold HttpLife.writtenEndStep
    split
    · exact ⟨⟨h, by simpa [okSt] using hr⟩, by simp [isUser]⟩
    · split
      · exact ⟨⟨calm_mark h _, hr⟩, rfl⟩
      · exact ⟨⟨h, by simpa [okSt] using hr⟩, by simp [isUser]⟩
  | restart =>
    simp only [Option.some.injEq] at hs
    subst hs
    exact calm_restart h c rest hr

theorem okSt_split {i : Item} {rest : List Item} (h : okSt (i :: rest) = true) :
    okSt rest = true ∧ (isAbove i = true ∨ (rest.any isUser = false ∧
      ((∃ e, i = .exec e) ∨ (∃ e b, i = .tail e b) ∨ i = .bsRet ∨ ∃ l b, i = .user .message l b))) := by
  cases i <;> simp_all [okSt, isAbove]

theorem connStep_some {k k' : Conn} {c : Choice} (h : connStep k c = some k') :
    allowed k c = true ∧ ∃ st, HttpLife.step k.st c = some st ∧ k' = { st := st, pc := nextPc k c, eof := k.eof || c.act == .readEof } := by
  unfold connStep at h
  split at h
  · next ha =>
    refine ⟨ha, ?_⟩
    cases hs : HttpLife.step k.st c with
    | none => rw [hs] at h; cases h
    | some st => rw [hs] at h; simp only [Option.map_some, Option.some.injEq] at h; exact ⟨st, rfl, h.symm⟩
  · cases h

theorem nextPc_above {w : World} {i : Item} {rest : List Item} {pc : Pc} {eof : Bool} {c : Choice} (hk : isAbove i = true) :
    nextPc ⟨⟨w, i :: rest⟩, pc, eof⟩ c = pc := by
  cases i <;> first | rfl | cases hk

theorem cinv_ub {k : Conn} {s' : State} {pc : Pc} {e : Bool} (h : CInv k)
    (hs : s' = ⟨{ k.st.w with ub := true }, []⟩) (hw : k.st.w.sock = .freed) : CInv { st := s', pc := pc, eof := e } := by
  subst hs
  cases h with
  | good h _ => exact .good ⟨calm_frame h.calm (by rfl) (by rfl), rfl⟩ (fun h => by cases h)
  | waiting h _ => exact absurd hw h.sock

theorem cinv_step {k k' : Conn} (h : CInv k) (hl : HttpLife.LogInv k.st.w) {c : Choice} (hs : connStep k c = some k') : CInv k' := by
  obtain ⟨ha, st, hst, rfl⟩ := connStep_some hs
  obtain ⟨⟨w, stack⟩, pc, eof⟩ := k
  have hub : w.ub = false := by
    cases hub : w.ub with
    | false => rfl
    | true => simp [HttpLife.step, hub] at hst
  simp only [allowed, Bool.and_eq_true] at ha
  have ha := ha.2
  cases stack with
  | nil =>
    have he : HttpLife.eventStep w c = some st := by simpa [HttpLife.step, hub] using hst
    cases h with
    | waiting h _ => obtain ⟨_, _, _, h⟩ := h.top; cases h
    | good h _ =>
      have := event_good h.calm he (by constructor <;> intros <;> intro hact <;> simp [hact] at ha)
      exact .good this.1 (fun hu => by simp only at hu; rw [this.2] at hu; cases hu)
  | cons i rest =>
    by_cases hf : w.sock = .freed
    · refine cinv_ub h ?_ hf
      have : HttpLife.step ⟨w, i :: rest⟩ c = some ⟨{ w with ub := true }, []⟩ := by
        unfold HttpLife.step
        simp only [hub, Bool.false_eq_true, if_false]
        rw [if_pos hf]
      rw [this] at hst
      exact (Option.some.inj hst).symm
    · cases h with
      | waiting h hp =>
        obtain ⟨a, b, r, htop⟩ := h.top
        simp only [List.cons.injEq] at htop hp
        obtain ⟨rfl, rfl⟩ := htop
        subst hp
        have hact : c.act = .respond .plain false := by simpa using ha
        have hw : w.written = false := by
          cases hw : w.written with
          | false => rfl
          | true => have := hl.wf hw; rw [h.fired] at this; cases this
        have hst' : st = ⟨(HttpLife.writeResponse w .plain false c).1, (HttpLife.writeResponse w .plain false c).2.1 ++ .user .message a b :: rest⟩ := by
          simp only [HttpLife.step, hub, hf, Bool.false_eq_true, if_false, HttpLife.userStep, hact, Option.some.injEq] at hst
          exact hst.symm
        subst hst'
        refine .good ⟨calm_respond h hw c, respond_items_ok c h.st⟩ (fun _ => ?_)
        simp only [nextPc]
        split <;> simp
      | good h hp =>
        obtain ⟨hrest, hk | ⟨hno, ⟨e, rfl⟩ | ⟨e, b, rfl⟩ | rfl | ⟨l, b, rfl⟩⟩⟩ := okSt_split h.st
        · have hgo : c.act = .go ∨ c.act = .urlDone := by
            cases i <;> simp_all [isAbove]
          have := item_good h.calm hk hrest hf hub hgo hst
          refine .good this.1 (fun hu => ?_)
          simp only at hu hp
          rw [this.2] at hu
          have hpc : nextPc ⟨⟨w, i :: rest⟩, pc, eof⟩ c = pc := nextPc_above hk
          rw [hpc]
          exact hp (by simp [hu])
        · have he : HttpLife.execStep w e c rest = some st := by simpa [HttpLife.step, hub, hf] using hst
          have := exec_cinv h.calm hf h.st he (by
            intro b
            refine ⟨?_, ?_, fun x y z => ⟨?_, ?_⟩⟩ <;> intro hact <;> simp [hact] at ha
            exact ha)
          rcases this with ⟨h1, h2⟩ | h1
          · exact .good h1 (fun hu => by simp only at hu; rw [h2] at hu; cases hu)
          · exact .waiting h1 rfl
        · have he : st = HttpLife.tailStep w e b c rest := by
            simp only [HttpLife.step, hub, hf, Bool.false_eq_true, if_false, Option.some.injEq] at hst
            exact hst.symm
          subst he
          have := good_tail h.calm e b c hrest hno
          exact .good this.1 (fun hu => by simp only at hu; rw [this.2] at hu; cases hu)
        · simp only [HttpLife.step, hub, hf, Bool.false_eq_true, if_false, Option.some.injEq] at hst
          subst hst
          refine .good ⟨?_, hrest⟩ (fun hu => by simp only at hu; rw [hno] at hu; cases hu)
          simp only
          split
          · exact calm_streamClose (calm_frame h.calm (by rfl) (by rfl)) _
          · exact calm_frame h.calm (by rfl) (by rfl)
        · have hne : pc ≠ .respond := hp (by simp [isUser])
          cases pc with
          | respond => exact absurd rfl hne
          | close =>
            have hact : c.act = .close := by simpa using ha
            have hst' : st = ⟨HttpLife.mark w c.linger, .user .message l b :: rest⟩ := by
              simp only [HttpLife.step, hub, hf, Bool.false_eq_true, if_false, HttpLife.userStep, hact, Option.some.injEq] at hst
              exact hst.symm
            subst hst'
            exact .good ⟨calm_mark h.calm _, h.st⟩ (fun _ => by simp [nextPc])
          | ret =>
            have hact : c.act = .ret .success := by simpa using ha
            have hst' : st = ⟨w, .messageEnd .success :: rest⟩ := by
              simp only [HttpLife.step, hub, hf, Bool.false_eq_true, if_false, HttpLife.userStep, hact, Option.some.injEq] at hst
              exact hst.symm
            subst hst'
            exact .good ⟨h.calm, by simpa [okSt] using hrest⟩ (fun hu => by
              have h0 : (Item.messageEnd .success :: rest).any isUser = rest.any isUser := rfl
              simp only at hu
              rw [h0, hno] at hu; cases hu)

end Cio.HttpExample
