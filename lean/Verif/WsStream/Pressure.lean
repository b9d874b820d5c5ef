import Verif.WsStream.Props
/-
The websocket does not read ahead (C47): an application that asks for data itself (and does not do so from within the read handler) gets one piece of data for
every time it asks.
-/
namespace Cio.WsStream
open BufferedRead (World Job)
open WsRecv (Out)

variable (e : Env)

theorem handleClose_quiet (sc : Bool) (o : Endian.Order) (a : Nat) (data : List UInt8) : (WsRecv.handleClose sc o a data).countP pausing = 0 := by
  unfold WsRecv.handleClose
  dsimp only
  generalize hr : (Out.control 8 data :: (if sc = true then [Out.closed] else _)) = reply
  have hq : reply.countP pausing = 0 := by rw [← hr]; cases sc <;> rfl
  generalize (if data.length ≥ 2 then data.length - 2 else data.length) = length
  generalize (if data.length ≥ 2 then Endian.betoh o 2 (Endian.ofMem o (data.take 2)) else 1000) = status
  by_cases h1 : data.length = 1
  · rw [if_pos h1]; rfl
  · rw [if_neg h1]
    split
    · rfl
    · split
      · split
        · rfl
        · split
          · rfl
          · split
            · rfl
            · exact hq
      · exact hq

theorem handleFrame_one (o : Endian.Order) (rx : WsRecv.Rx) (data : List UInt8) : (WsRecv.handleFrame o rx data).2.countP pausing ≤ 1 := by
  have hb : ∀ (d : List UInt8) (l : Bool), (WsRecv.handleBinary rx d l).2.countP pausing ≤ 1 := fun d l => by simp [WsRecv.handleBinary, pausing]
  have ht : ∀ (d : List UInt8) (l : Bool), (WsRecv.handleText rx d l).2.countP pausing ≤ 1 := fun d l => by
    unfold WsRecv.handleText
    split
    · simp [pausing]
    · dsimp only
      split
      · simp [WsRecv.failed, pausing]
      · simp [pausing]
  have hp : ∀ d : List UInt8, (WsRecv.handlePing rx d).2.countP pausing ≤ 1 := fun d => by
    unfold WsRecv.handlePing
    split <;> simp [pausing]
  unfold WsRecv.handleFrame
  dsimp only
  generalize (if rx.isServer then WsRecv.unmaskAt rx.addr rx.mask data else data) = d
  repeat' split
  · exact hb _ _
  · exact ht _ _
  · exact hp _
  · simp [WsRecv.handlePong, pausing]
  · have := handleClose_quiet rx.selfClose o rx.addr d
    show (WsRecv.handleClose rx.selfClose o rx.addr d).countP pausing ≤ 1
    omega
  · simp [WsRecv.failed, pausing]

theorem step_one (o : Endian.Order) {rx rx' : WsRecv.Rx} {buf rest : List UInt8} {outs : List Out} (h : WsRecv.step o rx buf = some (rx', rest, outs)) :
    outs.countP pausing ≤ 1 := by
  have hr : ∀ rx, (WsRecv.readPayload o rx).2.countP pausing ≤ 1 := fun rx => by
    unfold WsRecv.readPayload
    split
    · simp
    · exact handleFrame_one o rx []
  have hm : ∀ rx, (WsRecv.getMaskOrPayload o rx).2.countP pausing ≤ 1 := fun rx => by
    unfold WsRecv.getMaskOrPayload
    split
    · simp
    · exact hr rx
  have hg : ∀ rx b, (WsRecv.getPayload o rx b).2.2.countP pausing ≤ 1 := fun rx b => by
    unfold WsRecv.getPayload
    exact handleFrame_one o _ _
  have hh : ∀ rx b, (WsRecv.getHeader rx b).2.countP pausing ≤ 1 := fun rx b => by
    unfold WsRecv.getHeader
    dsimp only
    split
    · simp [WsRecv.failed, pausing]
    · split
      · simp [WsRecv.failed, pausing]
      · simp
  have hf : ∀ rx b, (WsRecv.getFirstLength o rx b).2.countP pausing ≤ 1 := fun rx b => by
    unfold WsRecv.getFirstLength
    dsimp only
    split
    · simp [WsRecv.failed, pausing]
    · split
      · exact hm _
      · split
        · simp [WsRecv.failed, pausing]
        · split <;> simp
  unfold WsRecv.step at h
  split at h
  · split at h
    · simp only [Option.some.injEq, Prod.mk.injEq] at h
      rw [← h.2.2]; exact hh _ _
    · cases h
  · split at h
    · simp only [Option.some.injEq, Prod.mk.injEq] at h
      rw [← h.2.2]; exact hf _ _
    · cases h
  · split at h
    · cases h; exact hm _
    · cases h
  · split at h
    · cases h; exact hm _
    · cases h
  · split at h
    · cases h; exact hr _
    · cases h
  · split at h
    · split at h
      · have := hg rx buf; rw [Option.some.inj h] at this; exact this
      · cases h
    · split at h
      · have := hg rx buf; rw [Option.some.inj h] at this; exact this
      · cases h
  · cases h

theorem react_count (s : Sess) (c : BufferedRead.Call) : ∃ new, (react e.o e.base s c).outs = s.outs ++ new ∧ new.countP pausing ≤ 1 ∧
    ((react e.o e.base s c).mayPause = false → new.countP pausing = 0) := by
  unfold react
  split
  · exact ⟨_, rfl, by simp [pausing], by simp [pausing]⟩
  · split
    · exact ⟨[], by simp, by simp, by simp⟩
    · next h =>
      refine ⟨_, rfl, step_one e.o h, fun hp => ?_⟩
      rw [List.countP_eq_zero]
      intro a ha hpa
      have : List.any _ pausing = true := List.any_eq_true.mpr ⟨a, ha, hpa⟩
      rw [show List.any _ pausing = false from hp] at this
      cases this

/-- What was handed out, and one more if a read is registered. -/
def owed (w : World) : Nat := (e.sess w).outs.countP pausing + if w.job.isSome then 1 else 0

theorem call_owed (hw : ∀ w, e.waits w = true) (w : World) (j : Job) (err : Err) (num : Nat) (hj : w.job.isSome = true) :
    owed e (BufferedRead.callHandler (handler e) w j err num).1 ≤ owed e w := by
  unfold BufferedRead.callHandler
  dsimp only
  generalize hw1 : ({ w with job := none, callbackIsRunning := w.callbackIsRunning + 1, calls := w.calls ++ [⟨j, err, num, w.rb.unread, w.consumed, w.received, w.rb.fetch⟩] } : World) = w1
  have hs1 := sess_snoc e w ⟨j, err, num, w.rb.unread, w.consumed, w.received, w.rb.fetch⟩ w1 (by subst hw1; rfl)
  obtain ⟨new, hn, hn1, hn0⟩ := react_count e (e.sess w) ⟨j, err, num, w.rb.unread, w.consumed, w.received, w.rb.fetch⟩
  rw [← hs1] at hn hn0
  have hj1 : w1.job = none := by subst hw1; rfl
  have hsame : ∀ v : World, v.calls = w1.calls → e.sess v = e.sess w1 := by intro v hv; unfold Env.sess; rw [hv]
  have ho : owed e w = (e.sess w).outs.countP pausing + 1 := by unfold owed; rw [if_pos hj]
  have hcount : (e.sess w1).outs.countP pausing = (e.sess w).outs.countP pausing + new.countP pausing := by rw [hn, List.countP_append]
  -- the state after the handler
  have key : ∃ v, (handler e w1).foldl BufferedRead.act w1 = v ∧ v.calls = w1.calls ∧ (new.countP pausing = 0 ∨ v.job = none) := by
    refine ⟨_, rfl, ?_, ?_⟩
    · have hact : ∀ (as : List BufferedRead.UAct) (v : World), (as.foldl BufferedRead.act v).calls = v.calls := by
        intro as
        induction as with
        | nil => intro v; rfl
        | cons a t ih =>
          intro v
          rw [List.foldl_cons, ih]
          cases a with
          | consume n => rfl
          | close => unfold BufferedRead.act BufferedRead.close; dsimp only; split <;> rfl
          | read j => unfold BufferedRead.act BufferedRead.read BufferedRead.read.go; dsimp only; split <;> (try split) <;> rfl
      exact hact _ _
    · by_cases hp : (e.sess w1).mayPause = true
      · right
        unfold handler
        dsimp only
        rw [hp, hw w1]
        by_cases hst : (e.sess w1).rx.cont = .stopped
        · rw [if_pos hst]
          split
          · simp only [List.foldl_cons, List.foldl_nil, BufferedRead.act, BufferedRead.close]
            split <;> exact hj1
          · exact hj1
        · rw [if_neg hst, if_pos (by rfl)]
          exact hj1
      · left; exact hn0 (by simpa using hp)
  obtain ⟨v, hv, hc, hk⟩ := key
  rw [hv]
  have fin : ∀ u : World, u.calls = v.calls → u.job = v.job → owed e u ≤ owed e w := by
    intro u h1 h2
    unfold owed at ho ⊢
    rw [hsame u (h1.trans hc), hcount, h2]
    rcases hk with hk | hk
    · split <;> omega
    · rw [hk]
      simp only [Option.isSome_none, Bool.false_eq_true, if_false]
      omega
  split
  · exact fin _ rfl rfl
  · exact fin _ rfl rfl

theorem runJob_owed (hw : ∀ w, e.waits w = true) (w : World) (j : Job) (hj : w.job.isSome = true) :
    owed e (BufferedRead.runJob (handler e) w j).1 ≤ owed e w ∧
    ((BufferedRead.runJob (handler e) w j).2 = .again → (BufferedRead.runJob (handler e) w j).1 = w) := by
  have hc := call_owed e hw w j
  have hna : ∀ err num, (BufferedRead.callHandler (handler e) w j err num).2 ≠ .again := by
    intro err num
    unfold BufferedRead.callHandler
    dsimp only
    split <;> simp
  unfold BufferedRead.runJob
  split
  · exact ⟨hc _ _ hj, fun h => absurd h (hna _ _)⟩
  · split
    · dsimp only
      split
      · exact ⟨hc _ _ hj, fun h => absurd h (hna _ _)⟩
      · exact ⟨Nat.le_refl _, fun _ => rfl⟩
    · split
      · exact ⟨Nat.le_refl _, fun h => by cases h⟩
      · exact ⟨Nat.le_refl _, fun _ => rfl⟩
      · exact ⟨hc _ _ hj, fun h => absurd h (hna _ _)⟩
    · dsimp only
      split
      · exact ⟨hc _ _ hj, fun h => absurd h (hna _ _)⟩
      · exact ⟨Nat.le_refl _, fun _ => rfl⟩

theorem loop_owed (hw : ∀ w, e.waits w = true) (w : World) (rs : Err) : owed e (BufferedRead.loopIter (handler e) w rs) ≤ owed e w := by
  unfold BufferedRead.loopIter
  cases hj : w.job with
  | none => unfold owed; rw [hj]; exact Nat.le_refl _
  | some j =>
    dsimp only
    have hs : w.job.isSome = true := by rw [hj]; rfl
    obtain ⟨h1, h2⟩ := runJob_owed e hw w j hs
    generalize BufferedRead.runJob (handler e) w j = r at h1 h2
    obtain ⟨v, st⟩ := r
    cases st with
    | closed => exact h1
    | «open» => exact h1
    | again =>
      have hv : v = w := h2 rfl
      subst hv
      dsimp only
      show owed e (BufferedRead.fillBuffer (handler e) v j rs) ≤ _
      have hrs : ∀ u : World, u.calls = v.calls → u.job = v.job → owed e (BufferedRead.readSome (handler e) u j rs) ≤ owed e v := by
        intro u hu1 hu2
        have hu : owed e u = owed e v := by unfold owed Env.sess; rw [hu1, hu2]
        unfold BufferedRead.readSome
        split
        · have := call_owed e hw { u with transportErrs := u.transportErrs ++ [rs] } j rs 0 (by show u.job.isSome = true; rw [hu2]; exact hs)
          exact Nat.le_trans this (Nat.le_of_eq hu)
        · exact Nat.le_of_eq hu
      unfold BufferedRead.fillBuffer
      split
      · split
        · exact (runJob_owed e hw { v with lastError := MESSAGE_TOO_LONG } j hs).1
        · exact hrs _ rfl rfl
      · exact hrs _ rfl rfl

/-- How often the application asked for data (or the pong to a ping was written). -/
def asked (xs : List Ev) : Nat := xs.countP fun | .next => true | _ => false

theorem step_owed (hw : ∀ w, e.waits w = true) {w w' : World} {x : Ev} (h : step e w x = some w') : owed e w' ≤ owed e w + asked [x] := by
  cases x with
  | next =>
    unfold step at h
    dsimp only at h
    split at h
    · next hc =>
      unfold BufferedRead.step at h
      dsimp only at h
      split at h
      · cases h
      · cases h
        have h0 : owed e w = (e.sess w).outs.countP pausing := by unfold owed; rw [hc.1]; rfl
        have : ∀ u : World, u.calls = w.calls → owed e u ≤ (e.sess w).outs.countP pausing + 1 := by
          intro u hu
          have : e.sess u = e.sess w := by unfold Env.sess; rw [hu]
          unfold owed
          rw [this]
          split <;> omega
        rw [h0]
        apply this
        show (BufferedRead.act w _).calls = w.calls
        unfold BufferedRead.act BufferedRead.read BufferedRead.read.go
        dsimp only
        split <;> (try split) <;> rfl
    · cases h
  | close =>
    unfold step BufferedRead.step BufferedRead.act BufferedRead.close at h
    dsimp only at h
    split at h
    · cases h
    · cases h
      split <;> exact Nat.le_refl _
  | loop rs =>
    unfold step BufferedRead.step at h
    dsimp only at h
    split at h
    · cases h; exact loop_owed e hw w rs
    · cases h
  | deliver bs =>
    unfold step BufferedRead.step at h
    dsimp only at h
    split at h
    · cases h; exact Nat.le_refl _
    · cases h
  | fail err =>
    unfold step BufferedRead.step at h
    dsimp only at h
    split at h
    · cases h; exact Nat.le_refl _
    · cases h

theorem run_owed (hw : ∀ w, e.waits w = true) (xs : List Ev) {w w' : World} (h : run e w xs = some w') : owed e w' ≤ owed e w + asked xs := by
  induction xs generalizing w with
  | nil => simp only [run, Option.some.injEq] at h; subst h; exact Nat.le_refl _
  | cons x xs ih =>
    simp only [run] at h
    cases hx : step e w x with
    | none => rw [hx] at h; cases h
    | some v =>
      rw [hx] at h
      have h1 := step_owed e hw hx
      have h2 := ih h
      have : asked (x :: xs) = asked [x] + asked xs := by
        unfold asked
        rw [List.countP_cons, List.countP_cons]; simp; omega
      omega

/-- C47: whatever arrives and however much of it, an application that asks for data only when it wants some never gets more pieces of data than it asked for
(the continuation after a pong counts as asked for, too). -/
theorem no_reading_ahead (hw : ∀ w, e.waits w = true) (mem : List UInt8) (xs : List Ev) (w : World) (h : Reach e mem xs w) :
    (shown e w).countP pausing ≤ asked xs := by
  have h1 := run_owed e hw xs h
  have h0 : owed e (BufferedRead.init mem) = 0 := rfl
  unfold owed at h1 h0
  unfold shown
  omega

/-- The hypothesis is met by the application of the example: it gets three pieces and asks four times. -/
example : (∀ w, exEnv.waits w = true) ∧ asked exEvents = 4 := ⟨fun _ => rfl, rfl⟩

end Cio.WsStream
