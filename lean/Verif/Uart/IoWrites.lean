import Verif.Uart.Io
/-
The write handlers of serial ports and closed ports (C40).
-/
namespace Cio.Uart.Io

/-- How often the handler of write `t` was called. -/
def writeDones (t : Nat) (l : List Obs) : Nat := l.countP fun o => match o with | .writeDone u _ _ => u = t | _ => false

theorem writeDones_append (t : Nat) (a b : List Obs) : writeDones t (a ++ b) = writeDones t a + writeDones t b := List.countP_append

theorem writeDones_one (t u : Nat) (e : Err) (c : Nat) : writeDones u [.writeDone t e c] = if t = u then 1 else 0 := by
  unfold writeDones; by_cases h : t = u <;> simp [h]

/-- Invariant of all programs. -/
structure WInv (s : St) : Prop where
  fresh : ∀ t, s.nextWrite ≤ t → writeDones t s.log = 0
  le : ∀ t, writeDones t s.log ≤ 1
  pend : s.regOut = true → s.writer < s.nextWrite ∧ writeDones s.writer s.log = 0

theorem WInv.quiet {s s' : St} {l : List Obs} (h : WInv s) (hl : ∀ t, writeDones t l = 0) (e1 : s'.log = s.log ++ l) (e2 : s'.nextWrite = s.nextWrite)
    (e3 : s'.regOut = s.regOut) (e4 : s'.writer = s.writer) : WInv s' := by
  constructor
  · intro t ht; rw [e1, writeDones_append, hl, h.fresh t (by omega)]
  · intro t; rw [e1, writeDones_append, hl]; exact h.le t
  · rw [e3, e4, e2, e1, writeDones_append, hl]; exact h.pend

theorem WInv.write {s : St} (h : WInv s) (c : List (List UInt8)) (rs : List SendRes) (ok : Bool) : WInv (streamWrite s c rs ok) := by
  have hs : ∀ t, writeDones t [.writeStarted s.nextWrite] = 0 := fun t => by simp [writeDones]
  have hr : ∀ t e, writeDones t [.writeRefused s.nextWrite e] = 0 := fun t e => by simp [writeDones]
  unfold streamWrite
  dsimp only
  split
  · unfold call
    dsimp only
    constructor
    · intro t ht
      have ht : s.nextWrite + 1 ≤ t := ht
      show writeDones t (s.log ++ _ ++ _) = 0
      rw [writeDones_append, writeDones_append, hs, writeDones_one, h.fresh t (by omega), if_neg (by omega)]
    · intro t
      show writeDones t (s.log ++ _ ++ _) ≤ 1
      rw [writeDones_append, writeDones_append, hs, writeDones_one]
      by_cases e : s.nextWrite = t
      · rw [h.fresh t (by omega), if_pos e]; exact Nat.le_refl 1
      · rw [if_neg e]; exact h.le t
    · intro hp
      obtain ⟨h1, h2⟩ := h.pend hp
      refine ⟨Nat.lt_succ_of_lt h1, ?_⟩
      show writeDones s.writer (s.log ++ _ ++ _) = 0
      rw [writeDones_append, writeDones_append, hs, writeDones_one, h2, if_neg (by omega)]
  · have key : ∀ l, (∀ t, writeDones t l = 0) → WInv { s with nextWrite := s.nextWrite + 1, outgoing := s.outgoing ++ (writeLoop c rs 0 []).2.1, writer := s.nextWrite, regOut := true, log := s.log ++ l } := by
      intro l hl
      constructor
      · intro t ht
        have ht : s.nextWrite + 1 ≤ t := ht
        show writeDones t (s.log ++ l) = 0
        rw [writeDones_append, hl, h.fresh t (by omega)]
      · intro t
        show writeDones t (s.log ++ l) ≤ 1
        rw [writeDones_append, hl]; exact h.le t
      · intro _
        refine ⟨Nat.lt_succ_self _, ?_⟩
        show writeDones s.nextWrite (s.log ++ l) = 0
        rw [writeDones_append, hl, h.fresh _ (Nat.le_refl _)]
    split
    · exact key _ hs
    · exact key _ (fun t => hr t _)
  · constructor
    · intro t ht
      have ht : s.nextWrite + 1 ≤ t := ht
      show writeDones t (s.log ++ _) = 0
      rw [writeDones_append, hr, h.fresh t (by omega)]
    · intro t
      show writeDones t (s.log ++ _) ≤ 1
      rw [writeDones_append, hr]; exact h.le t
    · intro hp
      obtain ⟨h1, h2⟩ := h.pend hp
      refine ⟨Nat.lt_succ_of_lt h1, ?_⟩
      show writeDones s.writer (s.log ++ _) = 0
      rw [writeDones_append, hr, h2]
  · exact ⟨fun t ht => h.fresh t (Nat.le_of_succ_le ht), h.le, fun hp => ⟨Nat.lt_succ_of_lt (h.pend hp).1, (h.pend hp).2⟩⟩

theorem WInv.step {s s' : St} {m : Move} (h : WInv s) (hs : step s m = some s') : WInv s' := by
  unfold Io.step at hs
  split at hs
  · cases hs
  · split at hs
    · injection hs with hs; subst hs
      exact h.quiet (l := [.arrived _]) (fun t => (by simp [writeDones])) rfl rfl rfl rfl
    · injection hs with hs; subst hs; exact h.quiet (l := []) (fun t => rfl) (by simp) rfl rfl rfl
    · injection hs with hs; subst hs; exact h.quiet (l := []) (fun t => rfl) (by simp) rfl rfl rfl
    · split at hs
      · injection hs with hs; subst hs
        exact h.quiet (l := [.readStarted _]) (fun t => (by simp [writeDones])) rfl rfl rfl rfl
      · cases hs
    · split at hs
      · injection hs with hs; subst hs; exact h.write _ _ _
      · cases hs
    · split at hs
      · injection hs with hs; subst hs
        exact h.quiet (l := [.closed, .hook]) (fun t => (by simp [writeDones])) rfl rfl rfl rfl
      · cases hs
    · split at hs
      · cases hs
      · injection hs with hs; subst hs; exact h.quiet (l := []) (fun t => rfl) (by simp) rfl rfl rfl
    · split at hs
      · injection hs with hs; subst hs; exact h.quiet (l := []) (fun t => rfl) (by simp) rfl rfl rfl
      · injection hs with hs; subst hs; exact h.quiet (l := []) (fun t => rfl) (by simp) rfl rfl rfl
    · split at hs
      · split at hs
        · injection hs with hs; subst hs
          unfold readCallback
          split
          · exact h
          · exact h.quiet (l := [.readDone _ _ _]) (fun t => (by simp [writeDones])) rfl rfl rfl rfl
          · dsimp only
            split
            · exact h.quiet (l := [.readDone _ _ _]) (fun t => (by simp [writeDones])) rfl rfl rfl rfl
            · exact h.quiet (l := [.readDone _ _ _]) (fun t => (by simp [writeDones])) rfl rfl rfl rfl
        · injection hs with hs; subst hs; exact h.quiet (l := []) (fun t => rfl) (by simp) rfl rfl rfl
      · cases hs
    · split at hs
      · rename_i hc
        injection hs with hs; subst hs
        have hp := h.pend (Bool.and_eq_true_iff.1 hc).2
        unfold writeCallback call
        constructor
        · intro t ht
          have ht : s.nextWrite ≤ t := ht
          show writeDones t (s.log ++ _) = 0
          rw [writeDones_append, writeDones_one, h.fresh t ht, if_neg (by omega)]
        · intro t
          show writeDones t (s.log ++ _) ≤ 1
          rw [writeDones_append, writeDones_one]
          by_cases e : s.writer = t
          · subst e; rw [hp.2, if_pos rfl]; exact Nat.le_refl 1
          · rw [if_neg e]; exact h.le t
        · intro hf; cases hf
      · cases hs
    · cases hs

/-- C40: the handler of a write is called at most once, whatever the program does. -/
theorem write_once {rules : St → Move → Prop} {s : St} (h : Reach rules s) (t : Nat) : writeDones t s.log ≤ 1 := by
  have : WInv s := by
    induction h with
    | init => exact ⟨fun _ _ => rfl, fun _ => Nat.zero_le _, fun h => nomatch h⟩
    | step _ _ hs ih => exact ih.step hs
  exact this.le t

/-! ### Waiting writes -/

/-- One write at a time: all writes that were started have been answered; epoll_ctl(2) does not fail. -/
def OneWrite (s : St) : Move → Prop
  | .write _ _ ok => ok = true ∧ ∀ t, .writeStarted t ∈ s.log → writeDones t s.log = 1
  | _ => True

def WriteRules (s : St) (m : Move) : Prop := Rules s m ∧ OneWrite s m

theorem Reach.mono {r r' : St → Move → Prop} (hrr : ∀ s m, r s m → r' s m) {s : St} (h : Reach r s) : Reach r' s := by
  induction h with
  | init => exact .init
  | step _ hr hs ih => exact .step ih (hrr _ _ hr) hs

def Told (s : St) : Prop := ∀ t, .writeStarted t ∈ s.log → writeDones t s.log = 1 ∨ (s.regOut = true ∧ s.writer = t)

theorem Told.quiet {s s' : St} {l : List Obs} (h : Told s) (hl : ∀ t, writeDones t l = 0) (hl' : ∀ t, .writeStarted t ∉ l) (e1 : s'.log = s.log ++ l)
    (e3 : s'.regOut = s.regOut) (e4 : s'.writer = s.writer) : Told s' := by
  intro t ht
  rw [e1, List.mem_append] at ht
  rw [e1, writeDones_append, hl, e3, e4]
  exact h t (ht.resolve_right (hl' t))

theorem Told.step {s s' : St} {m : Move} (h : Told s) (hw : WInv s) (hr : OneWrite s m) (hs : step s m = some s') : Told s' := by
  unfold Io.step at hs
  split at hs
  · cases hs
  · split at hs
    · injection hs with hs; subst hs
      exact h.quiet (l := [.arrived _]) (fun t => (by simp [writeDones])) (fun t => (by simp)) rfl rfl rfl
    · injection hs with hs; subst hs; exact h.quiet (l := []) (fun t => rfl) (fun t => (by simp)) (by simp) rfl rfl
    · injection hs with hs; subst hs; exact h.quiet (l := []) (fun t => rfl) (fun t => (by simp)) (by simp) rfl rfl
    · split at hs
      · injection hs with hs; subst hs
        exact h.quiet (l := [.readStarted _]) (fun t => (by simp [writeDones])) (fun t => (by simp)) rfl rfl rfl
      · cases hs
    · rename_i c rs ok k hst
      split at hs
      · injection hs with hs; subst hs
        obtain ⟨hok, hall⟩ := hr
        subst hok
        unfold streamWrite
        dsimp only
        split
        · unfold call
          dsimp only
          intro t ht
          show writeDones t (s.log ++ _ ++ _) = 1 ∨ _
          have ht : Obs.writeStarted t ∈ s.log ++ [.writeStarted s.nextWrite] ++ [.writeDone s.nextWrite SUCCESS (writeLoop c rs 0 []).1] := ht
          rw [List.append_assoc, List.mem_append] at ht
          left
          have h0 : writeDones t [.writeStarted s.nextWrite] = 0 := by simp [writeDones]
          rw [writeDones_append, writeDones_append, writeDones_one, h0]
          rcases ht with ht | ht
          · have h1 := hall t ht
            have h2 : s.nextWrite ≠ t := by
              intro e; subst e; have := hw.fresh s.nextWrite (Nat.le_refl _); omega
            rw [h1, if_neg h2]
          · simp at ht
            subst ht
            rw [hw.fresh _ (Nat.le_refl _), if_pos rfl]
        · rw [if_pos rfl]
          intro t ht
          have ht : Obs.writeStarted t ∈ s.log ++ [.writeStarted s.nextWrite] := ht
          show writeDones t (s.log ++ _) = 1 ∨ (true = true ∧ s.nextWrite = t)
          rw [List.mem_append] at ht
          rcases ht with ht | ht
          · left
            have h0 : writeDones t [.writeStarted s.nextWrite] = 0 := by simp [writeDones]
            rw [writeDones_append, hall t ht, h0]
          · right
            simp at ht
            exact ⟨rfl, ht.symm⟩
        · exact h.quiet (l := [.writeRefused _ _]) (fun t => (by simp [writeDones])) (fun t => (by simp)) rfl rfl rfl
        · exact h.quiet (l := []) (fun t => rfl) (fun t => (by simp)) (by simp) rfl rfl
      · cases hs
    · split at hs
      · injection hs with hs; subst hs
        exact h.quiet (l := [.closed, .hook]) (fun t => (by simp [writeDones])) (fun t => (by simp)) rfl rfl rfl
      · cases hs
    · split at hs
      · cases hs
      · injection hs with hs; subst hs; exact h.quiet (l := []) (fun t => rfl) (fun t => (by simp)) (by simp) rfl rfl
    · split at hs
      · injection hs with hs; subst hs; exact h.quiet (l := []) (fun t => rfl) (fun t => (by simp)) (by simp) rfl rfl
      · injection hs with hs; subst hs; exact h.quiet (l := []) (fun t => rfl) (fun t => (by simp)) (by simp) rfl rfl
    · split at hs
      · split at hs
        · injection hs with hs; subst hs
          unfold readCallback
          split
          · exact h
          · exact h.quiet (l := [.readDone _ _ _]) (fun t => (by simp [writeDones])) (fun t => (by simp)) rfl rfl rfl
          · dsimp only
            split
            · exact h.quiet (l := [.readDone _ _ _]) (fun t => (by simp [writeDones])) (fun t => (by simp)) rfl rfl rfl
            · exact h.quiet (l := [.readDone _ _ _]) (fun t => (by simp [writeDones])) (fun t => (by simp)) rfl rfl rfl
        · injection hs with hs; subst hs; exact h.quiet (l := []) (fun t => rfl) (fun t => (by simp)) (by simp) rfl rfl
      · cases hs
    · rename_i e hst
      split at hs
      · rename_i hc
        injection hs with hs; subst hs
        have hp := hw.pend (Bool.and_eq_true_iff.1 hc).2
        unfold writeCallback call
        intro t ht
        have ht : Obs.writeStarted t ∈ s.log ++ [.writeDone s.writer (e.getD SUCCESS) 0] := ht
        show writeDones t (s.log ++ _) = 1 ∨ _
        rw [List.mem_append] at ht
        have ht := ht.resolve_right (by simp)
        left
        rw [writeDones_append, writeDones_one]
        rcases h t ht with h1 | ⟨_, h1⟩
        · have h2 : s.writer ≠ t := by intro e; subst e; omega
          rw [h1, if_neg h2]
        · subst h1; rw [hp.2, if_pos rfl]
      · cases hs
    · cases hs

/-- C40 (part): a program with one write at a time: whenever the event loop runs and the port is open, a write that was accepted has been answered
exactly once, or it waits, and as soon as the port is writable its handler is called, with the error if there is one.
Missing for the full property: programs that start a second write while one waits (`second_write_forgets`) or close the port (`close_forgets_write`). -/
theorem write_answered_partial {s : St} (h : Reach WriteRules s) (hst : s.stack = []) (hu : s.usable = true) (t : Nat) (ht : .writeStarted t ∈ s.log) :
    writeDones t s.log = 1 ∨ (writeDones t s.log = 0 ∧ ∀ e, ∃ s', step s (.writable e) = some s' ∧ s'.log = s.log ++ [.writeDone t (e.getD SUCCESS) 0]) := by
  have hi : Inv s := reach_inv (h.mono fun _ _ hr => hr.1)
  have hw : WInv s ∧ Told s := by
    clear hst hu ht hi
    induction h with
    | init => exact ⟨⟨fun _ _ => rfl, fun _ => Nat.zero_le _, fun h => nomatch h⟩, fun t ht => nomatch ht⟩
    | step _ hr hs ih => exact ⟨ih.1.step hs, ih.2.step ih.1 hr.2 hs⟩
  rcases hw.2 t ht with h1 | ⟨h1, h2⟩
  · exact .inl h1
  · right
    subst h2
    refine ⟨(hw.1.pend h1).2, fun e => ⟨writeCallback s e, ?_, rfl⟩⟩
    unfold Io.step
    rw [if_neg (by rw [hi.ub]; simp), hst]
    dsimp only
    rw [if_pos (by rw [(hi.shape.1 hu).1, hu, h1]; rfl)]

/-- C40: once a port is closed nothing happens to it any more: no handler is called, nothing is read and nothing is written. -/
theorem closed_silent {s s' : St} {ms : List Move} (hc : s.usable = false) (hr : run s ms = some s') :
    s'.usable = false ∧ s'.outgoing = s.outgoing ∧ (∀ t, readDones t s'.log = readDones t s.log) ∧ (∀ t, writeDones t s'.log = writeDones t s.log) ∧
      delivered s'.log = delivered s.log := by
  induction ms generalizing s with
  | nil => injection hr with hr; subst hr; exact ⟨hc, rfl, fun _ => rfl, fun _ => rfl, rfl⟩
  | cons m ms ih =>
    unfold run at hr
    cases hs : step s m with
    | none => rw [hs] at hr; cases hr
    | some s1 =>
      rw [hs] at hr
      have hr : run s1 ms = some s' := hr
      have key : s1.usable = false ∧ s1.outgoing = s.outgoing ∧ (∀ t, readDones t s1.log = readDones t s.log) ∧
          (∀ t, writeDones t s1.log = writeDones t s.log) ∧ delivered s1.log = delivered s.log := by
        clear hr ih
        unfold step at hs
        split at hs
        · cases hs
        · split at hs
          · injection hs with hs; subst hs
            exact ⟨hc, rfl, fun t => (by simp [readDones]), fun t => (by simp [writeDones]), (by simp [delivered])⟩
          all_goals first
            | (injection hs with hs; subst hs; exact ⟨hc, rfl, fun _ => rfl, fun _ => rfl, rfl⟩)
            | (rw [hc] at hs; simp at hs; done)
            | (rw [hc] at hs; simp at hs; subst hs; exact ⟨rfl, rfl, fun _ => rfl, fun _ => rfl, rfl⟩)
            | (split at hs <;> (injection hs with hs; subst hs; exact ⟨hc, rfl, fun _ => rfl, fun _ => rfl, rfl⟩))
            | (cases hs; done)
      obtain ⟨k1, k2, k3, k4, k5⟩ := ih key.1 hr
      exact ⟨k1, k2.trans key.2.1, fun t => (k3 t).trans (key.2.2.1 t), fun t => (k4 t).trans (key.2.2.2.1 t), k5.trans key.2.2.2.2⟩

/-- Non-vacuity: a write that has to wait while bytes are read. -/
example : ∃ s, run initial [.read 5, .write [[1, 2]] [.again] true, .leave, .arrive [9], .readable (.bytes 1), .read 5, .leave, .writable (some (-5)),
    .write [[1, 2]] [.sent 2] true, .leave, .close, .leave, .continue, .leave] = some s ∧ writeDones 0 s.log = 1 ∧ writeDones 1 s.log = 1 ∧
    .writeDone 0 (-5) 0 ∈ s.log ∧ .writeDone 1 SUCCESS 2 ∈ s.log ∧ s.usable = false := ⟨_, rfl, by decide, by decide, by decide, by decide, by decide⟩

/-- The steps of the example up to the waiting write follow the rules. -/
example : WriteRules initial (.write [[1, 2]] [.again] true) := ⟨trivial, rfl, fun _ h => nomatch h⟩

/-- A second write while one waits: the handler of the first one is never called. -/
theorem second_write_forgets : ∃ s, run initial [.read 5, .write [[1]] [.again] true, .write [[2]] [.again] true, .leave, .writable none] = some s ∧
    .writeStarted 0 ∈ s.log ∧ writeDones 0 s.log = 0 ∧ writeDones 1 s.log = 1 ∧ s.regOut = false := ⟨_, rfl, by decide, by decide, by decide, by decide⟩

/-- A port that is closed while a write waits: its handler is not called (and will not be, `closed_silent`). -/
theorem close_forgets_write : ∃ s, run initial [.read 5, .write [[1]] [.again] true, .close, .leave, .continue, .leave] = some s ∧
    .writeStarted 0 ∈ s.log ∧ writeDones 0 s.log = 0 ∧ s.usable = false := ⟨_, rfl, by decide, by decide, by decide⟩

end Cio.Uart.Io
