import Verif.Resources.Model
/-
What the functions do to the resources.
-/
namespace Cio.Resources

/-- Numbers in use are below `next`. -/
structure Wf (w : World) : Prop where
  opened : ∀ x : Nat, x ∈ w.opened → x < w.next
  added : ∀ x : Nat, x ∈ w.added → x < w.next
  armed : ∀ x : Nat, x ∈ w.armed → x < w.next
  clients : ∀ x : Nat, x ∈ w.clients → x < w.next

/-- Nothing changed but the answers used and the numbers given out. -/
def Same (w w' : World) : Prop := ∃ u n, w.next ≤ n ∧ w' = { w with used := u, next := n }

theorem erase_fresh (l : List Nat) (n : Nat) (h : ∀ x ∈ l, x < n) : l.erase n = l := by
  rw [List.erase_of_not_mem]
  intro hm; exact absurd (h n hm) (by omega)

theorem pureM {α} (a : α) (w : World) : (pure a : M α) w = (a, w) := rfl
theorem bindM {α β} (m : M α) (f : α → M β) (w : World) : (m >>= f) w = f (m w).1 (m w).2 := rfl

theorem Same.wf {w w' : World} (h : Same w w') (hw : Wf w) : Wf w' := by
  obtain ⟨u, n, hn, rfl⟩ := h
  obtain ⟨a, b, c, d⟩ := hw
  constructor
  · intro x hx; exact Nat.lt_of_lt_of_le (a x hx) hn
  · intro x hx; exact Nat.lt_of_lt_of_le (b x hx) hn
  · intro x hx; exact Nat.lt_of_lt_of_le (c x hx) hn
  · intro x hx; exact Nat.lt_of_lt_of_le (d x hx) hn

theorem timerInit_cases (w : World) (hw : Wf w) :
    (∃ e, (timerInit w).1 = .error e ∧ Same w (timerInit w).2) ∨
    ((timerInit w).1 = .ok w.next ∧ ∃ u, (timerInit w).2 = { w with used := u, next := w.next + 1, opened := w.next :: w.opened, added := w.next :: w.added }) := by
  have e1 := erase_fresh w.opened w.next hw.opened
  have e2 := erase_fresh w.added w.next hw.added
  have e3 := erase_fresh w.armed w.next hw.armed
  unfold timerInit
  simp only [bindM, sysOpen]
  cases h1 : w.ans w.used with
  | some e => left; exact ⟨e, rfl, w.used + 1, w.next, Nat.le_refl _, rfl⟩
  | none =>
    simp only [bindM, loopAdd]
    cases h2 : w.ans (w.used + 1) with
    | some e =>
      left
      refine ⟨e, by simp [bindM, pureM, sysClose], w.used + 2, w.next + 1, by omega, ?_⟩
      simp [bindM, pureM, sysClose, e2, e3]
    | none =>
      simp only [bindM, sys]
      cases h3 : w.ans (w.used + 1 + 1) with
      | some e =>
        left
        refine ⟨e, by simp [bindM, pureM, sysClose, loopRemove], w.used + 3, w.next + 1, by omega, ?_⟩
        simp [bindM, pureM, sysClose, loopRemove, e2, e3]
      | none => right; exact ⟨rfl, w.used + 3, rfl⟩

theorem eventloopInit_cases (w : World) (hw : Wf w) :
    (∃ e, (eventloopInit w).1 = .error e ∧ Same w (eventloopInit w).2) ∨
    ((eventloopInit w).1 = .ok (w.next, w.next + 1) ∧ ∃ u, (eventloopInit w).2 =
      { w with used := u, next := w.next + 2, opened := (w.next + 1) :: w.next :: w.opened, added := (w.next + 1) :: w.added }) := by
  have e1 := erase_fresh w.opened w.next hw.opened
  have e2 := erase_fresh w.added w.next hw.added
  have e3 := erase_fresh w.armed w.next hw.armed
  have e4 := erase_fresh w.added (w.next + 1) (fun x hx => Nat.lt_succ_of_lt (hw.added x hx))
  have e5 := erase_fresh w.armed (w.next + 1) (fun x hx => Nat.lt_succ_of_lt (hw.armed x hx))
  unfold eventloopInit
  simp only [bindM, sysOpen]
  cases h1 : w.ans w.used with
  | some e => left; exact ⟨e, rfl, w.used + 1, w.next, Nat.le_refl _, rfl⟩
  | none =>
    simp only [bindM, sysOpen]
    cases h2 : w.ans (w.used + 1) with
    | some e =>
      left
      refine ⟨e, by simp [bindM, pureM, sysClose], w.used + 2, w.next + 1, by omega, ?_⟩
      simp [bindM, pureM, sysClose, e2, e3]
    | none =>
      simp only [bindM, loopAdd]
      cases h3 : w.ans (w.used + 1 + 1) with
      | some e =>
        left
        refine ⟨e, by simp [bindM, pureM, sysClose], w.used + 3, w.next + 2, by omega, ?_⟩
        simp [bindM, pureM, sysClose, e2, e3, e4, e5]
      | none =>
        simp only [bindM, sys]
        cases h4 : w.ans (w.used + 1 + 1 + 1) with
        | some e =>
          left
          refine ⟨e, by simp [bindM, pureM, sysClose, loopRemove], w.used + 4, w.next + 2, by omega, ?_⟩
          simp [bindM, pureM, sysClose, loopRemove, e2, e3, e4, e5]
        | none => right; exact ⟨rfl, w.used + 4, rfl⟩

theorem socketCreate_cases (f : Family) (w : World) (hw : Wf w) :
    (∃ e, (socketCreate f w).1 = .error e ∧ Same w (socketCreate f w).2) ∨
    ((socketCreate f w).1 = .ok w.next ∧ ∃ u, (socketCreate f w).2 = { w with used := u, next := w.next + 1, opened := w.next :: w.opened }) := by
  have e1 := erase_fresh w.opened w.next hw.opened
  have e2 := erase_fresh w.added w.next hw.added
  have e3 := erase_fresh w.armed w.next hw.armed
  cases f
  case unspec => left; exact ⟨-22, rfl, w.used, w.next, Nat.le_refl _, rfl⟩
  case inet6 =>
    unfold socketCreate
    simp only [bindM, sysOpen]
    cases h1 : w.ans w.used with
    | some e => left; exact ⟨e, rfl, w.used + 1, w.next, Nat.le_refl _, rfl⟩
    | none =>
      simp only [bindM, sys, if_true]
      cases h2 : w.ans (w.used + 1) with
      | some e =>
        left
        refine ⟨e, by simp [bindM, pureM, sysClose], w.used + 2, w.next + 1, by omega, ?_⟩
        simp [bindM, pureM, sysClose, e2, e3]
      | none => right; exact ⟨rfl, w.used + 2, rfl⟩
  all_goals
    unfold socketCreate
    simp only [bindM, sysOpen]
    cases h1 : w.ans w.used with
    | some e => left; exact ⟨e, rfl, w.used + 1, w.next, Nat.le_refl _, rfl⟩
    | none => right; exact ⟨rfl, w.used + 1, rfl⟩

theorem linuxSocketInit_cases (fd : Fd) (w : World) (hw : Wf w) :
    (∃ e, (linuxSocketInit fd w).1 = .error e ∧ Same w (linuxSocketInit fd w).2) ∨
    ((linuxSocketInit fd w).1 = .ok w.next ∧ ∃ u, (linuxSocketInit fd w).2 =
      { w with used := u, next := w.next + 1, opened := w.next :: w.opened, added := fd :: w.next :: w.added }) := by
  have e2 := erase_fresh w.added w.next hw.added
  have e3 := erase_fresh w.armed w.next hw.armed
  unfold linuxSocketInit
  simp only [bindM]
  rcases timerInit_cases w hw with ⟨e, h, hs⟩ | ⟨h, u, hs⟩
  · left; rw [h]; exact ⟨e, rfl, hs⟩
  · rw [h, hs]
    simp only [bindM, loopAdd]
    cases h2 : w.ans u with
    | some e =>
      left
      refine ⟨e, by simp [bindM, pureM, sysClose, timerClose, loopRemove], u + 1, w.next + 1, by omega, ?_⟩
      simp [bindM, pureM, sysClose, timerClose, loopRemove, e2, e3]
    | none => right; exact ⟨rfl, u + 1, rfl⟩

theorem socketInit_cases (f : Family) (w : World) (hw : Wf w) :
    (∃ e, (socketInit f w).1 = .error e ∧ Same w (socketInit f w).2) ∨
    ((socketInit f w).1 = .ok (w.next, w.next + 1) ∧ ∃ u, (socketInit f w).2 =
      { w with used := u, next := w.next + 2, opened := (w.next + 1) :: w.next :: w.opened, added := w.next :: (w.next + 1) :: w.added }) := by
  have e2 := erase_fresh w.added w.next hw.added
  have e3 := erase_fresh w.armed w.next hw.armed
  unfold socketInit
  simp only [bindM]
  rcases socketCreate_cases f w hw with ⟨e, h, hs⟩ | ⟨h, u, hs⟩
  · left; rw [h]; exact ⟨e, rfl, hs⟩
  · rw [h]
    simp only [bindM]
    have hw2 : Wf (socketCreate f w).2 := by
      rw [hs]
      obtain ⟨a, b, c, d⟩ := hw
      constructor <;> intro x hx <;> simp at hx ⊢
      · rcases hx with rfl | hx
        · omega
        · have := a x hx; omega
      · have := b x hx; omega
      · have := c x hx; omega
      · have := d x hx; omega
    generalize (socketCreate f w).2 = v at *
    subst hs
    rcases linuxSocketInit_cases w.next _ hw2 with ⟨e, h2, u2, n2, hn, hs2⟩ | ⟨h2, u2, hs2⟩
    · left; rw [h2]
      refine ⟨e, by simp [bindM, pureM], u2, n2, ?_, ?_⟩
      · simp at hn; omega
      · simp only [bindM, pureM, hs2]
        simp [sysClose, e2, e3]
    · right; rw [h2]
      exact ⟨rfl, u2, hs2⟩

/-- What a handler does when it is told of an error: it counts. -/
def Quiet (h : Handler) (A : Err → List (Option Err × Option Nat) → List (Option Err × Option Nat)) (k j : Nat) : Prop :=
  ∀ e w, h (some e) none w = ((), { w with accepted := A e w.accepted, errors := w.errors + k, nullFreed := w.nullFreed + j })

/-- The state in which the handler gets a new client. -/
def handedOver (w : World) (u : Nat) : World :=
  { w with used := u, next := w.next + 3, opened := (w.next + 2) :: w.next :: w.opened, added := w.next :: (w.next + 2) :: w.added, clients := (w.next + 1) :: w.clients, sockOf := fun x => if x = w.next + 1 then some (w.next, w.next + 2) else w.sockOf x }

theorem accept_cases (ee : Option Err) (h : Handler) (A k j) (hq : Quiet h A k j) (w : World) (hw : Wf w) (hsv : w.server = true) :
    (ee = none ∧ (w.ans w.used = some eAgain ∨ w.ans w.used = some eBadF) ∧ (acceptCallback ee h w).2 = { w with used := w.used + 1 }) ∨
    ((∀ e, w.ans w.used = some e → ee = none → e ≠ eAgain ∧ e ≠ eBadF) ∧ ∃ e u n, w.next ≤ n ∧ (∀ e', ee = some e' → e = e') ∧
      (ee = none → ∀ e', w.ans w.used = some e' → e = e') ∧ (acceptCallback ee h w).2 =
      { w with used := u, next := n, accepted := A e w.accepted, errors := w.errors + k, nullFreed := w.nullFreed + j }) ∨
    (ee = none ∧ w.ans w.used = none ∧ ∃ u, (acceptCallback ee h w).2 = (h none (some (w.next + 1)) (handedOver w u)).2) := by
  have o1 := erase_fresh w.opened w.next hw.opened
  have a1 := erase_fresh w.added w.next hw.added
  have r1 := erase_fresh w.armed w.next hw.armed
  cases ee with
  | some e =>
    right; left
    refine ⟨by simp, e, w.used, w.next, Nat.le_refl _, by simp, by simp, ?_⟩
    simp [acceptCallback, hq e w]
  | none =>
    unfold acceptCallback
    simp only [bindM, sysOpen]
    cases h1 : w.ans w.used with
    | some e =>
      by_cases he : e ≠ eAgain ∧ e ≠ eBadF
      · right; left
        refine ⟨by simpa using he, e, w.used + 1, w.next, Nat.le_refl _, by simp, by simp, ?_⟩
        simp [if_pos he, hq e]
      · left
        refine ⟨(by first | trivial | rfl), ?_, ?_⟩
        · by_cases h2 : e = eAgain
          · left; rw [h2]
          · right; by_cases h3 : e = eBadF
            · rw [h3]
            · exact absurd ⟨h2, h3⟩ he
        · simp [if_neg he, pureM]
    | none =>
      simp only [bindM, allocClient]
      cases h2 : w.ans (w.used + 1) with
      | some e =>
        right; left
        refine ⟨by simp, noMemory, w.used + 2, w.next + 1, by omega, by simp, by simp, ?_⟩
        simp [bindM, hq noMemory, sysClose, a1, r1]
      | none =>
        simp only [bindM]
        have hw2 : Wf { w with used := w.used + 1 + 1, next := w.next + 1 + 1, opened := w.next :: w.opened, clients := (w.next + 1) :: w.clients } := by
          obtain ⟨a, b, c, d⟩ := hw
          constructor <;> intro x hx <;> simp at hx ⊢
          · rcases hx with rfl | hx
            · omega
            · have := a x hx; omega
          · have := b x hx; omega
          · have := c x hx; omega
          · rcases hx with rfl | hx
            · omega
            · have := d x hx; omega
        rcases linuxSocketInit_cases w.next _ hw2 with ⟨e, h3, u, n, hn, hs⟩ | ⟨h3, u, hs⟩
        · right; left
          rw [h3, hs]
          refine ⟨by simp, e, u, n, ?_, by simp, by simp, ?_⟩
          · simp at hn; omega
          · simp [bindM, hq e, sysClose, freeClient, useServer, hsv, a1, r1]
        · right; right
          rw [h3, hs]
          refine ⟨(by first | trivial | rfl), (by first | trivial | rfl), u, ?_⟩
          simp [bindM, setSock, handedOver]

theorem quiet_remember : Quiet remember (fun e l => (some e, none) :: l) 0 0 := by
  intro e w; rfl

theorem quiet_handleAccept (size : Nat) : Quiet (handleAccept size) (fun _ l => l) 1 1 := by
  intro e w; rfl

/-- A client that is given up at once. -/
def givenUp (w : World) (u n c : Nat) : World := { w with used := u, next := n, errors := w.errors + 1, closing := c :: w.closing }

/-- A client that is served. -/
def served (w : World) (u c : Nat) : World :=
  { w with used := u, next := w.next + 2, opened := (w.next + 1) :: w.next :: w.opened, added := (w.next + 1) :: w.next :: w.added, armed := (w.next + 1) :: w.armed, reading := c :: w.reading, timersOf := fun x => if x = c then some (w.next, w.next + 1) else w.timersOf x }

theorem handleAccept_cases (size c : Nat) (w : World) (hw : Wf w) :
    (∃ u n, w.next ≤ n ∧ (handleAccept size none (some c) w).2 = givenUp w u n c) ∨
    (0 < size ∧ ∃ u, (handleAccept size none (some c) w).2 = served w u c) := by
  have o1 := erase_fresh w.opened w.next hw.opened
  have a1 := erase_fresh w.added w.next hw.added
  have r1 := erase_fresh w.armed w.next hw.armed
  have o2 := erase_fresh w.opened (w.next + 1) (fun x hx => Nat.lt_succ_of_lt (hw.opened x hx))
  have a2 := erase_fresh w.added (w.next + 1) (fun x hx => Nat.lt_succ_of_lt (hw.added x hx))
  have r2 := erase_fresh w.armed (w.next + 1) (fun x hx => Nat.lt_succ_of_lt (hw.armed x hx))
  unfold handleAccept
  by_cases hz : size = 0
  · left; refine ⟨w.used, w.next, Nat.le_refl _, ?_⟩
    simp [if_pos hz, bindM, onError, streamClose, givenUp]
  simp only [if_neg hz, bindM]
  rcases timerInit_cases w hw with ⟨e, h, u, n, hn, hs⟩ | ⟨h, u, hs⟩
  · left; rw [h, hs]
    exact ⟨u, n, hn, rfl⟩
  rw [h]
  simp only [bindM]
  have hw2 : Wf (timerInit w).2 := by
    rw [hs]
    obtain ⟨a, b, c, d⟩ := hw
    constructor <;> intro x hx <;> simp at hx ⊢
    · rcases hx with rfl | hx
      · omega
      · have := a x hx; omega
    · rcases hx with rfl | hx
      · omega
      · have := b x hx; omega
    · have := c x hx; omega
    · have := d x hx; omega
  generalize (timerInit w).2 = v at *
  subst hs
  rcases timerInit_cases _ hw2 with ⟨e, h2, u2, n2, hn, hs2⟩ | ⟨h2, u2, hs2⟩
  · left; rw [h2, hs2]
    refine ⟨u2, n2, by simp at hn; omega, ?_⟩
    simp [bindM, timerClose, loopRemove, sysClose, onError, streamClose, givenUp, r1, a1]
  rw [h2, hs2]
  simp only [bindM, timerArm]
  cases h3 : w.ans u2 with
  | some e =>
    left
    refine ⟨u2 + 1, w.next + 2, by omega, ?_⟩
    simp [bindM, timerClose, loopRemove, sysClose, onError, streamClose, givenUp, r1, a1, r2, a2]
  | none =>
    right
    refine ⟨by omega, u2 + 1, ?_⟩
    simp [bindM, setTimers, startRead, served]

end Cio.Resources
