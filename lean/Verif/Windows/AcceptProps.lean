import Verif.Windows.AcceptModel
/-
Property theorems for the server sockets of the Windows port (C56).
-/
namespace Cio.Windows.Accept

/-! ### Specification -/

/-- How often the accept handler was called for descriptor `h`. -/
def tolds (h : Nat) (l : List Obs) : Nat := l.countP fun o => match o with | .told j _ _ => j == h | _ => false

/-- Every connection that has arrived was told to the handler. -/
def AllTold (l : List Obs) : Prop := ∀ h, .arrived h ∈ l → tolds h l = 1

/-- The rules of use under which the property holds: accepting once, after binding; winsock can always make a descriptor, start the next accept,
and set the option, and no accept fails; the server socket is closed once and not used any more after that; it is closed only before binding or
when it accepts, and only when no connection waits for the event loop. -/
def Rules (s : St) : Move → Prop
  | .bind _ => .close ∉ s.log
  | .accept l p => .close ∉ s.log ∧ .bound ∈ s.log ∧ .accepting ∉ s.log ∧ l = true ∧ p = .ok
  | .close => .close ∉ s.log ∧ (.bound ∉ s.log ∨ .accepting ∈ s.log) ∧ AllTold s.log
  | .fail _ => False
  | .event w => w = .noMemory ∨ (∃ e, w = .noPort e) ∨ w = .client
  | _ => True

/-- States reached by moves that keep to `rules`. -/
inductive Reach (rules : St → Move → Prop) : St → Prop
  | init : Reach rules initial
  | step {s s' : St} {m : Move} (h : Reach rules s) (hr : rules s m) (hs : step s m = some s') : Reach rules s'

/-- What may be observed after `p`: the handler is called for a connection that has arrived and not been told yet, before `cio_server_socket_close`,
with a socket on its open descriptor, or with an error after the descriptor was closed; a descriptor is closed once, and never after it was given
away; the listening descriptor is closed and the hook is called after `cio_server_socket_close` only, and once. -/
def Fits (p : List Obs) : Obs → Prop
  | .told h e given => .close ∉ p ∧ .arrived h ∈ p ∧ tolds h p = 0 ∧ (if given then e = SUCCESS ∧ .closedH h ∉ p else e < 0 ∧ .closedH h ∈ p)
  | .closedH h => .opened h ∈ p ∧ .closedH h ∉ p ∧ ∀ e, .told h e true ∉ p
  | .closedFd => .close ∈ p ∧ .closedFd ∉ p
  | .hook => .closedFd ∈ p ∧ .hook ∉ p
  | _ => True

def Truthful (l : List Obs) : Prop := ∀ p o post, l = p ++ o :: post → Fits p o

/-! ### Invariant -/

theorem tolds_snoc (h : Nat) (l : List Obs) (o : Obs) : tolds h (l ++ [o]) = tolds h l + (match o with | .told j _ _ => if j = h then 1 else 0 | _ => 0) := by
  unfold tolds
  rw [List.countP_append, List.countP_cons, List.countP_nil]
  cases o <;> simp

theorem snoc_split {α : Type} {l p post : List α} {o x : α} (h : l ++ [o] = p ++ x :: post) : (l = p ∧ o = x) ∨ ∃ post', l = p ++ x :: post' := by
  rcases List.append_eq_append_iff.mp h with ⟨c, h1, h2⟩ | ⟨c, h1, h2⟩
  · cases c with
    | nil =>
      simp only [List.nil_append, List.append_nil, List.cons.injEq] at h1 h2
      exact .inl ⟨h1.symm, h2.1⟩
    | cons y ys => simp at h2
  · cases c with
    | nil =>
      simp only [List.nil_append, List.append_nil, List.cons.injEq] at h1 h2
      exact .inl ⟨h1, h2.1.symm⟩
    | cons y ys =>
      simp only [List.cons_append, List.cons.injEq] at h2
      obtain ⟨rfl, rfl⟩ := h2
      exact .inr ⟨ys, h1⟩

theorem Truthful.snoc {l : List Obs} (h : Truthful l) {o : Obs} (ho : Fits l o) : Truthful (l ++ [o]) := by
  intro p x post hl
  rcases snoc_split hl with ⟨rfl, rfl⟩ | ⟨q, hq⟩
  · exact ho
  · exact h p x q hq

theorem mem_snoc {l : List Obs} {o x : Obs} : x ∈ l ++ [o] ↔ x ∈ l ∨ x = o := by simp

/-- `cur`: the descriptors the server socket has in its hands. -/
structure Hist (l : List Obs) (next : Nat) (opens cur : List Nat) : Prop where
  opened : ∀ h, .opened h ∈ l ↔ h < next
  isOpen : ∀ h, h ∈ opens ↔ h < next ∧ .closedH h ∉ l
  owned : ∀ h, h < next → h ∈ cur ∨ .closedH h ∈ l ∨ .told h SUCCESS true ∈ l
  held : ∀ h ∈ cur, h < next ∧ tolds h l = 0
  once : ∀ h, tolds h l ≤ 1
  new : ∀ h, next ≤ h → tolds h l = 0 ∧ .closedH h ∉ l ∧ .arrived h ∉ l
  arrived : ∀ h, .arrived h ∈ l → h ∈ cur ∨ tolds h l = 1
  truth : Truthful l

theorem tolds_given {l : List Obs} {h : Nat} {e : Err} {b : Bool} (hm : .told h e b ∈ l) : tolds h l ≠ 0 := by
  unfold tolds
  have := List.countP_pos_iff (p := fun o => match o with | .told j _ _ => j == h | _ => false) (l := l) |>.mpr ⟨_, hm, by simp⟩
  omega

/-- Something that does not concern descriptors. -/
theorem Hist.plain {l : List Obs} {next : Nat} {opens cur : List Nat} (h : Hist l next opens cur) {o : Obs} (h1 : ∀ k, o ≠ .opened k) (h2 : ∀ k, o ≠ .closedH k)
    (h3 : ∀ k e b, o ≠ .told k e b) (h4 : ∀ k, o ≠ .arrived k) (hf : Fits l o) : Hist (l ++ [o]) next opens cur := by
  have ht : ∀ k, tolds k (l ++ [o]) = tolds k l := fun k => by
    rw [tolds_snoc]; cases o <;> simp_all
  have m1 : ∀ k, .opened k ∈ l ++ [o] ↔ .opened k ∈ l := fun k => by rw [mem_snoc]; exact ⟨fun g => g.resolve_right fun e => h1 k e.symm, .inl⟩
  have m2 : ∀ k, .closedH k ∈ l ++ [o] ↔ .closedH k ∈ l := fun k => by rw [mem_snoc]; exact ⟨fun g => g.resolve_right fun e => h2 k e.symm, .inl⟩
  have m3 : ∀ k e b, .told k e b ∈ l ++ [o] ↔ .told k e b ∈ l := fun k e b => by rw [mem_snoc]; exact ⟨fun g => g.resolve_right fun x => h3 k e b x.symm, .inl⟩
  have m4 : ∀ k, .arrived k ∈ l ++ [o] ↔ .arrived k ∈ l := fun k => by rw [mem_snoc]; exact ⟨fun g => g.resolve_right fun e => h4 k e.symm, .inl⟩
  refine ⟨fun k => by rw [m1]; exact h.opened k, fun k => by rw [m2]; exact h.isOpen k, fun k hk => by rw [m2, m3]; exact h.owned k hk,
    fun k hk => by rw [ht]; exact h.held k hk, fun k => by rw [ht]; exact h.once k, fun k hk => by rw [ht, m2, m4]; exact h.new k hk,
    fun k hk => by rw [ht]; exact h.arrived k ((m4 k).mp hk), h.truth.snoc hf⟩

/-- A new descriptor. -/
theorem Hist.open {l : List Obs} {next : Nat} {opens cur : List Nat} (h : Hist l next opens cur) : Hist (l ++ [.opened next]) (next + 1) (next :: opens) (next :: cur) := by
  have ht : ∀ k, tolds k (l ++ [.opened next]) = tolds k l := fun k => by rw [tolds_snoc]; simp
  have hn := h.new next (Nat.le_refl _)
  refine ⟨fun k => ?_, fun k => ?_, fun k hk => ?_, fun k hk => ?_, fun k => by rw [ht]; exact h.once k, fun k hk => ?_, fun k hk => ?_, h.truth.snoc trivial⟩
  · simp only [mem_snoc, h.opened, Obs.opened.injEq]; omega
  · simp only [mem_snoc, List.mem_cons, h.isOpen]
    constructor
    · rintro (rfl | ⟨g1, g2⟩)
      · exact ⟨by omega, by simp [hn.2.1]⟩
      · exact ⟨by omega, by simp [g2]⟩
    · rintro ⟨g1, g2⟩
      by_cases e : k = next
      · exact .inl e
      · exact .inr ⟨by omega, fun g => g2 (.inl g)⟩
  · by_cases e : k = next
    · exact .inl (by simp [e])
    · simp only [mem_snoc, List.mem_cons]
      rcases h.owned k (by omega) with g | g | g
      · exact .inl (.inr g)
      · exact .inr (.inl (.inl g))
      · exact .inr (.inr (.inl g))
  · rw [ht]
    rcases List.mem_cons.mp hk with rfl | hk
    · exact ⟨by omega, hn.1⟩
    · have := h.held k hk; exact ⟨by omega, this.2⟩
  · have := h.new k (by omega)
    rw [ht]
    exact ⟨this.1, by simp [mem_snoc, this.2.1], by simp [mem_snoc, this.2.2]⟩
  · have hk' : .arrived k ∈ l := (mem_snoc.mp hk).resolve_right (by simp)
    rw [ht]
    exact (h.arrived k hk').imp (List.mem_cons_of_mem _) id

/-- A connection arrives. -/
theorem Hist.arrive {l : List Obs} {next k : Nat} {opens cur : List Nat} (h : Hist l next opens cur) (hk : k ∈ cur) : Hist (l ++ [.arrived k]) next opens cur := by
  have ht : ∀ j, tolds j (l ++ [.arrived k]) = tolds j l := fun j => by rw [tolds_snoc]; simp
  refine ⟨fun j => by simp [mem_snoc, h.opened], fun j => by simp [mem_snoc, h.isOpen], fun j hj => by simpa [mem_snoc] using h.owned j hj,
    fun j hj => by rw [ht]; exact h.held j hj, fun j => by rw [ht]; exact h.once j, fun j hj => ?_, fun j hj => ?_, h.truth.snoc trivial⟩
  · have := h.new j hj
    have hlt := (h.held k hk).1
    rw [ht]
    refine ⟨this.1, by simp [mem_snoc, this.2.1], ?_⟩
    simp only [mem_snoc, Obs.arrived.injEq]
    rintro (g | g)
    · exact this.2.2 g
    · omega
  · rw [ht]
    rcases mem_snoc.mp hj with g | g
    · exact h.arrived j g
    · cases g; exact .inl hk

/-- A descriptor is closed. -/
theorem Hist.close {l : List Obs} {next k : Nat} {opens cur : List Nat} (h : Hist l next opens cur) (hk : k ∈ opens) (hg : ∀ e, .told k e true ∉ l) :
    Hist (l ++ [.closedH k]) next (opens.filter (· ≠ k)) cur := by
  have ht : ∀ j, tolds j (l ++ [.closedH k]) = tolds j l := fun j => by rw [tolds_snoc]; simp
  have ho := (h.isOpen k).mp hk
  refine ⟨fun j => by simp [mem_snoc, h.opened], fun j => ?_, fun j hj => ?_,
    fun j hj => by rw [ht]; exact h.held j hj, fun j => by rw [ht]; exact h.once j, fun j hj => ?_, fun j hj => ?_, h.truth.snoc ⟨(h.opened k).mpr ho.1, ho.2, hg⟩⟩
  · simp only [List.mem_filter, h.isOpen, mem_snoc, Obs.closedH.injEq, decide_eq_true_eq, ne_eq]
    constructor
    · rintro ⟨⟨a, b⟩, c⟩; exact ⟨a, fun g => g.elim b c⟩
    · rintro ⟨a, b⟩; exact ⟨⟨a, fun g => b (.inl g)⟩, fun g => b (.inr g)⟩
  · simp only [mem_snoc]
    rcases h.owned j hj with g | g | g
    · exact .inl g
    · exact .inr (.inl (.inl g))
    · exact .inr (.inr (.inl g))
  · have := h.new j hj
    rw [ht]
    refine ⟨this.1, ?_, by simp [mem_snoc, this.2.2]⟩
    simp only [mem_snoc, Obs.closedH.injEq]
    rintro (g | g)
    · exact this.2.1 g
    · have := ho.1; omega
  · rw [ht]; exact h.arrived j ((mem_snoc.mp hj).resolve_right (by simp))

/-- The handler is called. -/
theorem Hist.tell {l : List Obs} {next k : Nat} {opens cur : List Nat} (h : Hist l next opens cur) (hk : k ∈ cur) {e : Err} {b : Bool} (hf : Fits l (.told k e b)) :
    Hist (l ++ [.told k e b]) next opens (cur.filter (· ≠ k)) := by
  have hc := h.held k hk
  refine ⟨fun j => by simp [mem_snoc, h.opened], fun j => by simp [mem_snoc, h.isOpen], fun j hj => ?_, fun j hj => ?_, fun j => ?_, fun j hj => ?_, fun j hj => ?_, h.truth.snoc hf⟩
  · by_cases e' : j = k
    · subst e'
      right
      have := hf.2.2.2
      cases b with
      | true =>
        rw [if_pos rfl] at this
        exact .inr (mem_snoc.mpr (.inr (by rw [this.1])))
      | false =>
        rw [if_neg (by simp)] at this
        exact .inl (mem_snoc.mpr (.inl this.2))
    · simp only [mem_snoc, List.mem_filter, decide_eq_true_eq]
      rcases h.owned j hj with g | g | g
      · exact .inl ⟨g, e'⟩
      · exact .inr (.inl (.inl g))
      · exact .inr (.inr (.inl g))
  · simp only [List.mem_filter, decide_eq_true_eq] at hj
    have := h.held j hj.1
    rw [tolds_snoc]
    refine ⟨this.1, ?_⟩
    have hne : k ≠ j := fun e => hj.2 e.symm
    simp [this.2, hne]
  · rw [tolds_snoc]
    by_cases e' : k = j
    · subst e'; simp [hc.2]
    · simpa [e'] using h.once j
  · have := h.new j hj
    have hne : k ≠ j := fun e' => by have := hc.1; omega
    rw [tolds_snoc]
    exact ⟨by simp [this.1, hne], by simp [mem_snoc, this.2.1], by simp [mem_snoc, this.2.2]⟩
  · rw [tolds_snoc]
    by_cases e' : k = j
    · subst e'; right; simp [hc.2]
    · simp only [List.mem_filter, decide_eq_true_eq]
      rcases h.arrived j ((mem_snoc.mp hj).resolve_right (by simp)) with g | g
      · exact .inl ⟨g, fun x => e' x.symm⟩
      · right; simp [e', g]

/-- A closed descriptor is forgotten. -/
theorem Hist.drop {l : List Obs} {next k : Nat} {opens : List Nat} (h : Hist l next opens [k]) (hc : .closedH k ∈ l) (ha : .arrived k ∉ l) : Hist l next opens [] := by
  refine ⟨h.opened, h.isOpen, fun j hj => ?_, by simp, h.once, h.new, fun j hj => ?_, h.truth⟩
  · rcases h.owned j hj with g | g
    · rw [List.mem_singleton] at g; subst g; exact .inr (.inl hc)
    · exact .inr g
  · rcases h.arrived j hj with g | g
    · rw [List.mem_singleton] at g; subst g; exact absurd hj ha
    · exact .inr g

/-- Where the server socket stands. -/
inductive Phase (s : St) : List Nat → Prop
  | fresh (h1 : s.bound = false) (h2 : s.slot = .idle) (h3 : s.inUse = 0) (h4 : s.acc = none) (h5 : s.fd = true) (h6 : s.alive = true)
      (h7 : .close ∉ s.log) (h8 : .bound ∉ s.log) (h9 : .accepting ∉ s.log) : Phase s []
  | bound (h1 : s.bound = true) (h2 : s.slot = .idle) (h3 : s.inUse = 0) (h4 : s.acc = none) (h5 : s.fd = true) (h6 : s.alive = true)
      (h7 : .close ∉ s.log) (h8 : .bound ∈ s.log) (h9 : .accepting ∉ s.log) : Phase s []
  | waiting (k : Nat) (h1 : s.bound = true) (h2 : s.slot = .pending k) (h3 : s.inUse = 1) (h4 : s.acc = some k) (h5 : s.fd = true) (h6 : s.alive = true)
      (h7 : .close ∉ s.log) (h8 : s.handler = true) (h9 : .accepting ∈ s.log) (h10 : .arrived k ∉ s.log) (h11 : .closedH k ∉ s.log) : Phase s [k]
  | arrived (k : Nat) (h1 : s.bound = true) (h2 : s.slot = .done k .ok) (h3 : s.inUse = 1) (h4 : s.acc = some k) (h5 : s.fd = true) (h6 : s.alive = true)
      (h7 : .close ∉ s.log) (h8 : s.handler = true) (h9 : .accepting ∈ s.log) (h10 : .arrived k ∈ s.log) (h11 : .closedH k ∉ s.log) : Phase s [k]
  | closing (k : Nat) (h2 : s.slot = .done k .aborted) (h3 : s.inUse = 1) (h5 : s.fd = true) (h6 : s.alive = true) (h7 : .close ∈ s.log) : Phase s []
  | dead (h2 : s.slot = .idle) (h6 : s.alive = false) (h7 : .close ∈ s.log) : Phase s []

structure Inv (s : St) (cur : List Nat) : Prop where
  ub : s.ub = false
  hist : Hist s.log s.next s.opens cur
  phase : Phase s cur
  gone : s.alive = true → .closedFd ∉ s.log ∧ .hook ∉ s.log
  went : s.alive = false → .closedFd ∈ s.log ∧ .hook ∈ s.log

theorem gone_snoc {l : List Obs} {o : Obs} (h : Obs.closedFd ∉ l ∧ Obs.hook ∉ l) (h1 : o ≠ .closedFd) (h2 : o ≠ .hook) : Obs.closedFd ∉ l ++ [o] ∧ Obs.hook ∉ l ++ [o] := by
  simp only [mem_snoc]
  exact ⟨fun hx => hx.elim h.1 (fun hx => h1 hx.symm), fun hx => hx.elim h.2 (fun hx => h2 hx.symm)⟩

theorem Hist.freed {l : List Obs} {next : Nat} {opens cur : List Nat} (h : Hist l next opens cur) (hc : .close ∈ l) (hg : Obs.closedFd ∉ l ∧ Obs.hook ∉ l) :
    Hist (l ++ [.closedFd, .hook]) next opens cur := by
  rw [show l ++ [.closedFd, .hook] = l ++ [.closedFd] ++ [.hook] by simp]
  refine (h.plain (o := .closedFd) (by simp) (by simp) (by simp) (by simp) ⟨hc, hg.1⟩).plain (o := .hook) (by simp) (by simp) (by simp) (by simp) ⟨by simp, ?_⟩
  simp [mem_snoc, hg.2]

theorem step_inv {s s' : St} {m : Move} {cur : List Nat} (h : Inv s cur) (hr : Rules s m) (hs : step s m = some s') : ∃ cur', Inv s' cur' := by
  unfold step at hs
  rw [if_neg (by rw [h.ub]; decide)] at hs
  obtain ⟨ub, hist, phase, gone, went⟩ := h
  cases m with
  | enter =>
    dsimp only at hs; split at hs <;> cases hs
    refine ⟨cur, ub, hist, ?_, gone, went⟩
    cases phase with
    | fresh h1 h2 h3 h4 h5 h6 h7 h8 h9 => exact .fresh h1 h2 h3 h4 h5 h6 h7 h8 h9
    | bound h1 h2 h3 h4 h5 h6 h7 h8 h9 => exact .bound h1 h2 h3 h4 h5 h6 h7 h8 h9
    | waiting k h1 h2 h3 h4 h5 h6 h7 h8 h9 h10 h11 => exact .waiting k h1 h2 h3 h4 h5 h6 h7 h8 h9 h10 h11
    | arrived k h1 h2 h3 h4 h5 h6 h7 h8 h9 h10 h11 => exact .arrived k h1 h2 h3 h4 h5 h6 h7 h8 h9 h10 h11
    | closing k h2 h3 h5 h6 h7 => exact .closing k h2 h3 h5 h6 h7
    | dead h2 h6 h7 => exact .dead h2 h6 h7
  | leave =>
    dsimp only at hs; split at hs <;> cases hs
    refine ⟨cur, ub, hist, ?_, gone, went⟩
    cases phase with
    | fresh h1 h2 h3 h4 h5 h6 h7 h8 h9 => exact .fresh h1 h2 h3 h4 h5 h6 h7 h8 h9
    | bound h1 h2 h3 h4 h5 h6 h7 h8 h9 => exact .bound h1 h2 h3 h4 h5 h6 h7 h8 h9
    | waiting k h1 h2 h3 h4 h5 h6 h7 h8 h9 h10 h11 => exact .waiting k h1 h2 h3 h4 h5 h6 h7 h8 h9 h10 h11
    | arrived k h1 h2 h3 h4 h5 h6 h7 h8 h9 h10 h11 => exact .arrived k h1 h2 h3 h4 h5 h6 h7 h8 h9 h10 h11
    | closing k h2 h3 h5 h6 h7 => exact .closing k h2 h3 h5 h6 h7
    | dead h2 h6 h7 => exact .dead h2 h6 h7
  | bind ok =>
    dsimp only at hs; split at hs <;> cases hs
    rename_i ha
    have hcl : .close ∉ s.log := hr
    have g' := gone ha.2
    cases ok with
    | false =>
      show ∃ cur', Inv { s with log := s.log ++ [.refused] } cur'
      refine ⟨cur, ub, hist.plain (o := .refused) (by simp) (by simp) (by simp) (by simp) trivial, ?_, fun _ => gone_snoc g' (by simp) (by simp), fun hx => by rw [show s.alive = false from hx] at ha; simp at ha⟩
      cases phase with
      | fresh h1 h2 h3 h4 h5 h6 h7 h8 h9 => exact .fresh h1 h2 h3 h4 h5 h6 (by simp [h7]) (by simp [h8]) (by simp [h9])
      | bound h1 h2 h3 h4 h5 h6 h7 h8 h9 => exact .bound h1 h2 h3 h4 h5 h6 (by simp [h7]) (by simp [h8]) (by simp [h9])
      | waiting k h1 h2 h3 h4 h5 h6 h7 h8 h9 h10 h11 => exact .waiting k h1 h2 h3 h4 h5 h6 (by simp [h7]) h8 (by simp [h9]) (by simp [h10]) (by simp [h11])
      | arrived k h1 h2 h3 h4 h5 h6 h7 h8 h9 h10 h11 => exact .arrived k h1 h2 h3 h4 h5 h6 (by simp [h7]) h8 (by simp [h9]) (by simp [h10]) (by simp [h11])
      | closing k h2 h3 h5 h6 h7 => exact absurd h7 hcl
      | dead h2 h6 h7 => exact absurd h7 hcl
    | true =>
      show ∃ cur', Inv { s with bound := true, log := s.log ++ [.bound] } cur'
      refine ⟨cur, ub, hist.plain (o := .bound) (by simp) (by simp) (by simp) (by simp) trivial, ?_, fun _ => gone_snoc g' (by simp) (by simp), fun hx => by rw [show s.alive = false from hx] at ha; simp at ha⟩
      cases phase with
      | fresh h1 h2 h3 h4 h5 h6 h7 h8 h9 => exact .bound rfl h2 h3 h4 h5 h6 (by simp [h7]) (by simp) (by simp [h9])
      | bound h1 h2 h3 h4 h5 h6 h7 h8 h9 => exact .bound rfl h2 h3 h4 h5 h6 (by simp [h7]) (by simp) (by simp [h9])
      | waiting k h1 h2 h3 h4 h5 h6 h7 h8 h9 h10 h11 => exact .waiting k rfl h2 h3 h4 h5 h6 (by simp [h7]) h8 (by simp [h9]) (by simp [h10]) (by simp [h11])
      | arrived k h1 h2 h3 h4 h5 h6 h7 h8 h9 h10 h11 => exact .arrived k rfl h2 h3 h4 h5 h6 (by simp [h7]) h8 (by simp [h9]) (by simp [h10]) (by simp [h11])
      | closing k h2 h3 h5 h6 h7 => exact absurd h7 hcl
      | dead h2 h6 h7 => exact absurd h7 hcl
  | accept l p =>
    dsimp only at hs; split at hs <;> cases hs
    obtain ⟨hcl, hb, hac, rfl, rfl⟩ := hr
    cases phase with
    | fresh h1 h2 h3 h4 h5 h6 h7 h8 h9 => exact absurd hb h8
    | waiting k h1 h2 h3 h4 h5 h6 h7 h8 h9 h10 h11 => exact absurd h9 hac
    | arrived k h1 h2 h3 h4 h5 h6 h7 h8 h9 h10 h11 => exact absurd h9 hac
    | closing k h2 h3 h5 h6 h7 => exact absurd h7 hcl
    | dead h2 h6 h7 => exact absurd h7 hcl
    | bound h1 h2 h3 h4 h5 h6 h7 h8 h9 =>
      have e : accept s true .ok = { s with handler := true, acc := some s.next, opens := s.next :: s.opens, next := s.next + 1, slot := .pending s.next, inUse := s.inUse + 1, log := s.log ++ [.opened s.next] ++ [.accepting] } := by
        simp [accept, h1, prepare, h2]
      rw [e]
      have hn := hist.new s.next (Nat.le_refl _)
      refine ⟨[s.next], ub, hist.open.plain (o := .accepting) (by simp) (by simp) (by simp) (by simp) trivial, ?_, fun hx => gone_snoc (gone_snoc (gone hx) (by simp) (by simp)) (by simp) (by simp),
        fun hx => by rw [show s.alive = false from hx] at h6; cases h6⟩
      exact .waiting s.next h1 rfl (by show s.inUse + 1 = 1; omega) rfl h5 h6 (by simp [h7]) rfl (by simp) (by simp [hn.2.2]) (by simp [hn.2.1])
  | close =>
    dsimp only at hs; split at hs <;> cases hs
    obtain ⟨hcl, hbd, hat⟩ := hr
    have p0 := fun (hg : _) => hist.plain (o := Obs.close) hg (by simp) (by simp) (by simp) trivial
    cases phase with
    | bound h1 h2 h3 h4 h5 h6 h7 h8 h9 => exact absurd hbd (by simp [h8, h9])
    | closing k h2 h3 h5 h6 h7 => exact absurd h7 hcl
    | dead h2 h6 h7 => exact absurd h7 hcl
    | arrived k h1 h2 h3 h4 h5 h6 h7 h8 h9 h10 h11 =>
      have := hat k h10
      rw [(hist.held k (by simp)).2] at this; cases this
    | fresh h1 h2 h3 h4 h5 h6 h7 h8 h9 =>
      have e : close s = { s with slot := .idle, fd := false, alive := false, log := s.log ++ [.close] ++ [.closedFd, .hook] } := by
        simp [close, h4, h2, Slot.cancel, tryFree, h3, h5, h1]
      rw [e]
      exact ⟨[], ub, (p0 (by simp)).freed (by simp) (gone_snoc (gone h6) (by simp) (by simp)), .dead rfl rfl (by simp), by simp, by simp⟩
    | waiting k h1 h2 h3 h4 h5 h6 h7 h8 h9 h10 h11 =>
      have hk : k ∈ s.opens := (hist.isOpen k).mpr ⟨(hist.held k (by simp)).1, h11⟩
      have e : close s = { s with slot := .done k .aborted, opens := s.opens.filter (· ≠ k), log := s.log ++ [.close] ++ [.closedH k] } := by
        simp [close, h4, h2, Slot.cancel, tryFree, h3, closeHandle, hk]
      rw [e]
      refine ⟨[], ub, ?_, .closing k rfl h3 h5 h6 (by simp), fun hx => gone_snoc (gone_snoc (gone hx) (by simp) (by simp)) (by simp) (by simp), fun hx => by rw [show s.alive = false from hx] at h6; cases h6⟩
      refine Hist.drop (k := k) ((p0 (by simp)).close hk ?_) (by simp) (by simp [h10])
      intro e hx
      have := tolds_given ((mem_snoc.mp hx).resolve_right (by simp))
      exact this (hist.held k (by simp)).2
  | arrive =>
    dsimp only at hs; split at hs <;> cases hs
    rename_i k hp
    cases phase with
    | fresh h1 h2 h3 h4 h5 h6 h7 h8 h9 => rw [h2] at hp; cases hp
    | bound h1 h2 h3 h4 h5 h6 h7 h8 h9 => rw [h2] at hp; cases hp
    | arrived k h1 h2 h3 h4 h5 h6 h7 h8 h9 h10 h11 => rw [h2] at hp; cases hp
    | closing k h2 h3 h5 h6 h7 => rw [h2] at hp; cases hp
    | dead h2 h6 h7 => rw [h2] at hp; cases hp
    | waiting j h1 h2 h3 h4 h5 h6 h7 h8 h9 h10 h11 =>
      rw [h2] at hp; cases hp
      exact ⟨[k], ub, hist.arrive (by simp), .arrived k h1 rfl h3 h4 h5 h6 (by simp [h7]) h8 (by simp [h9]) (by simp) (by simp [h11]), fun hx => gone_snoc (gone hx) (by simp) (by simp),
        fun hx => by rw [show s.alive = false from hx] at h6; cases h6⟩
  | fail e => exact False.elim hr
  | event w =>
    dsimp only at hs; split at hs <;> first | contradiction | skip
    rename_i j r hp
    split at hs <;> cases hs
    rename_i hw
    cases phase with
    | fresh h1 h2 h3 h4 h5 h6 h7 h8 h9 => rw [h2] at hp; cases hp
    | bound h1 h2 h3 h4 h5 h6 h7 h8 h9 => rw [h2] at hp; cases hp
    | waiting k h1 h2 h3 h4 h5 h6 h7 h8 h9 h10 h11 => rw [h2] at hp; cases hp
    | dead h2 h6 h7 => rw [h2] at hp; cases hp
    | closing k h2 h3 h5 h6 h7 =>
      rw [h2] at hp; cases hp
      rw [if_pos h6]
      have e : event s j .aborted w = { s with slot := .idle, inUse := 0, bound := false, fd := false, alive := false, log := s.log ++ [.closedFd, .hook] } := by
        simp [event, tryFree, h3, h5]
      rw [e]
      exact ⟨[], ub, hist.freed h7 (gone h6), .dead rfl rfl (by simp [h7]), by simp, by simp⟩
    | arrived k h1 h2 h3 h4 h5 h6 h7 h8 h9 h10 h11 =>
      rw [h2] at hp; cases hp
      rw [if_pos h6]
      have hn := hist.new s.next (Nat.le_refl _)
      have hk := hist.held j (by simp)
      have hne : s.next ≠ j := by omega
      have hko : j ∈ s.next :: s.opens := List.mem_cons_of_mem _ ((hist.isOpen j).mpr ⟨hk.1, h11⟩)
      have ev : event s j .ok w = connection { s with slot := .idle, inUse := 0 } j j w := by simp [event, h4, h3]
      rw [ev]
      have hpr : prepare { s with slot := .idle, inUse := 0 } .ok = ({ s with acc := some s.next, opens := s.next :: s.opens, next := s.next + 1, slot := .pending s.next, inUse := 1, log := s.log ++ [.opened s.next] }, SUCCESS) := by
        simp [prepare]
      have hcurf : ([s.next, j].filter (· ≠ j)) = [s.next] := by simp [hne]
      have fin : ∀ {l' : List Obs} {op : List Nat}, Hist l' (s.next + 1) op [s.next, j] → ∀ {e b}, Fits l' (.told j e b) → Obs.accepting ∈ l' → Obs.arrived s.next ∉ l' → Obs.closedH s.next ∉ l' →
          (Obs.closedFd ∉ l' ∧ Obs.hook ∉ l') →
          ∃ cur', Inv { s with acc := some s.next, opens := op, next := s.next + 1, slot := .pending s.next, inUse := 1, log := l' ++ [.told j e b], user := true } cur' := by
        intro l' op hh e b hf ha1 ha2 ha3 ha4
        have hh' := hh.tell (by simp) hf
        rw [hcurf] at hh'
        refine ⟨[s.next], ub, hh', .waiting s.next h1 rfl rfl rfl h5 h6 ?_ h8 (by simp [ha1]) (by simp [ha2]) (by simp [ha3]), fun _ => gone_snoc ha4 (by simp) (by simp),
          fun hx => by rw [show s.alive = false from hx] at h6; cases h6⟩
        simpa [mem_snoc] using hf.1
      have ho : Hist (s.log ++ [.opened s.next]) (s.next + 1) (s.next :: s.opens) [s.next, j] := hist.open
      have hgo := gone_snoc (o := .opened s.next) (gone h6) (by simp) (by simp)
      have h0 : tolds j (s.log ++ [.opened s.next]) = 0 := by rw [tolds_snoc]; simp [hk.2]
      have hcl2 : Hist (s.log ++ [.opened s.next] ++ [.closedH j]) (s.next + 1) ((s.next :: s.opens).filter (· ≠ j)) [s.next, j] := by
        refine ho.close hko fun e hx => ?_
        exact tolds_given hx h0
      have h0' : tolds j (s.log ++ [.opened s.next] ++ [.closedH j]) = 0 := by rw [tolds_snoc]; simp [h0]
      have failed : ∀ e : Err, e < 0 → ∃ cur', Inv (tell (closeHandle (prepare { s with slot := .idle, inUse := 0 } .ok).1 j) j e false) cur' := by
        intro e he
        have et : tell (closeHandle (prepare { s with slot := .idle, inUse := 0 } .ok).1 j) j e false =
            { s with acc := some s.next, opens := (s.next :: s.opens).filter (· ≠ j), next := s.next + 1, slot := .pending s.next, inUse := 1, log := s.log ++ [.opened s.next] ++ [.closedH j] ++ [.told j e false], user := true } := by
          rw [hpr]
          unfold closeHandle
          rw [if_pos hko]
          unfold tell
          rw [if_pos h8]
        rw [et]
        refine fin hcl2 ⟨by simp [h7], by simp [h10], h0', ?_⟩ (by simp [h9]) (by simp [hn.2.2]) (by simp [hn.2.1, hne]) (gone_snoc hgo (by simp) (by simp))
        rw [if_neg (by simp)]; exact ⟨he, by simp⟩
      rcases hr with rfl | ⟨e, rfl⟩ | rfl
      · exact failed NO_MEMORY (by decide)
      · refine failed e ?_
        have := hw.2 rfl
        simp only [Way.possible, Bool.and_eq_true, decide_eq_true_eq] at this
        exact this.1
      · have et : connection { s with slot := .idle, inUse := 0 } j j .client =
            { s with acc := some s.next, opens := s.next :: s.opens, next := s.next + 1, slot := .pending s.next, inUse := 1, log := s.log ++ [.opened s.next] ++ [.told j SUCCESS true], user := true } := by
          unfold connection
          dsimp only
          rw [hpr]
          unfold tell
          rw [if_pos h8]
        rw [et]
        refine fin ho ⟨by simp [h7], by simp [h10], h0, ?_⟩ (by simp [h9]) (by simp [hn.2.2]) (by simp [hn.2.1]) hgo
        rw [if_pos rfl]; exact ⟨rfl, by simp [h11]⟩

theorem reach_inv {s : St} (h : Reach Rules s) : ∃ cur, Inv s cur := by
  induction h with
  | init =>
    refine ⟨[], rfl, ⟨by simp [initial], by simp [initial], by simp [initial], by simp, by simp [initial, tolds], by simp [initial, tolds], by simp [initial], ?_⟩, .fresh rfl rfl rfl rfl rfl rfl (by simp [initial]) (by simp [initial]) (by simp [initial]), by simp [initial], by simp [initial]⟩
    intro p o post hl; simp [initial] at hl
  | step _ hr hs ih =>
    obtain ⟨c, h⟩ := ih
    exact step_inv h hr hs

/-! ### Theorems -/

/-- C56 (within the rules of use): the handler is called at most once for every connection, never after `cio_server_socket_close`, and with
the truth; descriptors are closed at most once and never after they were given away; the hook is called once, after closing; nothing
undefined happens. -/
theorem told_once_partial {s : St} (h : Reach Rules s) : (∀ k, tolds k s.log ≤ 1) ∧ Truthful s.log ∧ s.ub = false := by
  obtain ⟨cur, h⟩ := reach_inv h
  exact ⟨h.hist.once, h.hist.truth, h.ub⟩

/-- C56 (within the rules of use): from `cio_server_socket_accept` to `cio_server_socket_close` the server socket accepts.  A connection waits
for the event loop, which will tell it to the handler, or one can arrive and will then be told; with a client or, if there is no memory, with an
error. -/
theorem goes_on_partial {s : St} (h : Reach Rules s) (ha : .accepting ∈ s.log) (hc : .close ∉ s.log) (hu : s.user = false) :
    ∃ k n, tolds k s.log = 0 ∧
      ((.arrived k ∈ s.log ∧ (∃ s', run s [.event .client] = some s' ∧ s'.log = s.log ++ [.opened n, .told k SUCCESS true]) ∧
        (∃ s', run s [.event .noMemory] = some s' ∧ s'.log = s.log ++ [.opened n, .closedH k, .told k NO_MEMORY false])) ∨
       (.arrived k ∉ s.log ∧ (∃ s', run s [.arrive, .event .client] = some s' ∧ s'.log = s.log ++ [.arrived k, .opened n, .told k SUCCESS true]) ∧
        (∃ s', run s [.arrive, .event .noMemory] = some s' ∧ s'.log = s.log ++ [.arrived k, .opened n, .closedH k, .told k NO_MEMORY false]))) := by
  obtain ⟨cur, h⟩ := reach_inv h
  obtain ⟨ub, hist, phase, gone, went⟩ := h
  cases phase with
  | fresh h1 h2 h3 h4 h5 h6 h7 h8 h9 => exact absurd ha h9
  | bound h1 h2 h3 h4 h5 h6 h7 h8 h9 => exact absurd ha h9
  | closing k h2 h3 h5 h6 h7 => exact absurd h7 hc
  | dead h2 h6 h7 => exact absurd h7 hc
  | waiting k h1 h2 h3 h4 h5 h6 h7 h8 h9 h10 h11 =>
    have hk := hist.held k (by simp)
    have hko : k ∈ s.opens := (hist.isOpen k).mpr ⟨hk.1, h11⟩
    refine ⟨k, s.next, hk.2, .inr ⟨h10, ?_, ?_⟩⟩
    · refine ⟨{ s with acc := some s.next, opens := s.next :: s.opens, next := s.next + 1, slot := .pending s.next, inUse := 1, log := s.log ++ [.arrived k, .opened s.next, .told k SUCCESS true], user := true }, ?_, rfl⟩
      simp [run, step, ub, h2, hu, h6, event, h4, connection, prepare, tell, h8, h3, Way.possible, hko]
    · refine ⟨{ s with acc := some s.next, opens := (s.next :: s.opens).filter (· ≠ k), next := s.next + 1, slot := .pending s.next, inUse := 1, log := s.log ++ [.arrived k, .opened s.next, .closedH k, .told k NO_MEMORY false], user := true }, ?_, rfl⟩
      simp [run, step, ub, h2, hu, h6, event, h4, connection, prepare, tell, closeHandle, h8, h3, Way.possible, hko]
  | arrived k h1 h2 h3 h4 h5 h6 h7 h8 h9 h10 h11 =>
    have hk := hist.held k (by simp)
    have hko : k ∈ s.opens := (hist.isOpen k).mpr ⟨hk.1, h11⟩
    refine ⟨k, s.next, hk.2, .inl ⟨h10, ?_, ?_⟩⟩
    · refine ⟨{ s with acc := some s.next, opens := s.next :: s.opens, next := s.next + 1, slot := .pending s.next, inUse := 1, log := s.log ++ [.opened s.next, .told k SUCCESS true], user := true }, ?_, rfl⟩
      simp [run, step, ub, h2, hu, h6, event, h4, connection, prepare, tell, h8, h3, Way.possible, hko]
    · refine ⟨{ s with acc := some s.next, opens := (s.next :: s.opens).filter (· ≠ k), next := s.next + 1, slot := .pending s.next, inUse := 1, log := s.log ++ [.opened s.next, .closedH k, .told k NO_MEMORY false], user := true }, ?_, rfl⟩
      simp [run, step, ub, h2, hu, h6, event, h4, connection, prepare, tell, closeHandle, h8, h3, Way.possible, hko]

/-- C56 (within the rules of use): no connection is forgotten: the handler was called for it, or it is the one that waits for the event loop. -/
theorem not_forgotten_partial {s : St} (h : Reach Rules s) (hu : s.user = false) {k : Nat} (ha : .arrived k ∈ s.log) :
    tolds k s.log = 1 ∨ ∃ s' n, run s [.event .client] = some s' ∧ s'.log = s.log ++ [.opened n, .told k SUCCESS true] := by
  obtain ⟨cur, h⟩ := reach_inv h
  obtain ⟨ub, hist, phase, gone, went⟩ := h
  rcases hist.arrived k ha with g | g
  · right
    cases phase with
    | fresh h1 h2 h3 h4 h5 h6 h7 h8 h9 => cases g
    | bound h1 h2 h3 h4 h5 h6 h7 h8 h9 => cases g
    | closing k h2 h3 h5 h6 h7 => cases g
    | dead h2 h6 h7 => cases g
    | waiting j h1 h2 h3 h4 h5 h6 h7 h8 h9 h10 h11 => rw [List.mem_singleton] at g; subst g; exact absurd ha h10
    | arrived j h1 h2 h3 h4 h5 h6 h7 h8 h9 h10 h11 =>
      rw [List.mem_singleton] at g; subst g
      have hk := hist.held k (by simp)
      have hko : k ∈ s.opens := (hist.isOpen k).mpr ⟨hk.1, h11⟩
      refine ⟨{ s with acc := some s.next, opens := s.next :: s.opens, next := s.next + 1, slot := .pending s.next, inUse := 1, log := s.log ++ [.opened s.next, .told k SUCCESS true], user := true }, s.next, ?_, rfl⟩
      simp [run, step, ub, h2, hu, h6, event, h4, connection, prepare, tell, h8, h3, Way.possible, hko]
  · exact .inl g

/-- C56 (within the rules of use): closing completes.  After `cio_server_socket_close` the listening descriptor was closed and the hook called, or
the packet of the cancelled accept is still to be seen by the event loop, which does both then. -/
theorem close_completes_partial {s : St} (h : Reach Rules s) (hc : .close ∈ s.log) (hu : s.user = false) :
    .hook ∈ s.log ∨ ∃ s', run s [.event .client] = some s' ∧ s'.log = s.log ++ [.closedFd, .hook] := by
  obtain ⟨cur, h⟩ := reach_inv h
  obtain ⟨ub, hist, phase, gone, went⟩ := h
  cases phase with
  | fresh h1 h2 h3 h4 h5 h6 h7 h8 h9 => exact absurd hc h7
  | bound h1 h2 h3 h4 h5 h6 h7 h8 h9 => exact absurd hc h7
  | waiting k h1 h2 h3 h4 h5 h6 h7 h8 h9 h10 h11 => exact absurd hc h7
  | arrived k h1 h2 h3 h4 h5 h6 h7 h8 h9 h10 h11 => exact absurd hc h7
  | closing k h2 h3 h5 h6 h7 =>
    right
    refine ⟨{ s with slot := .idle, inUse := 0, bound := false, fd := false, alive := false, log := s.log ++ [.closedFd, .hook] }, ?_, rfl⟩
    simp [run, step, ub, h2, hu, h6, event, tryFree, h3, h5]
  | dead h2 h6 h7 => exact .inl (went h6).2

/-- C56 (within the rules of use): no descriptor is lost.  When the server socket was closed, every descriptor that was made has been closed or
given to a client, and before that all but one. -/
theorem no_descriptor_lost_partial {s : St} (h : Reach Rules s) :
    (.close ∈ s.log → ∀ k, .opened k ∈ s.log → .closedH k ∈ s.log ∨ .told k SUCCESS true ∈ s.log) ∧
    ∃ j, ∀ k, k ≠ j → .opened k ∈ s.log → .closedH k ∈ s.log ∨ .told k SUCCESS true ∈ s.log := by
  obtain ⟨cur, h⟩ := reach_inv h
  obtain ⟨ub, hist, phase, gone, went⟩ := h
  have none : cur = [] → ∀ k, .opened k ∈ s.log → .closedH k ∈ s.log ∨ .told k SUCCESS true ∈ s.log := by
    rintro rfl k hk
    exact (hist.owned k ((hist.opened k).mp hk)).resolve_left (by simp)
  have one : ∀ j, cur = [j] → ∀ k, k ≠ j → .opened k ∈ s.log → .closedH k ∈ s.log ∨ .told k SUCCESS true ∈ s.log := by
    rintro j rfl k hne hk
    exact (hist.owned k ((hist.opened k).mp hk)).resolve_left (by simp [hne])
  cases phase with
  | fresh h1 h2 h3 h4 h5 h6 h7 h8 h9 => exact ⟨fun hc => absurd hc h7, 0, fun k _ => none rfl k⟩
  | bound h1 h2 h3 h4 h5 h6 h7 h8 h9 => exact ⟨fun hc => absurd hc h7, 0, fun k _ => none rfl k⟩
  | waiting k h1 h2 h3 h4 h5 h6 h7 h8 h9 h10 h11 => exact ⟨fun hc => absurd hc h7, k, one k rfl⟩
  | arrived k h1 h2 h3 h4 h5 h6 h7 h8 h9 h10 h11 => exact ⟨fun hc => absurd hc h7, k, one k rfl⟩
  | closing k h2 h3 h5 h6 h7 => exact ⟨fun _ => none rfl, 0, fun k _ => none rfl k⟩
  | dead h2 h6 h7 => exact ⟨fun _ => none rfl, 0, fun k _ => none rfl k⟩

/-! ### What does not hold -/

/-- C56 fails for a server socket that is bound and does not accept: the hook is never called. -/
theorem close_bound : ∃ s, run initial [.enter, .bind true, .close, .leave] = some s ∧ s.log = [.bound, .close, .closedFd] ∧ s.slot = .idle ∧ s.alive = true :=
  ⟨_, rfl, rfl, rfl, rfl⟩

/-- C56 fails when an accept fails: a client that resets its connection early ends the accepting; no further accept is under way ... -/
theorem failure_ends_accepting : ∃ s, run initial [.enter, .bind true, .accept true .ok, .leave, .fail (-10054), .event .client, .leave] = some s ∧
    s.log = [.bound, .opened 0, .accepting, .failed 0 (-10054), .told 0 (-10054) false] ∧ s.slot = .idle ∧ s.user = false := ⟨_, rfl, rfl, rfl, rfl⟩

/-- ... and the hook is never called when the server socket is closed then. -/
theorem failure_loses_hook : ∃ s, run initial [.enter, .bind true, .accept true .ok, .leave, .fail (-10054), .event .client, .close, .leave] = some s ∧
    s.log = [.bound, .opened 0, .accepting, .failed 0 (-10054), .told 0 (-10054) false, .close, .closedH 0, .closedFd] ∧ s.slot = .idle ∧ s.alive = true := ⟨_, rfl, rfl, rfl, rfl⟩

/-- C56 fails when the next accept cannot be prepared: the descriptor of the connection that has arrived is lost, and the accepting ends. -/
theorem connection_lost : ∃ s, run initial [.enter, .bind true, .accept true .ok, .leave, .arrive, .event (.noAccept (.noSocket (-10024))), .close, .leave] = some s ∧
    s.log = [.bound, .opened 0, .accepting, .arrived 0, .told 0 (-10024) false, .close, .closedFd] ∧ s.opens = [0] ∧ s.acc = none ∧ s.slot = .idle := ⟨_, rfl, rfl, rfl, rfl, rfl⟩

/-- ... and if it was AcceptEx that failed, a descriptor is closed twice. -/
theorem closed_twice : ∃ s, run initial [.enter, .bind true, .accept true (.exFailed (-10022)), .close] = some s ∧
    s.log = [.bound, .opened 0, .closedH 0, .refused, .close, .closedFd] ∧ s.ub = true := ⟨_, rfl, rfl, rfl⟩

/-- C56 fails when the server socket is closed while a connection waits for the event loop: the handler is called after
`cio_server_socket_close`, the listening descriptor is never closed, the hook never called. -/
theorem told_after_close : ∃ s, run initial [.enter, .bind true, .accept true .ok, .arrive, .close, .leave, .event (.noOption (-10038)), .leave] = some s ∧
    s.log = [.bound, .opened 0, .accepting, .arrived 0, .close, .closedH 0, .told 0 (-10038) false] ∧ s.slot = .idle ∧ s.fd = true ∧ s.user = false ∧ s.ub = false :=
  ⟨_, rfl, rfl, rfl, rfl, rfl, rfl⟩

/-- C56 fails for accepting before binding: it succeeds, and nothing is ever accepted. -/
theorem accept_before_bind : ∃ s, run initial [.enter, .accept true .ok, .bind true, .leave] = some s ∧ s.log = [.accepting, .bound] ∧ s.slot = .idle ∧ s.inUse = 0 :=
  ⟨_, rfl, rfl, rfl, rfl⟩

/-- C56 fails for accepting twice. -/
theorem accept_twice : ∃ s, run initial [.enter, .bind true, .accept true .ok, .accept true .ok] = some s ∧ s.ub = true := ⟨_, rfl, rfl⟩

/-! ### Non-vacuity -/

instance (l : List Obs) : Decidable (AllTold l) :=
  decidable_of_iff ((l.all fun o => match o with | .arrived h => tolds h l == 1 | _ => true) = true) (by
    unfold AllTold
    rw [List.all_eq_true]
    constructor
    · intro h t hm
      simpa using h _ hm
    · intro h o ho
      cases o with
      | arrived t => simpa using h t ho
      | _ => rfl)

def wayB : Way → Bool
  | .noMemory | .noPort _ | .client => true
  | _ => false

instance (s : St) (m : Move) : Decidable (Rules s m) := by
  cases m with
  | event w =>
    exact decidable_of_iff (wayB w = true) (by
      cases w <;> simp [wayB, Rules])
  | _ => unfold Rules; infer_instance

/-- Run within the rules. -/
def runRules : St → List Move → Option St
  | s, [] => some s
  | s, m :: ms => if Rules s m then (step s m).bind fun s => runRules s ms else none

theorem reach_runRules (ms : List Move) : ∀ {s s' : St}, Reach Rules s → runRules s ms = some s' → Reach Rules s' := by
  induction ms with
  | nil => intro s s' h hr; cases hr; exact h
  | cons x ms ih =>
    intro s s' h hr
    unfold runRules at hr
    split at hr
    · rename_i hb
      rw [Option.bind_eq_some_iff] at hr
      obtain ⟨t, h1, h2⟩ := hr
      exact ih (.step h hb h1) h2
    · cases hr

/-- Two connections become clients, two do not; then the server socket is closed by its handler. -/
def exampleMoves : List Move :=
  [.enter, .bind false, .bind true, .accept true .ok, .leave, .arrive, .event .client, .leave, .arrive, .event .noMemory, .arrive, .leave, .event (.noPort (-6)), .leave,
   .arrive, .event .client, .close, .leave]

example : ∃ s, Reach Rules s ∧ s.user = false ∧ .hook ∉ s.log ∧ s.log =
    [.refused, .bound, .opened 0, .accepting, .arrived 0, .opened 1, .told 0 0 true, .arrived 1, .opened 2, .closedH 1, .told 1 (-12) false, .arrived 2, .opened 3, .closedH 2, .told 2 (-6) false,
     .arrived 3, .opened 4, .told 3 0 true, .close, .closedH 4] := by
  refine ⟨(runRules initial exampleMoves).getD initial, reach_runRules exampleMoves .init ?_, ?_, ?_, ?_⟩ <;> decide

example : ∃ s, Reach Rules s ∧ s.alive = false ∧ .hook ∈ s.log := by
  refine ⟨(runRules initial (exampleMoves ++ [.event .client])).getD initial, reach_runRules (exampleMoves ++ [.event .client]) .init ?_, ?_, ?_⟩ <;> decide

example : ∃ s, Reach Rules s ∧ .accepting ∈ s.log ∧ .close ∉ s.log ∧ s.user = false ∧ .arrived 1 ∈ s.log ∧ tolds 1 s.log = 0 := by
  refine ⟨(runRules initial (exampleMoves.take 9)).getD initial, reach_runRules (exampleMoves.take 9) .init ?_, ?_, ?_, ?_, ?_, ?_⟩ <;> decide

end Cio.Windows.Accept
