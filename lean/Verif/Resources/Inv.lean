import Verif.Resources.Lemmas
/-
The descriptors of a server are those of its clients.
-/
namespace Cio.Resources

/-- A pair as a list. -/
def pairList : Option (Fd × Fd) → List Fd
  | none => []
  | some (a, b) => [a, b]

/-- The descriptors that belong to a client object. -/
def held (w : World) (c : Nat) : List Fd := pairList (w.sockOf c) ++ pairList (w.timersOf c)

/-- The invariant: `base` and `reg` are the descriptors and registrations that do not belong to clients. -/
structure Inv (base reg : List Fd) (w : World) : Prop where
  wf : Wf w
  bad : w.bad = false
  opened : w.opened.Perm (base ++ w.clients.flatMap (held w))
  added : w.added.Perm (reg ++ w.clients.flatMap (held w))
  nodupO : w.opened.Nodup
  nodupA : w.added.Nodup
  nodupC : w.clients.Nodup
  nodupX : w.closing.Nodup
  closing : ∀ c ∈ w.closing, c ∈ w.clients ∧ w.timersOf c = none
  sock : ∀ c ∈ w.clients, (w.sockOf c).isSome
  serving : ∀ c ∈ w.clients, c ∉ w.closing → (w.timersOf c).isSome ∧ c ∈ w.reading
  fresh : ∀ c, w.next ≤ c → w.timersOf c = none
  errors : w.nullFreed ≤ w.errors
  server : w.server = true

theorem flatMap_held_congr (l : List Nat) (f g : Nat → List Fd) (h : ∀ c ∈ l, f c = g c) : l.flatMap f = l.flatMap g := by
  induction l with
  | nil => rfl
  | cons a t ih => simp only [List.flatMap_cons]; rw [h a (by simp), ih (fun c hc => h c (by simp [hc]))]

theorem flatMap_erase (l : List Nat) (f : Nat → List Fd) (c : Nat) (h : c ∈ l) : (l.flatMap f).Perm (f c ++ (l.erase c).flatMap f) := by
  have := (List.perm_cons_erase h).flatMap_right f
  simpa using this

theorem erase_erase (l : List Fd) (x : Fd) (h : l.Nodup) : (l.erase x).erase x = l.erase x := by
  rw [List.erase_of_not_mem]
  exact h.not_mem_erase

theorem Wf.handedOver {w : World} (hw : Wf w) (u : Nat) : Wf (handedOver w u) := by
  obtain ⟨a, b, c, d⟩ := hw
  constructor <;> intro x hx <;> simp [Resources.handedOver] at hx ⊢
  · rcases hx with rfl | rfl | hx
    · omega
    · omega
    · have := a x hx; omega
  · rcases hx with rfl | rfl | hx
    · omega
    · omega
    · have := b x hx; omega
  · have := c x hx; omega
  · rcases hx with rfl | hx
    · omega
    · have := d x hx; omega

theorem Inv.quiet {base reg : List Fd} {w : World} (h : Inv base reg w) (u n : Nat) (hn : w.next ≤ n) (l) (k j : Nat) (hk : j ≤ k) :
    Inv base reg { w with used := u, next := n, accepted := l, errors := w.errors + k, nullFreed := w.nullFreed + j } := by
  obtain ⟨⟨a, b, c, d⟩, h1, h2, h3, h4, h5, h6, h7, h8, h9, h10, h11, h12, h13⟩ := h
  refine ⟨⟨?_, ?_, ?_, ?_⟩, h1, h2, h3, h4, h5, h6, h7, h8, h9, h10, ?_, ?_, h13⟩
  · intro x hx; exact Nat.lt_of_lt_of_le (a x hx) hn
  · intro x hx; exact Nat.lt_of_lt_of_le (b x hx) hn
  · intro x hx; exact Nat.lt_of_lt_of_le (c x hx) hn
  · intro x hx; exact Nat.lt_of_lt_of_le (d x hx) hn
  · intro x hx; exact h11 x (Nat.le_trans hn hx)
  · simp; omega

theorem flatMap_handedOver {w : World} (hw : Wf w) (u : Nat) : w.clients.flatMap (held (handedOver w u)) = w.clients.flatMap (held w) := by
  apply flatMap_held_congr
  intro c hc
  have := hw.clients c hc
  have : c ≠ w.next + 1 := by omega
  simp [held, handedOver, this]

theorem Inv.givenUp {base reg : List Fd} {w : World} (h : Inv base reg w) (u u' n : Nat) (hn : w.next + 3 ≤ n) :
    Inv base reg (givenUp (handedOver w u) u' n (w.next + 1)) := by
  have hw := h.wf
  have hw2 := hw.handedOver u
  have hf := flatMap_handedOver hw u
  have hfresh : w.timersOf (w.next + 1) = none := h.fresh _ (by omega)
  have hc : held (handedOver w u) (w.next + 1) = [w.next, w.next + 2] := by simp [held, handedOver, pairList, hfresh]
  have hne : ∀ x ∈ w.clients, x ≠ w.next + 1 := fun x hx => by have := hw.clients x hx; omega
  have hcl : w.next + 1 ∉ w.clients := fun hx => hne _ hx rfl
  have hh : held (Resources.givenUp (handedOver w u) u' n (w.next + 1)) = held (handedOver w u) := rfl
  obtain ⟨⟨a, b, c, d⟩, h1, h2, h3, h4, h5, h6, h7, h8, h9, h10, h11, h12, h13⟩ := h
  refine ⟨⟨?_, ?_, ?_, ?_⟩, h1, ?_, ?_, ?_, ?_, ?_, ?_, ?_, ?_, ?_, ?_, ?_, h13⟩
  · intro x hx; exact Nat.lt_of_lt_of_le (hw2.opened x hx) hn
  · intro x hx; exact Nat.lt_of_lt_of_le (hw2.added x hx) hn
  · intro x hx; exact Nat.lt_of_lt_of_le (hw2.armed x hx) hn
  · intro x hx; exact Nat.lt_of_lt_of_le (hw2.clients x hx) hn
  · rw [hh]
    show ((w.next + 2) :: w.next :: w.opened).Perm (base ++ ((w.next + 1) :: w.clients).flatMap (held (handedOver w u)))
    rw [List.flatMap_cons, hc, hf]
    rw [List.perm_iff_count] at h2 ⊢
    intro x; have := h2 x; simp [List.count_append, List.count_cons] at this ⊢; omega
  · rw [hh]
    show (w.next :: (w.next + 2) :: w.added).Perm (reg ++ ((w.next + 1) :: w.clients).flatMap (held (handedOver w u)))
    rw [List.flatMap_cons, hc, hf]
    rw [List.perm_iff_count] at h3 ⊢
    intro x; have := h3 x; simp [List.count_append, List.count_cons] at this ⊢; omega
  · show ((w.next + 2) :: w.next :: w.opened).Nodup
    have := a w.next; have := a (w.next + 2)
    simp; refine ⟨?_, ?_, h4⟩
    · intro h; have := a _ h; omega
    · intro h; have := a _ h; omega
  · show (w.next :: (w.next + 2) :: w.added).Nodup
    simp; refine ⟨?_, ?_, h5⟩
    · intro h; have := b _ h; omega
    · intro h; have := b _ h; omega
  · show ((w.next + 1) :: w.clients).Nodup
    simp; exact ⟨hcl, h6⟩
  · show ((w.next + 1) :: w.closing).Nodup
    simp; exact ⟨fun hx => hcl (h8 _ hx).1, h7⟩
  · intro x hx
    have hx : x ∈ (w.next + 1) :: w.closing := hx
    show x ∈ (w.next + 1) :: w.clients ∧ w.timersOf x = none
    simp at hx ⊢
    rcases hx with rfl | hx
    · exact ⟨.inl rfl, hfresh⟩
    · exact ⟨.inr (h8 x hx).1, (h8 x hx).2⟩
  · intro x hx
    have hx : x ∈ (w.next + 1) :: w.clients := hx
    show (if x = w.next + 1 then some (w.next, w.next + 2) else w.sockOf x).isSome = true
    simp at hx
    split
    · rfl
    · exact h9 x (by grind)
  · intro x hx hy
    have hx : x ∈ (w.next + 1) :: w.clients := hx
    have hy : x ∉ (w.next + 1) :: w.closing := hy
    simp at hx hy
    exact h10 x (by grind) (by grind)
  · intro x hx
    exact h11 x (by show w.next ≤ x; have hx : n ≤ x := hx; omega)
  · show w.nullFreed ≤ w.errors + 1; omega

theorem Inv.served {base reg : List Fd} {w : World} (h : Inv base reg w) (u u' : Nat) :
    Inv base reg (served (handedOver w u) u' (w.next + 1)) := by
  have hw := h.wf
  have hw2 := hw.handedOver u
  have hfresh : w.timersOf (w.next + 1) = none := h.fresh _ (by omega)
  have hne : ∀ x ∈ w.clients, x ≠ w.next + 1 := fun x hx => by have := hw.clients x hx; omega
  have hcl : w.next + 1 ∉ w.clients := fun hx => hne _ hx rfl
  have hc : held (Resources.served (handedOver w u) u' (w.next + 1)) (w.next + 1) = [w.next, w.next + 2, w.next + 3, w.next + 4] := by
    simp [held, handedOver, Resources.served, pairList]
  have hf : w.clients.flatMap (held (Resources.served (handedOver w u) u' (w.next + 1))) = w.clients.flatMap (held w) := by
    apply flatMap_held_congr
    intro c hc
    have := hne c hc
    simp [held, handedOver, Resources.served, this]
  obtain ⟨⟨a, b, c, d⟩, h1, h2, h3, h4, h5, h6, h7, h8, h9, h10, h11, h12, h13⟩ := h
  refine ⟨⟨?_, ?_, ?_, ?_⟩, h1, ?_, ?_, ?_, ?_, ?_, ?_, ?_, ?_, ?_, ?_, ?_, h13⟩
  · intro x hx
    have hx : x ∈ (w.next + 4) :: (w.next + 3) :: (w.next + 2) :: w.next :: w.opened := hx
    show x < w.next + 5
    simp at hx; rcases hx with h | h | h | h | h
    · omega
    · omega
    · omega
    · omega
    · have := a x h; omega
  · intro x hx
    have hx : x ∈ (w.next + 4) :: (w.next + 3) :: w.next :: (w.next + 2) :: w.added := hx
    show x < w.next + 5
    simp at hx; rcases hx with h | h | h | h | h
    · omega
    · omega
    · omega
    · omega
    · have := b x h; omega
  · intro x hx
    have hx : x ∈ (w.next + 4) :: w.armed := hx
    show x < w.next + 5
    simp at hx; rcases hx with h | h
    · omega
    · have := c x h; omega
  · intro x hx
    have hx : x ∈ (w.next + 1) :: w.clients := hx
    show x < w.next + 5
    simp at hx; rcases hx with h | h
    · omega
    · have := d x h; omega
  · show ((w.next + 4) :: (w.next + 3) :: (w.next + 2) :: w.next :: w.opened).Perm (base ++ ((w.next + 1) :: w.clients).flatMap _)
    rw [List.flatMap_cons, hc, hf]
    rw [List.perm_iff_count] at h2 ⊢
    intro x; have := h2 x; simp [List.count_append, List.count_cons] at this ⊢; omega
  · show ((w.next + 4) :: (w.next + 3) :: w.next :: (w.next + 2) :: w.added).Perm (reg ++ ((w.next + 1) :: w.clients).flatMap _)
    rw [List.flatMap_cons, hc, hf]
    rw [List.perm_iff_count] at h3 ⊢
    intro x; have := h3 x; simp [List.count_append, List.count_cons] at this ⊢; omega
  · show ((w.next + 4) :: (w.next + 3) :: (w.next + 2) :: w.next :: w.opened).Nodup
    simp; refine ⟨?_, ?_, ?_, ?_, h4⟩ <;> (intro h; have := a _ h; omega)
  · show ((w.next + 4) :: (w.next + 3) :: w.next :: (w.next + 2) :: w.added).Nodup
    simp; refine ⟨?_, ?_, ?_, ?_, h5⟩ <;> (intro h; have := b _ h; omega)
  · show ((w.next + 1) :: w.clients).Nodup
    simp; exact ⟨hcl, h6⟩
  · exact h7
  · intro x hx
    have hx : x ∈ w.closing := hx
    have hm := (h8 x hx).1
    have hn := hne x hm
    show x ∈ (w.next + 1) :: w.clients ∧ (if x = w.next + 1 then some (w.next + 3, w.next + 3 + 1) else w.timersOf x) = none
    rw [if_neg hn]
    exact ⟨by simp [hm], (h8 x hx).2⟩
  · intro x hx
    have hx : x ∈ (w.next + 1) :: w.clients := hx
    show (if x = w.next + 1 then some (w.next, w.next + 2) else w.sockOf x).isSome = true
    simp at hx
    split
    · rfl
    · exact h9 x (by grind)
  · intro x hx hy
    have hx : x ∈ (w.next + 1) :: w.clients := hx
    have hy : x ∉ w.closing := hy
    show (if x = w.next + 1 then some (w.next + 3, w.next + 3 + 1) else w.timersOf x).isSome = true ∧ x ∈ (w.next + 1) :: w.reading
    simp at hx
    by_cases hxx : x = w.next + 1
    · simp [hxx]
    · rw [if_neg hxx]
      have := h10 x (by grind) hy
      simp [this.1, this.2]
  · intro x hx
    have hx : w.next + 5 ≤ x := hx
    show (if x = w.next + 1 then some (w.next + 3, w.next + 3 + 1) else w.timersOf x) = none
    rw [if_neg (by omega)]
    exact h11 x (by omega)
  · exact h12

theorem Inv.accept {base reg : List Fd} {w : World} (h : Inv base reg w) (ee : Option Err) (size : Nat) :
    Inv base reg (acceptCallback ee (handleAccept size) w).2 := by
  rcases accept_cases ee (handleAccept size) _ _ _ (quiet_handleAccept size) w h.wf h.server with ⟨_, _, hs⟩ | ⟨_, e, u, n, hn, _, _, hs⟩ | ⟨_, _, u, hs⟩
  · rw [hs]; exact h.quiet _ w.next (Nat.le_refl _) _ 0 0 (Nat.le_refl _)
  · rw [hs]; exact h.quiet _ _ hn _ 1 1 (Nat.le_refl _)
  · rw [hs]
    rcases handleAccept_cases size (w.next + 1) (handedOver w u) (h.wf.handedOver u) with ⟨u', n, hn, hs'⟩ | ⟨_, u', hs'⟩
    · rw [hs']; exact h.givenUp u u' n hn
    · rw [hs']; exact h.served u u'

theorem mem_of_erase (l : List Nat) (x n : Nat) (h : ∀ y : Nat, y ∈ l → y < n) : ∀ y : Nat, y ∈ l.erase x → y < n :=
  fun y hy => h y (List.mem_of_mem_erase hy)

theorem Inv.close {base reg : List Fd} {w : World} (h : Inv base reg w) (c : Nat) (hp : possible w (.close c)) :
    Inv base reg (closeClient c w).2 := by
  obtain ⟨hr, hx, hc⟩ := hp
  obtain ⟨ht, _⟩ := h.serving c hc hx
  obtain ⟨⟨r, q⟩, ht⟩ := Option.isSome_iff_exists.mp ht
  obtain ⟨⟨f, t⟩, hs⟩ := Option.isSome_iff_exists.mp (h.sock c hc)
  have hheld : held w c = [f, t, r, q] := by simp [held, hs, ht, pairList]
  obtain ⟨⟨a, b, cc, d⟩, h1, h2, h3, h4, h5, h6, h7, h8, h9, h10, h11, h12, h13⟩ := h
  have fe := flatMap_erase w.clients (held w) c hc
  rw [hheld] at fe
  have ho : w.opened.Perm (q :: r :: (base ++ ([f, t] ++ (w.clients.erase c).flatMap (held w)))) := by
    have := h2.trans (fe.append_left base)
    rw [List.perm_iff_count] at this ⊢
    intro x; have := this x; simp [List.count_append, List.count_cons] at this ⊢; omega
  have ha : w.added.Perm (q :: r :: (reg ++ ([f, t] ++ (w.clients.erase c).flatMap (held w)))) := by
    have := h3.trans (fe.append_left reg)
    rw [List.perm_iff_count] at this ⊢
    intro x; have := this x; simp [List.count_append, List.count_cons] at this ⊢; omega
  have ho1 := ho.erase q
  rw [List.erase_cons_head] at ho1
  have ho2 := ho1.erase r
  rw [List.erase_cons_head] at ho2
  have ha1 := ha.erase q
  rw [List.erase_cons_head] at ha1
  have ha2 := ha1.erase r
  rw [List.erase_cons_head] at ha2
  have m1 : q ∈ w.opened := ho.mem_iff.mpr (by simp)
  have m2 : r ∈ w.opened.erase q := ho1.mem_iff.mpr (by simp)
  have ee1 := erase_erase w.added q h5
  have ee2 := erase_erase (w.added.erase q) r (h5.erase q)
  have key : (closeClient c w).2 = { w with opened := (w.opened.erase q).erase r, added := (w.added.erase q).erase r, armed := (w.armed.erase q).erase r, timersOf := fun x => if x = c then none else w.timersOf x, closing := c :: w.closing } := by
    simp [closeClient, ht, bindM, timerClose, loopRemove, sysClose, m1, m2, ee1, ee2, setTimers, streamClose]
  rw [key]
  have hf : (w.clients.erase c).flatMap (held { w with opened := (w.opened.erase q).erase r, added := (w.added.erase q).erase r, armed := (w.armed.erase q).erase r, timersOf := fun x => if x = c then none else w.timersOf x, closing := c :: w.closing }) = (w.clients.erase c).flatMap (held w) := by
    apply flatMap_held_congr
    intro x hx
    have : x ≠ c := by rintro rfl; exact h6.not_mem_erase hx
    simp [held, this]
  have fe2 := flatMap_erase w.clients (held { w with opened := (w.opened.erase q).erase r, added := (w.added.erase q).erase r, armed := (w.armed.erase q).erase r, timersOf := fun x => if x = c then none else w.timersOf x, closing := c :: w.closing }) c hc
  have hheld2 : held { w with opened := (w.opened.erase q).erase r, added := (w.added.erase q).erase r, armed := (w.armed.erase q).erase r, timersOf := fun x => if x = c then none else w.timersOf x, closing := c :: w.closing } c = [f, t] := by
    simp [held, hs, pairList]
  rw [hf, hheld2] at fe2
  refine ⟨⟨?_, ?_, ?_, d⟩, h1, ?_, ?_, ?_, ?_, h6, ?_, ?_, h9, ?_, ?_, h12, h13⟩
  · exact mem_of_erase _ _ _ (mem_of_erase _ _ _ a)
  · exact mem_of_erase _ _ _ (mem_of_erase _ _ _ b)
  · exact mem_of_erase _ _ _ (mem_of_erase _ _ _ cc)
  · exact ho2.trans (fe2.symm.append_left base)
  · exact ha2.trans (fe2.symm.append_left reg)
  · exact (h4.erase q).erase r
  · exact (h5.erase q).erase r
  · exact List.nodup_cons.mpr ⟨hx, h7⟩
  · intro x hx'
    simp at hx' ⊢
    rcases hx' with rfl | hx'
    · exact ⟨hc, by simp⟩
    · exact ⟨(h8 x hx').1, fun _ => (h8 x hx').2⟩
  · intro x hx1 hx2
    simp at hx1 hx2 ⊢
    have := h10 x hx1 hx2.2
    simp [hx2.1, this.1, this.2]
  · intro x hx'
    simp at hx' ⊢
    exact fun _ => h11 x hx'

theorem Inv.closed {base reg : List Fd} {w : World} (h : Inv base reg w) (c : Nat) (hp : possible w (.closed c)) :
    Inv base reg (closeSocket c w).2 ∧ (closeSocket c w).2.clients = w.clients.erase c ∧ (closeSocket c w).2.closing = w.closing.erase c := by
  have hp : c ∈ w.closing := hp
  obtain ⟨hc, ht⟩ := h.closing c hp
  obtain ⟨⟨f, t⟩, hs⟩ := Option.isSome_iff_exists.mp (h.sock c hc)
  have hheld : held w c = [f, t] := by simp [held, hs, ht, pairList]
  obtain ⟨⟨a, b, cc, d⟩, h1, h2, h3, h4, h5, h6, h7, h8, h9, h10, h11, h12, h13⟩ := h
  have fe := flatMap_erase w.clients (held w) c hc
  rw [hheld] at fe
  have ho : w.opened.Perm (t :: f :: (base ++ (w.clients.erase c).flatMap (held w))) := by
    have := h2.trans (fe.append_left base)
    rw [List.perm_iff_count] at this ⊢
    intro x; have := this x; simp [List.count_append, List.count_cons] at this ⊢; omega
  have ha : w.added.Perm (f :: t :: (reg ++ (w.clients.erase c).flatMap (held w))) := by
    have := h3.trans (fe.append_left reg)
    rw [List.perm_iff_count] at this ⊢
    intro x; have := this x; simp [List.count_append, List.count_cons] at this ⊢; omega
  have ho1 := ho.erase t
  rw [List.erase_cons_head] at ho1
  have ho2 := ho1.erase f
  rw [List.erase_cons_head] at ho2
  have ha1 := ha.erase f
  rw [List.erase_cons_head] at ha1
  have ha2 := ha1.erase t
  rw [List.erase_cons_head] at ha2
  have m1 : t ∈ w.opened := ho.mem_iff.mpr (by simp)
  have m2 : f ∈ w.opened.erase t := ho1.mem_iff.mpr (by simp)
  have ee1 := erase_erase (w.added.erase f) t (h5.erase f)
  have ee2 : ((w.added.erase f).erase t).erase f = (w.added.erase f).erase t := by
    rw [List.erase_of_not_mem]
    intro hm; exact h5.not_mem_erase (List.mem_of_mem_erase hm)
  have key : (closeSocket c w).2 = { w with opened := (w.opened.erase t).erase f, added := (w.added.erase f).erase t, armed := (w.armed.erase t).erase f, clients := w.clients.erase c, closing := w.closing.erase c } := by
    simp [closeSocket, hs, bindM, timerClose, loopRemove, sysClose, m1, m2, ee1, ee2, freeClient, hc]
  rw [key]
  have hh : held { w with opened := (w.opened.erase t).erase f, added := (w.added.erase f).erase t, armed := (w.armed.erase t).erase f, clients := w.clients.erase c, closing := w.closing.erase c } = held w := rfl
  refine ⟨⟨⟨?_, ?_, ?_, ?_⟩, h1, ?_, ?_, ?_, ?_, h6.erase c, h7.erase c, ?_, ?_, ?_, h11, h12, h13⟩, rfl, rfl⟩
  · exact mem_of_erase _ _ _ (mem_of_erase _ _ _ a)
  · exact mem_of_erase _ _ _ (mem_of_erase _ _ _ b)
  · exact mem_of_erase _ _ _ (mem_of_erase _ _ _ cc)
  · exact mem_of_erase _ _ _ d
  · rw [hh]; exact ho2
  · rw [hh]; exact ha2
  · exact (h4.erase t).erase f
  · exact (h5.erase f).erase t
  · intro x hx
    have hx := (h7.mem_erase_iff).mp hx
    exact ⟨(h6.mem_erase_iff).mpr ⟨hx.1, (h8 x hx.2).1⟩, (h8 x hx.2).2⟩
  · intro x hx
    exact h9 x ((h6.mem_erase_iff).mp hx).2
  · intro x hx hy
    have hx := (h6.mem_erase_iff).mp hx
    exact h10 x hx.2 (fun hm => hy ((h7.mem_erase_iff).mpr ⟨hx.1, hm⟩))

theorem Inv.handle {base reg : List Fd} {w : World} (h : Inv base reg w) (e : Event) (hp : possible w e) : Inv base reg (handle e w).2 := by
  cases e with
  | accept ee size => exact h.accept ee size
  | close c => exact h.close c hp
  | closed c => exact (h.closed c hp).1

theorem Inv.run {base reg : List Fd} {w w' : World} {es : List Event} (h : Inv base reg w) (hr : Run w es w') : Inv base reg w' := by
  induction hr with
  | nil => exact h
  | snoc e _ hp ih => exact ih.handle e hp

end Cio.Resources
