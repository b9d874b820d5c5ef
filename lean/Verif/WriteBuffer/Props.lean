import Verif.WriteBuffer.Lemmas
/-
C10, C11: the linked structure in memory behaves like sequences.
-/
namespace Cio.WB
open Spec (State Op Res Free Allowed setFn seqOf)

/-- One call of the C API on the heap; `fuel` bounds the counting loop of split-and-append only. -/
def exec (fuel : Nat) (h : Heap) : Op → Option (Res × Heap)
  | .headInit b => do let h ← headInit h b; return (.unit, h)
  | .elementInit e d l => do let h ← elementInit h e d l; return (.unit, h)
  | .queueBefore b nx new => do let h ← queueBefore h b nx new; return (.unit, h)
  | .queueAfter b pv new => do let h ← queueAfter h b pv new; return (.unit, h)
  | .queueHead b new => do let h ← queueHead h b new; return (.unit, h)
  | .queueTail b new => do let h ← queueTail h b new; return (.unit, h)
  | .unlink b e => do let h ← unlink h b e; return (.unit, h)
  | .dequeue b => do let (e, h) ← queueDequeue h b; return (.elem e, h)
  | .splice l b => do let h ← splice h l b; return (.unit, h)
  | .splitAndAppend t f e => do let h ← splitAndAppend fuel h t f e; return (.unit, h)
  | .peek b => do let e ← queuePeek h b; return (.elem e, h)
  | .last b => do let e ← queueLast h b; return (.elem e, h)
  | .isEmpty b => do let v ← queueEmpty h b; return (.bool v, h)
  | .totalSize b => do let n ← getTotalSize h b; return (.num n, h)
  | .numElements b => do let n ← getNumBufferElements h b; return (.num n, h)

/-- A history of calls. -/
def execAll (fuel : Nat) : Heap → List Op → Option (List Res × Heap)
  | h, [] => some ([], h)
  | h, o :: os => do
    let (r, h) ← exec fuel h o
    let (rs, h) ← execAll fuel h os
    return (r :: rs, h)

/-- The heap represents the sequences. -/
structure Inv (h : Heap) (s : State) : Prop where
  ring : ∀ hd xs, s.buf hd = some xs → Ring h hd xs
  disj : ∀ hd1 hd2 xs1 xs2, s.buf hd1 = some xs1 → s.buf hd2 = some xs2 → hd1 ≠ hd2 → ∀ a ∈ hd1 :: xs1, a ∉ hd2 :: xs2
  elem : ∀ a d l, s.elem a = some (d, l) → h.valid a = true ∧ h.w0 a = d ∧ h.w1 a = l ∧ s.buf a = none
  inited : ∀ hd xs, s.buf hd = some xs → ∀ a ∈ xs, ∃ d, s.elem a = some d

theorem setFn_same {α : Type} (f : Addr → α) (a : Addr) (v : α) : setFn f a v a = v := by simp [setFn]
theorem setFn_ne {α : Type} (f : Addr → α) (a : Addr) (v : α) (x : Addr) (h : x ≠ a) : setFn f a v x = f x := by simp [setFn, h]

theorem inv_update1 (h h' : Heap) (s : State) (b : Addr) (xs xs' : List Addr) (I : Addr → Prop) (hi : Inv h s)
    (hb : s.buf b = some xs) (hr : Ring h' b xs') (hf : Frame h h' I (fun a => a = b))
    (hI : ∀ a, I a → ∀ hd ys, s.buf hd = some ys → hd ≠ b → a ∉ hd :: ys)
    (hX : ∀ a ∈ xs', (a ∈ xs ∨ Free s a) ∧ ∃ d, s.elem a = some d) :
    Inv h' { s with buf := setFn s.buf b (some xs') } := by
  have hother : ∀ hd ys, s.buf hd = some ys → hd ≠ b → ∀ a ∈ b :: xs', a ∉ hd :: ys := by
    intro hd ys h1 h2 a ha h3
    rcases List.mem_cons.mp ha with rfl | ha
    · exact hi.disj hd a ys xs h1 hb h2 a h3 (by simp)
    · obtain ⟨h4, d, h5⟩ := hX a ha
      rcases h4 with h4 | h4
      · exact hi.disj hd b ys xs h1 hb h2 a h3 (by simp [h4])
      · rcases List.mem_cons.mp h3 with rfl | h3
        · have := (hi.elem a d.1 d.2 h5).2.2.2; rw [h1] at this; cases this
        · exact h4 hd ys h1 h3
  constructor
  · intro hd ys h1
    simp only at h1
    by_cases hd2 : hd = b
    · subst hd2; rw [setFn_same] at h1; cases h1; exact hr
    · rw [setFn_ne _ _ _ _ hd2] at h1
      refine ring_frame h h' I _ hf hd ys (hi.ring hd ys h1) (fun a ha hIa => hI a hIa hd ys h1 hd2 ha) ?_
      intro a ha hab
      subst hab
      exact hother hd ys h1 hd2 a (by simp) ha
  · intro hd1 hd2 xs1 xs2 h1 h2 hne a ha
    simp only at h1 h2
    by_cases e1 : hd1 = b
    · subst e1; rw [setFn_same] at h1; cases h1
      rw [setFn_ne _ _ _ _ (fun e => hne e.symm)] at h2
      exact hother hd2 xs2 h2 (fun e => hne e.symm) a ha
    · rw [setFn_ne _ _ _ _ e1] at h1
      by_cases e2 : hd2 = b
      · subst e2; rw [setFn_same] at h2; cases h2
        intro h3; exact hother hd1 xs1 h1 e1 a h3 ha
      · rw [setFn_ne _ _ _ _ e2] at h2
        exact hi.disj hd1 hd2 xs1 xs2 h1 h2 hne a ha
  · intro a d l h1
    simp only at h1 ⊢
    obtain ⟨h2, h3, h4, h5⟩ := hi.elem a d l h1
    have hab : a ≠ b := by intro e; subst e; rw [hb] at h5; cases h5
    exact ⟨by rw [hf.valid]; exact h2, by rw [hf.w0 a hab]; exact h3, by rw [hf.w1 a hab]; exact h4,
      by rw [setFn_ne _ _ _ _ hab]; exact h5⟩
  · intro hd ys h1 a ha
    simp only at h1 ⊢
    by_cases e1 : hd = b
    · subst e1; rw [setFn_same] at h1; cases h1; exact (hX a ha).2
    · rw [setFn_ne _ _ _ _ e1] at h1; exact hi.inited hd ys h1 a ha

/-- Two buffers `f` and `t` exchange elements. -/
theorem inv_update2 (h h' : Heap) (s : State) (f t : Addr) (xs ts xs' ts' : List Addr) (hi : Inv h s) (hft : f ≠ t)
    (hb : s.buf f = some xs) (hb2 : s.buf t = some ts) (hr : Ring h' f xs') (hr2 : Ring h' t ts')
    (hf : Frame h h' (fun a => a ∈ f :: xs ∨ a ∈ t :: ts) (fun a => a = f ∨ a = t))
    (hx : ts' ++ xs' = ts ++ xs ∨ ts' ++ xs' = ts ++ (xs' ++ ts'.drop ts.length) ∧ xs = xs' ++ ts'.drop ts.length ∨
      ∀ a, a ∈ ts' ++ xs' → a ∈ ts ++ xs)
    (hdis : ∀ a ∈ f :: xs', a ∉ t :: ts') :
    Inv h' { s with buf := setFn (setFn s.buf t (some ts')) f (some xs') } := by
  have hmem : ∀ a, a ∈ ts' ++ xs' → a ∈ ts ∨ a ∈ xs := by
    intro a ha
    rcases hx with h1 | ⟨h1, h2⟩ | h1
    · rw [h1] at ha; simpa using ha
    · rw [h1, ← h2] at ha; simpa using ha
    · simpa using h1 a ha
  have hbuf : ∀ hd ys, setFn (setFn s.buf t (some ts')) f (some xs') hd = some ys →
      (hd = f ∧ ys = xs') ∨ (hd = t ∧ ys = ts') ∨ (hd ≠ f ∧ hd ≠ t ∧ s.buf hd = some ys) := by
    intro hd ys h1
    by_cases e1 : hd = f
    · subst e1; rw [setFn_same] at h1; cases h1; simp
    · rw [setFn_ne _ _ _ _ e1] at h1
      by_cases e2 : hd = t
      · subst e2; rw [setFn_same] at h1; cases h1; simp
      · rw [setFn_ne _ _ _ _ e2] at h1; exact Or.inr (Or.inr ⟨e1, e2, h1⟩)
  have hother : ∀ hd ys, s.buf hd = some ys → hd ≠ f → hd ≠ t → ∀ a ∈ hd :: ys, a ∉ f :: xs ∧ a ∉ t :: ts :=
    fun hd ys h1 h2 h3 a ha => ⟨hi.disj hd f ys xs h1 hb h2 a ha, hi.disj hd t ys ts h1 hb2 h3 a ha⟩
  have hin : ∀ a, a ∈ f :: xs' ∨ a ∈ t :: ts' → a ∈ f :: xs ∨ a ∈ t :: ts := by
    intro a ha
    have := hmem a
    simp at ha this ⊢; tauto
  constructor
  · intro hd ys h1
    rcases hbuf hd ys h1 with ⟨rfl, rfl⟩ | ⟨rfl, rfl⟩ | ⟨h2, h3, h4⟩
    · exact hr
    · exact hr2
    · refine ring_frame h h' _ _ hf hd ys (hi.ring hd ys h4) ?_ ?_
      · intro a ha hh
        have := hother hd ys h4 h2 h3 a ha
        tauto
      · intro a ha hh
        have := hother hd ys h4 h2 h3 a ha
        rcases hh with rfl | rfl <;> simp at this
  · intro hd1 hd2 xs1 xs2 h1 h2 hne a ha hb'
    rcases hbuf hd1 xs1 h1 with ⟨rfl, rfl⟩ | ⟨rfl, rfl⟩ | ⟨q1, q2, q3⟩
    · rcases hbuf hd2 xs2 h2 with ⟨rfl, rfl⟩ | ⟨rfl, rfl⟩ | ⟨r1, r2, r3⟩
      · exact hne rfl
      · exact hdis a ha hb'
      · have := hother hd2 xs2 r3 r1 r2 a hb'
        have := hin a (Or.inl ha)
        tauto
    · rcases hbuf hd2 xs2 h2 with ⟨rfl, rfl⟩ | ⟨rfl, rfl⟩ | ⟨r1, r2, r3⟩
      · exact hdis a hb' ha
      · exact hne rfl
      · have := hother hd2 xs2 r3 r1 r2 a hb'
        have := hin a (Or.inr ha)
        tauto
    · have q4 := hother hd1 xs1 q3 q1 q2 a ha
      rcases hbuf hd2 xs2 h2 with ⟨rfl, rfl⟩ | ⟨rfl, rfl⟩ | ⟨r1, r2, r3⟩
      · have := hin a (Or.inl hb'); tauto
      · have := hin a (Or.inr hb'); tauto
      · exact hi.disj hd1 hd2 xs1 xs2 q3 r3 hne a ha hb'
  · intro a d l h1
    simp only at h1 ⊢
    obtain ⟨h2, h3, h4, h5⟩ := hi.elem a d l h1
    have haf : a ≠ f := by intro e; subst e; rw [hb] at h5; cases h5
    have hat : a ≠ t := by intro e; subst e; rw [hb2] at h5; cases h5
    have hab : ¬ (a = f ∨ a = t) := by tauto
    exact ⟨by rw [hf.valid]; exact h2, by rw [hf.w0 a hab]; exact h3, by rw [hf.w1 a hab]; exact h4,
      by rw [setFn_ne _ _ _ _ haf, setFn_ne _ _ _ _ hat]; exact h5⟩
  · intro hd ys h1 a ha
    simp only
    rcases hbuf hd ys h1 with ⟨rfl, rfl⟩ | ⟨rfl, rfl⟩ | ⟨h2, h3, h4⟩
    · rcases hmem a (by simp [ha]) with h5 | h5
      · exact hi.inited _ _ hb2 a h5
      · exact hi.inited _ _ hb a h5
    · rcases hmem a (by simp [ha]) with h5 | h5
      · exact hi.inited _ _ hb2 a h5
      · exact hi.inited _ _ hb a h5
    · exact hi.inited _ _ h4 a ha

theorem before_split (x new : Addr) (xs : List Addr) (h : x ∈ xs) :
    ∃ ys zs, xs = ys ++ x :: zs ∧ x ∉ ys ∧ Spec.before x new xs = ys ++ new :: x :: zs := by
  induction xs with
  | nil => cases h
  | cons y xs ih =>
    by_cases e : y = x
    · subst e; exact ⟨[], xs, by simp, by simp, by simp [Spec.before]⟩
    · obtain ⟨ys, zs, h1, h2, h3⟩ := ih (by simp at h; rcases h with h | h; · exact absurd h.symm e
                                            · exact h)
      exact ⟨y :: ys, zs, by simp [h1], by simp [h2]; exact fun e2 => e e2.symm, by simp [Spec.before, e, h3]⟩

theorem after_split (x new : Addr) (xs : List Addr) (h : x ∈ xs) :
    ∃ ys zs, xs = ys ++ x :: zs ∧ x ∉ ys ∧ Spec.after x new xs = ys ++ x :: new :: zs := by
  induction xs with
  | nil => cases h
  | cons y xs ih =>
    by_cases e : y = x
    · subst e; exact ⟨[], xs, by simp, by simp, by simp [Spec.after]⟩
    · obtain ⟨ys, zs, h1, h2, h3⟩ := ih (by simp at h; rcases h with h | h; · exact absurd h.symm e
                                            · exact h)
      exact ⟨y :: ys, zs, by simp [h1], by simp [h2]; exact fun e2 => e e2.symm, by simp [Spec.after, e, h3]⟩

theorem mem_split (x : Addr) (xs : List Addr) (h : x ∈ xs) :
    ∃ ys zs, xs = ys ++ x :: zs ∧ x ∉ ys ∧ xs.erase x = ys ++ zs ∧ xs.dropWhile (· ≠ x) = x :: zs ∧ xs.takeWhile (· ≠ x) = ys := by
  induction xs with
  | nil => cases h
  | cons y xs ih =>
    by_cases e : y = x
    · subst e; exact ⟨[], xs, by simp⟩
    · obtain ⟨ys, zs, h1, h2, h3, h4, h5⟩ := ih (by simp at h; rcases h with h | h; · exact absurd h.symm e
                                                    · exact h)
      refine ⟨y :: ys, zs, by simp [h1], by simp [h2]; exact fun e2 => e e2.symm, ?_, ?_, ?_⟩
      · rw [List.erase_cons_tail (by simp [e]), h3]; rfl
      · rw [List.dropWhile_cons_of_pos (by simp [e]), h4]
      · rw [List.takeWhile_cons_of_pos (by simp [e]), h5]

theorem insert_inv (h : Heap) (s : State) (b new : Addr) (ys zs : List Addr) (hi : Inv h s) (hb : s.buf b = some (ys ++ zs))
    (hn : ∃ d, s.elem new = some d) (hfree : Free s new) :
    ∃ h', insert h b new (lst b ys) (fst zs b) = some h' ∧ Inv h' { s with buf := setFn s.buf b (some (ys ++ new :: zs)) } ∧
      h'.valid = h.valid := by
  obtain ⟨⟨d, l⟩, hd⟩ := hn
  obtain ⟨e1, e2, e3, e4⟩ := hi.elem new d l hd
  have hnh : ∀ hd xs, s.buf hd = some xs → new ∉ hd :: xs := by
    intro hd xs h1 h2
    rcases List.mem_cons.mp h2 with rfl | h2
    · rw [h1] at e4; cases e4
    · exact hfree hd xs h1 h2
  obtain ⟨h', g1, g2, g3⟩ := insert_ring h b new ys zs (hi.ring b _ hb) e1 (hnh b _ hb)
  refine ⟨h', g1, inv_update1 h h' s b (ys ++ zs) _ _ hi hb g2 g3 ?_ ?_, g3.valid⟩
  · intro a ha hd2 us h1 h2 h3
    have : a = new ∨ a ∈ b :: (ys ++ zs) := by simp at ha ⊢; tauto
    rcases this with rfl | h4
    · exact hnh hd2 us h1 h3
    · exact hi.disj hd2 b us _ h1 hb h2 a h3 h4
  · intro a ha
    have : a = new ∨ a ∈ ys ++ zs := by simp at ha ⊢; tauto
    rcases this with rfl | h4
    · exact ⟨Or.inr hfree, ⟨(d, l), hd⟩⟩
    · exact ⟨Or.inl h4, hi.inited b _ hb a h4⟩

theorem unlink_inv (h : Heap) (s : State) (b e : Addr) (ys zs : List Addr) (hi : Inv h s) (hb : s.buf b = some (ys ++ e :: zs)) :
    ∃ h', unlink h b e = some h' ∧ Inv h' { s with buf := setFn s.buf b (some (ys ++ zs)) } ∧ h'.valid = h.valid := by
  obtain ⟨h', g1, g2, g3⟩ := unlink_ring h b e ys zs (hi.ring b _ hb)
  refine ⟨h', g1, inv_update1 h h' s b _ _ _ hi hb g2 g3 ?_ ?_, g3.valid⟩
  · intro a ha hd2 us h1 h2 h3
    exact hi.disj hd2 b us _ h1 hb h2 a h3 ha
  · intro a ha
    have : a ∈ ys ++ e :: zs := by simp at ha ⊢; tauto
    exact ⟨Or.inl this, hi.inited b _ hb a this⟩

theorem queueBefore_eq (h : Heap) (b new : Addr) (ys zs : List Addr) (hr : Ring h b (ys ++ zs)) :
    queueBefore h b (fst zs b) new = insert h b new (lst b ys) (fst zs b) := by
  unfold queueBefore
  rw [getPrev_ok _ _ (hr.valid _ (fst_mem_ring b ys zs)), (ring_next h b ys zs hr).2]
  rfl

theorem queueAfter_eq (h : Heap) (b new : Addr) (ys zs : List Addr) (hr : Ring h b (ys ++ zs)) :
    queueAfter h b (lst b ys) new = insert h b new (lst b ys) (fst zs b) := by
  unfold queueAfter
  rw [getNext_ok _ _ (hr.valid _ (lst_mem_ring b ys zs)), (ring_next h b ys zs hr).1]
  rfl

theorem total_eq (h : Heap) (s : State) (hi : Inv h s) (b : Addr) (xs : List Addr) (hb : s.buf b = some xs) :
    (xs.map h.w1).sum = Spec.total s xs := by
  unfold Spec.total
  apply sum_map_congr
  intro x hx
  obtain ⟨⟨d, l⟩, h1⟩ := hi.inited b xs hb x hx
  rw [Spec.length, h1, (hi.elem x d l h1).2.2.1]
  rfl

theorem seqOf_eq (s : State) (b : Addr) (xs : List Addr) (h : s.buf b = some xs) : seqOf s b = xs := by simp [seqOf, h]

/-- The largest buffer bounds the counting loop. -/
def fuelFor (s : State) : Op → Nat
  | .splitAndAppend _ f _ => (seqOf s f).length + 2
  | _ => 0

/-- **C10, C11**, one call: whatever the user has built with the API before, an operation used according to the rules touches only valid
nodes, returns what the sequence semantics says and leaves the memory in a state that represents the resulting sequences. -/
theorem exec_refines (h : Heap) (s : State) (o : Op) (hi : Inv h s) (ha : Allowed h.valid s o) (fuel : Nat) (hfuel : fuelFor s o ≤ fuel) :
    ∃ h', exec fuel h o = some (Spec.result s o, h') ∧ Inv h' (Spec.step s o) ∧ h'.valid = h.valid := by
  cases o with
  | headInit b =>
    obtain ⟨hv, hfree⟩ := ha
    obtain ⟨h', g1, g2, g3⟩ := headInit_ring h b hv
    refine ⟨h', by simp [exec, g1, Spec.result], ?_, g3.valid⟩
    have hbuf : ∀ hd ys, setFn s.buf b (some []) hd = some ys → (hd = b ∧ ys = []) ∨ (hd ≠ b ∧ s.buf hd = some ys) := by
      intro hd ys h1
      by_cases e1 : hd = b
      · subst e1; rw [setFn_same] at h1; cases h1; simp
      · rw [setFn_ne _ _ _ _ e1] at h1; exact Or.inr ⟨e1, h1⟩
    have hout : ∀ hd ys, s.buf hd = some ys → hd ≠ b → b ∉ hd :: ys := by
      intro hd ys h1 h2 h3
      rcases List.mem_cons.mp h3 with h3 | h3
      · exact h2 h3.symm
      · exact hfree hd ys h1 h3
    constructor
    · intro hd ys h1
      rcases hbuf hd ys h1 with ⟨rfl, rfl⟩ | ⟨h2, h3⟩
      · exact g2
      · exact ring_frame h h' _ _ g3 hd ys (hi.ring hd ys h3) (fun a ha e => hout hd ys h3 h2 (e ▸ ha))
          (fun a ha e => hout hd ys h3 h2 (e ▸ ha))
    · intro hd1 hd2 xs1 xs2 h1 h2 hne a ha
      rcases hbuf hd1 xs1 h1 with ⟨rfl, rfl⟩ | ⟨h3, h4⟩
      · rcases hbuf hd2 xs2 h2 with ⟨rfl, rfl⟩ | ⟨h5, h6⟩
        · exact absurd rfl hne
        · simp at ha; subst ha; exact hout hd2 xs2 h6 h5
      · rcases hbuf hd2 xs2 h2 with ⟨rfl, rfl⟩ | ⟨h5, h6⟩
        · intro h7; simp at h7; subst h7; exact hout hd1 xs1 h4 h3 ha
        · exact hi.disj hd1 hd2 xs1 xs2 h4 h6 hne a ha
    · intro a d l h1
      simp only [Spec.step] at h1 ⊢
      have hab : a ≠ b := by intro e; subst e; rw [setFn_same] at h1; cases h1
      rw [setFn_ne _ _ _ _ hab] at h1 ⊢
      obtain ⟨e1, e2, e3, e4⟩ := hi.elem a d l h1
      exact ⟨by rw [g3.valid]; exact e1, by rw [g3.w0 a hab]; exact e2, by rw [g3.w1 a hab]; exact e3, e4⟩
    · intro hd ys h1 a ha
      rcases hbuf hd ys h1 with ⟨rfl, rfl⟩ | ⟨h2, h3⟩
      · cases ha
      · obtain ⟨d, h4⟩ := hi.inited hd ys h3 a ha
        refine ⟨d, ?_⟩
        simp only [Spec.step]
        rw [setFn_ne]
        · exact h4
        · intro e; subst e; exact hout hd ys h3 h2 (by simp [ha])
  | elementInit e d l =>
    obtain ⟨hv, hnb, hfree⟩ := ha
    obtain ⟨h', g1, g2, g3, g4⟩ := elementInit_frame h e d l hv
    refine ⟨h', by simp [exec, g1, Spec.result], ?_, g4.valid⟩
    have hout : ∀ hd ys, s.buf hd = some ys → e ∉ hd :: ys := by
      intro hd ys h1 h3
      rcases List.mem_cons.mp h3 with rfl | h3
      · rw [hnb] at h1; cases h1
      · exact hfree hd ys h1 h3
    constructor
    · intro hd ys h1
      exact ring_frame h h' _ _ g4 hd ys (hi.ring hd ys h1) (fun a ha e => e) (fun a ha e1 => hout hd ys h1 (e1 ▸ ha))
    · exact hi.disj
    · intro a d' l' h1
      simp only [Spec.step] at h1 ⊢
      by_cases hae : a = e
      · subst hae; rw [setFn_same] at h1; cases h1
        exact ⟨by rw [g4.valid]; exact hv, g2, g3, hnb⟩
      · rw [setFn_ne _ _ _ _ hae] at h1
        obtain ⟨e1, e2, e3, e4⟩ := hi.elem a d' l' h1
        exact ⟨by rw [g4.valid]; exact e1, by rw [g4.w0 a hae]; exact e2, by rw [g4.w1 a hae]; exact e3, e4⟩
    · intro hd ys h1 a ha
      obtain ⟨d', h4⟩ := hi.inited hd ys h1 a ha
      refine ⟨d', ?_⟩
      simp only [Spec.step]
      rw [setFn_ne]
      · exact h4
      · intro e1; subst e1; exact hout hd ys h1 (by simp [ha])
  | queueBefore b nx new =>
    obtain ⟨⟨xs, hb, hpos⟩, hn, hfree⟩ := ha
    have hr := hi.ring b xs hb
    by_cases e : nx = b
    · subst e
      obtain ⟨h', g1, g2, g3⟩ := insert_inv h s nx new xs [] hi (by simpa using hb) hn hfree
      refine ⟨h', ?_, ?_, g3⟩
      · have := queueBefore_eq h nx new xs [] (by simpa using hr)
        simp only [fst_nil] at this g1
        simp [exec, this, g1, Spec.result]
      · simpa [Spec.step, seqOf_eq s nx xs hb] using g2
    · have hm : nx ∈ xs := by tauto
      obtain ⟨ys, zs, e1, _, e2⟩ := before_split nx new xs hm
      rw [e1] at hr
      obtain ⟨h', g1, g2, g3⟩ := insert_inv h s b new ys (nx :: zs) hi (by rw [hb, e1]) hn hfree
      refine ⟨h', ?_, ?_, g3⟩
      · have := queueBefore_eq h b new ys (nx :: zs) hr
        simp only [fst_cons] at this g1
        simp [exec, this, g1, Spec.result]
      · simpa [Spec.step, seqOf_eq s b xs hb, e, e2] using g2
  | queueAfter b pv new =>
    obtain ⟨⟨xs, hb, hpos⟩, hn, hfree⟩ := ha
    have hr := hi.ring b xs hb
    by_cases e : pv = b
    · subst e
      obtain ⟨h', g1, g2, g3⟩ := insert_inv h s pv new [] xs hi (by simpa using hb) hn hfree
      refine ⟨h', ?_, ?_, g3⟩
      · have := queueAfter_eq h pv new [] xs (by simpa using hr)
        simp only [lst_nil] at this g1
        simp [exec, this, g1, Spec.result]
      · simpa [Spec.step, seqOf_eq s pv xs hb] using g2
    · have hm : pv ∈ xs := by tauto
      obtain ⟨ys, zs, e1, _, e2⟩ := after_split pv new xs hm
      have e1' : xs = (ys ++ [pv]) ++ zs := by rw [e1]; simp
      rw [e1'] at hr
      obtain ⟨h', g1, g2, g3⟩ := insert_inv h s b new (ys ++ [pv]) zs hi (by rw [hb, e1']) hn hfree
      refine ⟨h', ?_, ?_, g3⟩
      · have := queueAfter_eq h b new (ys ++ [pv]) zs hr
        simp only [lst_append, lst_nil] at this g1
        simp [exec, this, g1, Spec.result]
      · simpa [Spec.step, seqOf_eq s b xs hb, e, e2] using g2
  | queueHead b new =>
    obtain ⟨⟨xs, hb⟩, hn, hfree⟩ := ha
    have hr := hi.ring b xs hb
    obtain ⟨h', g1, g2, g3⟩ := insert_inv h s b new [] xs hi (by simpa using hb) hn hfree
    refine ⟨h', ?_, ?_, g3⟩
    · have := queueAfter_eq h b new [] xs (by simpa using hr)
      simp only [lst_nil] at this g1
      simp [exec, queueHead, this, g1, Spec.result]
    · simpa [Spec.step, seqOf_eq s b xs hb] using g2
  | queueTail b new =>
    obtain ⟨⟨xs, hb⟩, hn, hfree⟩ := ha
    have hr := hi.ring b xs hb
    obtain ⟨h', g1, g2, g3⟩ := insert_inv h s b new xs [] hi (by simpa using hb) hn hfree
    refine ⟨h', ?_, ?_, g3⟩
    · have := queueBefore_eq h b new xs [] (by simpa using hr)
      simp only [fst_nil] at this g1
      simp [exec, queueTail, this, g1, Spec.result]
    · simpa [Spec.step, seqOf_eq s b xs hb] using g2
  | unlink b e =>
    obtain ⟨xs, hb, hm⟩ := ha
    obtain ⟨ys, zs, e1, _, e2, _⟩ := mem_split e xs hm
    obtain ⟨h', g1, g2, g3⟩ := unlink_inv h s b e ys zs hi (by rw [hb, e1])
    refine ⟨h', by simp [exec, g1, Spec.result], ?_, g3⟩
    simpa [Spec.step, seqOf_eq s b xs hb, e2] using g2
  | dequeue b =>
    obtain ⟨xs, hb⟩ := ha
    have hr := hi.ring b xs hb
    have hp := queuePeek_ring h b xs hr
    cases xs with
    | nil =>
      refine ⟨h, by simp [exec, queueDequeue, hp, Spec.result, seqOf_eq s b _ hb], ?_, rfl⟩
      have : setFn s.buf b (some []) = s.buf := by
        funext x; by_cases e : x = b
        · subst e; rw [setFn_same, hb]
        · rw [setFn_ne _ _ _ _ e]
      simpa [Spec.step, seqOf_eq s b _ hb, this] using hi
    | cons x xs =>
      obtain ⟨h', g1, g2, g3⟩ := unlink_inv h s b x [] xs hi (by simpa using hb)
      refine ⟨h', ?_, ?_, g3⟩
      · simp [exec, queueDequeue, hp, g1, Spec.result, seqOf_eq s b _ hb]
      · simpa [Spec.step, seqOf_eq s b _ hb] using g2
  | splice l b =>
    obtain ⟨hne, ⟨xs, hb⟩, ⟨ts, hb2⟩⟩ := ha
    have hd := hi.disj l b xs ts hb hb2 hne
    obtain ⟨h', g1, g2, g3, g4⟩ := splice_ring h l b xs ts (hi.ring l xs hb) (hi.ring b ts hb2) hd
    refine ⟨h', by simp [exec, g1, Spec.result], ?_, g4.valid⟩
    have := inv_update2 h h' s l b xs ts [] (ts ++ xs) hi hne hb hb2 g2 g3 g4 (by simp) ?_
    · simpa [Spec.step, seqOf_eq s l _ hb, seqOf_eq s b _ hb2] using this
    · intro a ha
      simp at ha; subst ha
      intro h1
      have h2 := hd a (by simp)
      have h3 := (List.nodup_cons.mp (hi.ring a xs hb).nodup).1
      simp at h1 h2; tauto
  | splitAndAppend t f e =>
    obtain ⟨hne, ⟨ts, hb2⟩, ⟨xs, hb, hpos⟩⟩ := ha
    have hd := hi.disj f t xs ts hb hb2 hne.symm
    have hfl : xs.length + 2 ≤ fuel := by simpa [fuelFor, seqOf_eq s f _ hb] using hfuel
    have hrf := hi.ring f xs hb
    have hrt := hi.ring t ts hb2
    have hnf : f ∉ xs := (List.nodup_cons.mp hrf.nodup).1
    by_cases ef : e = f
    · subst ef
      cases xs with
      | nil =>
        refine ⟨h, ?_, ?_, rfl⟩
        · simp [exec, splitAndAppend, queueEmpty_ring h e [] hrf, Spec.result]
        · have : setFn (setFn s.buf t (some ts)) e (some []) = s.buf := by
            funext x
            by_cases e1 : x = e
            · subst e1; rw [setFn_same, hb]
            · rw [setFn_ne _ _ _ _ e1]
              by_cases e2 : x = t
              · subst e2; rw [setFn_same, hb2]
              · rw [setFn_ne _ _ _ _ e2]
          simpa [Spec.step, seqOf_eq s e _ hb, seqOf_eq s t _ hb2, this] using hi
      | cons z zs =>
        obtain ⟨h', g1, g2, g3, g4⟩ := split_ring h e t z e [] zs ts (by simpa using hrf) hrt (by simpa using hd) fuel
          (by simp at hfl; omega) (Or.inr ⟨rfl, rfl⟩)
        refine ⟨h', by simp [exec, g1, Spec.result], ?_, g4.valid⟩
        have := inv_update2 h h' s e t (z :: zs) ts [] (ts ++ z :: zs) hi hne.symm hb hb2 g2 g3 g4 (by simp) ?_
        · simpa [Spec.step, seqOf_eq s e _ hb, seqOf_eq s t _ hb2] using this
        · intro a ha
          simp at ha; subst ha
          intro h1
          have h2 := hd a (by simp)
          simp at h1 h2 hnf; tauto
    · have hm : e ∈ xs := by tauto
      obtain ⟨ys, zs, e1, _, _, e2, e3⟩ := mem_split e xs hm
      obtain ⟨h', g1, g2, g3, g4⟩ := split_ring h f t e e ys zs ts (by rw [← e1]; exact hrf) hrt (by rw [← e1]; exact hd) fuel
          (by rw [e1] at hfl; simp at hfl; omega) (Or.inl rfl)
      refine ⟨h', by simp [exec, g1, Spec.result], ?_, g4.valid⟩
      rw [← e1] at g4
      have := inv_update2 h h' s f t xs ts ys (ts ++ e :: zs) hi hne.symm hb hb2 g2 g3 g4 ?_ ?_
      · simp only [Spec.step, if_neg ef, seqOf_eq s f _ hb, seqOf_eq s t _ hb2, e2, e3]; exact this
      · right; right; rw [e1]; simp; tauto
      · intro a ha h1
        have h2 := hd a (by rw [e1]; simp at ha ⊢; tauto)
        have h3 := hrf.nodup
        rw [e1, ← List.cons_append, List.nodup_append] at h3
        have h4 := h3.2.2 a ha a
        simp at h1 h2 h4; tauto
  | peek b =>
    obtain ⟨xs, hb⟩ := ha
    exact ⟨h, by simp [exec, queuePeek_ring h b xs (hi.ring b xs hb), Spec.result, seqOf_eq s b xs hb], hi, rfl⟩
  | last b =>
    obtain ⟨xs, hb⟩ := ha
    exact ⟨h, by simp [exec, queueLast_ring h b xs (hi.ring b xs hb), Spec.result, seqOf_eq s b xs hb], hi, rfl⟩
  | isEmpty b =>
    obtain ⟨xs, hb⟩ := ha
    exact ⟨h, by simp [exec, queueEmpty_ring h b xs (hi.ring b xs hb), Spec.result, seqOf_eq s b xs hb], hi, rfl⟩
  | totalSize b =>
    obtain ⟨xs, hb⟩ := ha
    have hr := hi.ring b xs hb
    refine ⟨h, ?_, hi, rfl⟩
    rw [exec, getTotalSize, getW1_ok _ _ (hr.valid b (by simp)), hr.total, total_eq h s hi b xs hb]
    simp [Spec.result, seqOf_eq s b xs hb, szMod]
  | numElements b =>
    obtain ⟨xs, hb⟩ := ha
    have hr := hi.ring b xs hb
    refine ⟨h, ?_, hi, rfl⟩
    rw [exec, getNumBufferElements, getW0_ok _ _ (hr.valid b (by simp)), hr.qlen]
    simp [Spec.result, seqOf_eq s b xs hb, szMod]

/-- Enough fuel for a whole history. -/
def fuelAll : State → List Op → Nat
  | _, [] => 0
  | s, o :: os => max (fuelFor s o) (fuelAll (Spec.step s o) os)

/-- At first there is neither an element nor a buffer. -/
def emptyState : State := ⟨fun _ => none, fun _ => none⟩

theorem inv_empty (h : Heap) : Inv h emptyState :=
  ⟨fun _ _ h => (by cases h), fun _ _ _ _ h => (by cases h), fun _ _ _ h => (by cases h), fun _ _ h => (by cases h)⟩

theorem execAll_refines (os : List Op) (h : Heap) (s : State) (hi : Inv h s) (ha : Spec.AllAllowed h.valid s os) (fuel : Nat)
    (hfuel : fuelAll s os ≤ fuel) :
    ∃ h', execAll fuel h os = some (Spec.results s os, h') ∧ Inv h' (Spec.run s os) := by
  induction os generalizing h s with
  | nil => exact ⟨h, rfl, hi⟩
  | cons o os ih =>
    simp only [fuelAll] at hfuel
    obtain ⟨h1, g1, g2, g3⟩ := exec_refines h s o hi ha.1 fuel (by omega)
    obtain ⟨h2, g4, g5⟩ := ih h1 (Spec.step s o) g2 (by rw [g3]; exact ha.2) (by omega)
    exact ⟨h2, by simp [execAll, g1, g4, Spec.results], g5⟩

/-- Following `next` from a buffer. -/
def walk (nxt : Addr → Addr) : Nat → Addr → List Addr
  | 0, _ => []
  | n + 1, a => nxt a :: walk nxt n (nxt a)

theorem seg_walk (n p : Addr → Addr) (a : Addr) (xs : List Addr) (b : Addr) (h : Seg n p a xs b) :
    walk n (xs.length + 1) a = xs ++ [b] := by
  induction xs generalizing a with
  | nil => simp [walk, h.1]
  | cons x xs ih =>
    have := ih x h.2.2
    rw [List.length_cons, walk, h.1, this]; rfl

theorem seg_walk_back (n p : Addr → Addr) (a : Addr) (xs : List Addr) (b : Addr) (h : Seg n p a xs b) :
    walk p (xs.length + 1) b = xs.reverse ++ [a] := by
  have hw : ∀ (k : Nat) (l : List Addr) (c z : Addr) , walk p k c = l → p (l.getLastD c) = z → walk p (k + 1) c = l ++ [z] := by
    intro k
    induction k with
    | zero => intro l c z h1 h2; subst h1; simp [walk] at h2 ⊢; exact h2
    | succ k ih =>
      intro l c z h1 h2
      cases l with
      | nil => simp [walk] at h1
      | cons y l =>
        simp only [walk, List.cons.injEq] at h1
        obtain ⟨h3, h4⟩ := h1
        rw [List.getLastD_cons] at h2
        have := ih l (p c) z h4 (by rw [h3]; exact h2)
        rw [walk, this, h3]; rfl
  induction xs generalizing a with
  | nil => simp [walk, h.2]
  | cons x xs ih =>
    have := ih x h.2.2
    rw [List.length_cons, hw (xs.length + 1) (xs.reverse ++ [x]) b a this]
    · simp
    · simp [h.2.1]

/-- **C10, C11**, all histories.  Whatever sequence of operations a user performs on however many buffers and elements, starting with
uninitialised memory, as long as the rules of use are respected: no call accesses invalid memory or loops forever, every call returns what
the sequence semantics of `Spec` says, and at the end every buffer, walked forwards over `next` or backwards over `prev`, consists of
exactly the elements of its sequence, and every element still has the data and the length it was initialised with. -/
theorem write_buffer_histories (h : Heap) (os : List Op) (ha : Spec.AllAllowed h.valid emptyState os) (fuel : Nat)
    (hfuel : fuelAll emptyState os ≤ fuel) :
    ∃ h', execAll fuel h os = some (Spec.results emptyState os, h') ∧
      (∀ b xs, (Spec.run emptyState os).buf b = some xs →
        walk h'.next (xs.length + 1) b = xs ++ [b] ∧ walk h'.prev (xs.length + 1) b = xs.reverse ++ [b] ∧ b ∉ xs ∧ xs.Nodup) ∧
      (∀ e d l, (Spec.run emptyState os).elem e = some (d, l) → h'.w0 e = d ∧ h'.w1 e = l) := by
  obtain ⟨h', g1, g2⟩ := execAll_refines os h emptyState (inv_empty h) ha fuel hfuel
  refine ⟨h', g1, ?_, ?_⟩
  · intro b xs hb
    have hr := g2.ring b xs hb
    have hn := List.nodup_cons.mp hr.nodup
    exact ⟨seg_walk _ _ _ _ _ hr.seg, seg_walk_back _ _ _ _ _ hr.seg, hn.1, hn.2⟩
  · intro e d l h1
    have := g2.elem e d l h1
    exact ⟨this.2.1, this.2.2.1⟩

/-- A history that meets the rules: two buffers, elements, split and splice. -/
example : Spec.AllAllowed (fun _ => true) emptyState
    [.headInit 1, .headInit 2, .elementInit 10 100 3, .elementInit 11 200 5, .elementInit 12 300 0, .queueTail 1 10, .queueTail 1 11,
     .queueAfter 1 10 12, .splitAndAppend 2 1 12, .dequeue 2, .splice 2 1, .totalSize 1] ∧
    Spec.results emptyState
    [.headInit 1, .headInit 2, .elementInit 10 100 3, .elementInit 11 200 5, .elementInit 12 300 0, .queueTail 1 10, .queueTail 1 11,
     .queueAfter 1 10 12, .splitAndAppend 2 1 12, .dequeue 2, .splice 2 1, .totalSize 1] =
    [.unit, .unit, .unit, .unit, .unit, .unit, .unit, .unit, .unit, .elem (some 12), .unit, .num 8] := by
  refine ⟨?_, by decide⟩
  simp [Spec.AllAllowed, Allowed, Free, Spec.step, setFn, seqOf, emptyState, Spec.after]
  grind

/-- What `cio_write_buffer_is_last_element` really computes: whether the element is the FIRST one. -/
theorem isLastElement_first (h : Heap) (s : State) (hi : Inv h s) (b e : Addr) (xs : List Addr) (hb : s.buf b = some xs) (he : e ∈ xs) :
    isLastElement h b e = some (decide (xs.head? = some e)) := by
  have hr := hi.ring b xs hb
  obtain ⟨ys, zs, e1, _⟩ := mem_split e xs he
  subst e1
  have hp := (ring_next h b ys (e :: zs) hr).2
  simp only [fst_cons] at hp
  rw [isLastElement, getPrev_ok _ _ (hr.valid e (by simp)), hp]
  cases ys with
  | nil => simp
  | cons y ys =>
    have hn := hr.nodup
    have h1 : lst y ys ≠ b := by
      intro e2
      have := lst_mem y ys
      rw [e2] at this
      simp at hn this; tauto
    have h2 : y ≠ e := by
      intro e2; subst e2; simp at hn
    simp [lst, h1, h2]

/-- **C38**, the part that holds: in a buffer with one element the answer is right. -/
theorem isLastElement_partial (h : Heap) (s : State) (hi : Inv h s) (b e : Addr) (xs : List Addr) (hb : s.buf b = some xs) (he : e ∈ xs)
    (h1 : xs.length = 1) : isLastElement h b e = some (decide (xs.getLast? = some e)) := by
  rw [isLastElement_first h s hi b e xs hb he]
  match xs, h1 with
  | [x], _ => simp

/-- **C38** is false of the code: in every buffer with more than one element the function denies that the last element is the last one and
claims it of the first one. -/
theorem isLastElement_wrong (h : Heap) (s : State) (hi : Inv h s) (b x y : Addr) (mid : List Addr) (hb : s.buf b = some (x :: mid ++ [y])) :
    isLastElement h b y = some false ∧ isLastElement h b x = some true := by
  have hn := (hi.ring b _ hb).nodup
  rw [isLastElement_first h s hi b y _ hb (by simp), isLastElement_first h s hi b x _ hb (by simp)]
  have : x ≠ y := by intro e; subst e; simp at hn
  simp [this]

end Cio.WB
