import Mathlib.Tactic.Tauto
import Verif.WriteBuffer.Model
import Verif.WriteBuffer.Spec
namespace Cio.WB

@[simp] theorem upd_same (f : Addr → Nat) (a v : Nat) : upd f a v a = v := by simp [upd]
theorem upd_ne (f : Addr → Nat) (a v x : Nat) (h : x ≠ a) : upd f a v x = f x := by simp [upd, h]

/-- A linked segment from `a` over `xs` to `b`. -/
def Seg (n p : Addr → Addr) : Addr → List Addr → Addr → Prop
  | a, [], b => n a = b ∧ p b = a
  | a, x :: xs, b => n a = x ∧ p x = a ∧ Seg n p x xs b

/-- The links within `a :: xs`. -/
def Lnk (n p : Addr → Addr) : Addr → List Addr → Prop
  | _, [] => True
  | a, x :: xs => n a = x ∧ p x = a ∧ Lnk n p x xs

/-- The links within `zs ++ [b]`. -/
def Rnk (n p : Addr → Addr) : List Addr → Addr → Prop
  | [], _ => True
  | z :: zs, b => Seg n p z zs b

def lst : Addr → List Addr → Addr
  | a, [] => a
  | _, x :: xs => lst x xs

def fst : List Addr → Addr → Addr
  | [], b => b
  | z :: _, _ => z

theorem seg_split (n p : Addr → Addr) (a : Addr) (ys zs : List Addr) (b : Addr) :
    Seg n p a (ys ++ zs) b ↔ Lnk n p a ys ∧ n (lst a ys) = fst zs b ∧ p (fst zs b) = lst a ys ∧ Rnk n p zs b := by
  induction ys generalizing a with
  | nil => cases zs <;> simp [Seg, Lnk, Rnk, lst, fst]
  | cons y ys ih =>
    simp only [List.cons_append, Seg, Lnk, lst, ih]
    constructor <;> rintro ⟨h1, h2, h3⟩ <;> simp_all

theorem seg_end (n p : Addr → Addr) (a : Addr) (ys : List Addr) (b : Addr) :
    Seg n p a ys b ↔ Lnk n p a ys ∧ n (lst a ys) = b ∧ p b = lst a ys := by
  have := seg_split n p a ys [] b
  simpa [fst, Rnk] using this

theorem seg_start (n p : Addr → Addr) (a : Addr) (zs : List Addr) (b : Addr) :
    Seg n p a zs b ↔ n a = fst zs b ∧ p (fst zs b) = a ∧ Rnk n p zs b := by
  have := seg_split n p a [] zs b
  simpa [lst, Lnk] using this

theorem lst_mem (a : Addr) (ys : List Addr) : lst a ys ∈ a :: ys := by
  induction ys generalizing a with
  | nil => simp [lst]
  | cons y ys ih => rw [lst]; exact List.mem_cons_of_mem _ (ih y)

theorem fst_mem (zs : List Addr) (b : Addr) : fst zs b ∈ zs ++ [b] := by
  cases zs <;> simp [fst]

theorem lst_append (a : Addr) (ys : List Addr) (z : Addr) (zs : List Addr) : lst a (ys ++ z :: zs) = lst z zs := by
  induction ys generalizing a with
  | nil => rfl
  | cons y ys ih => exact ih y

theorem lnk_congr (n p n' p' : Addr → Addr) (a : Addr) (ys : List Addr) (hnd : (a :: ys).Nodup)
    (hn : ∀ x ∈ a :: ys, x ≠ lst a ys → n' x = n x) (hp : ∀ x ∈ ys, p' x = p x) (h : Lnk n p a ys) : Lnk n' p' a ys := by
  induction ys generalizing a with
  | nil => trivial
  | cons y ys ih =>
    have hne : a ≠ lst y ys := by
      intro he
      have := lst_mem y ys
      rw [← he] at this
      exact (List.nodup_cons.mp hnd).1 this
    refine ⟨?_, ?_, ?_⟩
    · rw [hn a (by simp) hne]; exact h.1
    · rw [hp y (by simp)]; exact h.2.1
    · exact ih y (List.nodup_cons.mp hnd).2 (fun x hx hne => hn x (List.mem_cons_of_mem _ hx) hne)
        (fun x hx => hp x (List.mem_cons_of_mem _ hx)) h.2.2

theorem seg_congr (n p n' p' : Addr → Addr) (a : Addr) (xs : List Addr) (b : Addr)
    (hn : ∀ x ∈ a :: xs, n' x = n x) (hp : ∀ x ∈ xs ++ [b], p' x = p x) (h : Seg n p a xs b) : Seg n' p' a xs b := by
  induction xs generalizing a with
  | nil =>
    refine ⟨?_, ?_⟩
    · rw [hn a (by simp)]; exact h.1
    · rw [hp b (by simp)]; exact h.2
  | cons x xs ih =>
    refine ⟨?_, ?_, ?_⟩
    · rw [hn a (by simp)]; exact h.1
    · rw [hp x (by simp)]; exact h.2.1
    · exact ih x (fun z hz => hn z (List.mem_cons_of_mem _ hz)) (fun z hz => hp z (by simp only [List.cons_append]; exact List.mem_cons_of_mem _ hz)) h.2.2

theorem rnk_congr (n p n' p' : Addr → Addr) (zs : List Addr) (b : Addr) (hnd : (zs ++ [b]).Nodup)
    (hn : ∀ x ∈ zs, n' x = n x) (hp : ∀ x ∈ zs ++ [b], x ≠ fst zs b → p' x = p x) (h : Rnk n p zs b) : Rnk n' p' zs b := by
  cases zs with
  | nil => trivial
  | cons z zs =>
    refine seg_congr n p n' p' z zs b hn (fun x hx => hp x (by simp only [List.cons_append]; exact List.mem_cons_of_mem _ hx) ?_) h
    intro he
    simp only [fst] at he
    rw [he] at hx
    simp only [List.cons_append, List.nodup_cons] at hnd
    exact hnd.1 hx

theorem nodup_rot (b : Addr) (zs : List Addr) (h : (b :: zs).Nodup) : (zs ++ [b]).Nodup := by
  have := List.nodup_cons.mp h
  rw [List.nodup_append]
  refine ⟨this.2, by simp, ?_⟩
  intro x hx y hy he
  simp at hy
  subst hy he
  exact this.1 hx

/-- The ring of a buffer `hd` with the elements `xs`. -/
structure Ring (h : Heap) (hd : Addr) (xs : List Addr) : Prop where
  seg : Seg h.next h.prev hd xs hd
  nodup : (hd :: xs).Nodup
  valid : ∀ x ∈ hd :: xs, h.valid x = true
  qlen : h.w0 hd = xs.length % szMod
  total : h.w1 hd = (xs.map h.w1).sum % szMod

theorem szAdd_mod (a b : Nat) : szAdd (a % szMod) b = (a + b) % szMod := by
  unfold szAdd; rw [Nat.mod_add_mod]

theorem szSub_mod (a b : Nat) : szSub ((a + b) % szMod) b = a % szMod := by
  unfold szSub
  have hm : szMod = 2 ^ 64 := rfl
  rw [hm]
  omega

theorem setNext_ok (h : Heap) (a v : Addr) (hv : h.valid a = true) : setNext h a v = some { h with next := upd h.next a v } := by
  simp [setNext, hv]
theorem setPrev_ok (h : Heap) (a v : Addr) (hv : h.valid a = true) : setPrev h a v = some { h with prev := upd h.prev a v } := by
  simp [setPrev, hv]
theorem setW0_ok (h : Heap) (a v : Addr) (hv : h.valid a = true) : setW0 h a v = some { h with w0 := upd h.w0 a v } := by
  simp [setW0, hv]
theorem setW1_ok (h : Heap) (a v : Addr) (hv : h.valid a = true) : setW1 h a v = some { h with w1 := upd h.w1 a v } := by
  simp [setW1, hv]
theorem getNext_ok (h : Heap) (a : Addr) (hv : h.valid a = true) : getNext h a = some (h.next a) := by simp [getNext, hv]
theorem getPrev_ok (h : Heap) (a : Addr) (hv : h.valid a = true) : getPrev h a = some (h.prev a) := by simp [getPrev, hv]
theorem getW0_ok (h : Heap) (a : Addr) (hv : h.valid a = true) : getW0 h a = some (h.w0 a) := by simp [getW0, hv]
theorem getW1_ok (h : Heap) (a : Addr) (hv : h.valid a = true) : getW1 h a = some (h.w1 a) := by simp [getW1, hv]

/-- What an operation on the rings `as` leaves alone. -/
structure Frame (h h' : Heap) (inv : Addr → Prop) (heads : Addr → Prop) : Prop where
  valid : h'.valid = h.valid
  next : ∀ a, ¬ inv a → h'.next a = h.next a
  prev : ∀ a, ¬ inv a → h'.prev a = h.prev a
  w0 : ∀ a, ¬ heads a → h'.w0 a = h.w0 a
  w1 : ∀ a, ¬ heads a → h'.w1 a = h.w1 a

theorem sum_map_congr (f g : Addr → Nat) (xs : List Addr) (h : ∀ x ∈ xs, f x = g x) : (xs.map f).sum = (xs.map g).sum := by
  rw [List.map_congr_left h]

/-- A ring that is not involved stays. -/
theorem ring_frame (h h' : Heap) (inv heads : Addr → Prop) (hf : Frame h h' inv heads) (hd : Addr) (xs : List Addr) (hr : Ring h hd xs)
    (h1 : ∀ a ∈ hd :: xs, ¬ inv a) (h2 : ∀ a ∈ hd :: xs, ¬ heads a) : Ring h' hd xs where
  seg := seg_congr _ _ _ _ _ _ _ (fun x hx => hf.next x (h1 x hx))
    (fun x hx => hf.prev x (h1 x (by simp at hx ⊢; tauto))) hr.seg
  nodup := hr.nodup
  valid := by intro x hx; rw [hf.valid]; exact hr.valid x hx
  qlen := by rw [hf.w0 hd (h2 hd (by simp))]; exact hr.qlen
  total := by
    rw [hf.w1 hd (h2 hd (by simp)), sum_map_congr h'.w1 h.w1 xs (fun x hx => hf.w1 x (h2 x (List.mem_cons_of_mem _ hx)))]
    exact hr.total

theorem insert_eq (h : Heap) (wbh new prv nxt : Addr) (h1 : h.valid wbh = true) (h2 : h.valid new = true) (h3 : h.valid prv = true)
    (h4 : h.valid nxt = true) :
    insert h wbh new prv nxt = some
      { valid := h.valid, next := upd (upd h.next new nxt) prv new, prev := upd (upd h.prev new prv) nxt new,
        w0 := upd h.w0 wbh (szAdd (h.w0 wbh) 1), w1 := upd h.w1 wbh (szAdd (h.w1 wbh) (h.w1 new)) } := by
  unfold insert
  simp only [setNext_ok, setPrev_ok, setW0_ok, setW1_ok, getW0_ok, getW1_ok, h1, h2, h3, h4, Option.bind_eq_bind, Option.bind_some]

@[simp] theorem fst_cons (z : Addr) (zs : List Addr) (b : Addr) : fst (z :: zs) b = z := rfl
@[simp] theorem fst_nil (b : Addr) : fst [] b = b := rfl
@[simp] theorem lst_nil (b : Addr) : lst b [] = b := rfl

theorem lst_mem_ring (hd : Addr) (ys zs : List Addr) : lst hd ys ∈ hd :: (ys ++ zs) := by
  have := lst_mem hd ys; simp at this ⊢; tauto

theorem fst_mem_ring (hd : Addr) (ys zs : List Addr) : fst zs hd ∈ hd :: (ys ++ zs) := by
  have := fst_mem zs hd; simp at this ⊢; tauto

/-- Consequences of the absence of duplicates. -/
theorem nodup_parts (hd : Addr) (ys zs : List Addr) (hnd : (hd :: (ys ++ zs)).Nodup) :
    (hd :: ys).Nodup ∧ (zs ++ [hd]).Nodup ∧ (∀ a ∈ hd :: ys, ∀ b ∈ zs, a ≠ b) ∧ (∀ x ∈ ys, x ≠ fst zs hd) ∧
      (∀ x ∈ zs, x ≠ lst hd ys) := by
  rw [← List.cons_append] at hnd
  obtain ⟨h1, h2, h3⟩ := List.nodup_append.mp hnd
  refine ⟨h1, ?_, h3, ?_, ?_⟩
  · apply nodup_rot
    rw [List.nodup_cons]
    exact ⟨fun hm => h3 hd (by simp) hd hm rfl, h2⟩
  · intro x hx e
    have := fst_mem zs hd
    rw [← e] at this
    simp at this
    rcases this with h4 | h4
    · exact h3 x (List.mem_cons_of_mem _ hx) x h4 rfl
    · subst h4; exact (List.nodup_cons.mp h1).1 hx
  · intro x hx e
    exact h3 _ (lst_mem hd ys) x hx e.symm

theorem seg_insert (n p : Addr → Addr) (hd new : Addr) (ys zs : List Addr) (hnd : (hd :: (ys ++ zs)).Nodup)
    (hfresh : new ∉ hd :: (ys ++ zs)) (h : Seg n p hd (ys ++ zs) hd) :
    Seg (upd (upd n new (fst zs hd)) (lst hd ys) new) (upd (upd p new (lst hd ys)) (fst zs hd) new) hd (ys ++ new :: zs) hd := by
  obtain ⟨s1, s2, s3, s4⟩ := (seg_split _ _ _ _ _ _).mp h
  obtain ⟨d1, d2, d3, d4, d5⟩ := nodup_parts hd ys zs hnd
  have hnl : new ≠ lst hd ys := fun e => hfresh (e ▸ lst_mem_ring hd ys zs)
  have hnf : new ≠ fst zs hd := fun e => hfresh (e ▸ fst_mem_ring hd ys zs)
  simp only [List.mem_cons, List.mem_append, not_or] at hfresh
  rw [seg_split]
  refine ⟨?_, by simp, ?_, ?_⟩
  · refine lnk_congr _ _ _ _ _ _ d1 ?_ ?_ s1
    · intro x hx hne
      rw [upd_ne _ _ _ _ hne, upd_ne]
      intro e; subst e; simp at hx; tauto
    · intro x hx
      rw [upd_ne _ _ _ _ (d4 x hx), upd_ne]
      intro e; subst e; tauto
  · simp only [fst_cons]; rw [upd_ne _ _ _ _ hnf]; simp
  · show Seg _ _ new zs hd
    rw [seg_start]
    refine ⟨?_, by simp, ?_⟩
    · rw [upd_ne _ _ _ _ hnl]; simp
    · refine rnk_congr _ _ _ _ _ _ d2 ?_ ?_ s4
      · intro x hx
        rw [upd_ne _ _ _ _ (d5 x hx), upd_ne]
        intro e; subst e; tauto
      · intro x hx hne
        rw [upd_ne _ _ _ _ hne, upd_ne]
        intro e; subst e; simp at hx; tauto

theorem seg_unlink (n p : Addr → Addr) (hd e : Addr) (ys zs : List Addr) (hnd : (hd :: (ys ++ e :: zs)).Nodup)
    (h : Seg n p hd (ys ++ e :: zs) hd) :
    n e = fst zs hd ∧ p e = lst hd ys ∧
      Seg (upd n (lst hd ys) (fst zs hd)) (upd p (fst zs hd) (lst hd ys)) hd (ys ++ zs) hd := by
  obtain ⟨s1, s2, s3, s4⟩ := (seg_split _ _ _ _ _ _).mp h
  obtain ⟨s5, s6, s7⟩ := (seg_start _ _ _ _ _).mp (show Seg n p e zs hd from s4)
  have hnd' : (hd :: (ys ++ zs)).Nodup := by
    have : List.Perm (hd :: (ys ++ e :: zs)) (e :: hd :: (ys ++ zs)) := by
      rw [← List.cons_append, ← List.cons_append]; exact List.perm_middle
    rw [this.nodup_iff, List.nodup_cons] at hnd
    exact hnd.2
  obtain ⟨d1, d2, d3, d4, d5⟩ := nodup_parts hd ys zs hnd'
  refine ⟨s5, s3, ?_⟩
  rw [seg_split]
  refine ⟨?_, by simp, by simp, ?_⟩
  · exact lnk_congr _ _ _ _ _ _ d1 (fun x hx hne => upd_ne _ _ _ _ hne) (fun x hx => upd_ne _ _ _ _ (d4 x hx)) s1
  · exact rnk_congr _ _ _ _ _ _ d2 (fun x hx => upd_ne _ _ _ _ (d5 x hx)) (fun x hx hne => upd_ne _ _ _ _ hne) s7

theorem perm_mid (hd e : Addr) (ys zs : List Addr) : List.Perm (hd :: (ys ++ e :: zs)) (e :: hd :: (ys ++ zs)) := by
  rw [← List.cons_append, ← List.cons_append]; exact List.perm_middle

theorem insert_ring (h : Heap) (hd new : Addr) (ys zs : List Addr) (hr : Ring h hd (ys ++ zs)) (hnew : h.valid new = true)
    (hfresh : new ∉ hd :: (ys ++ zs)) :
    ∃ h', insert h hd new (lst hd ys) (fst zs hd) = some h' ∧ Ring h' hd (ys ++ new :: zs) ∧
      Frame h h' (fun a => a ∈ hd :: (ys ++ new :: zs)) (fun a => a = hd) := by
  have hl := lst_mem_ring hd ys zs
  have hf := fst_mem_ring hd ys zs
  have hnd := hr.nodup
  rw [insert_eq h hd new _ _ (hr.valid _ (by simp)) hnew (hr.valid _ hl) (hr.valid _ hf)]
  refine ⟨_, rfl, ⟨seg_insert _ _ _ _ _ _ hnd hfresh hr.seg, ?_, ?_, ?_, ?_⟩, ⟨rfl, ?_, ?_, ?_, ?_⟩⟩
  · rw [(perm_mid hd new ys zs).nodup_iff, List.nodup_cons]
    exact ⟨hfresh, hnd⟩
  · intro x hx
    have : x = new ∨ x ∈ hd :: (ys ++ zs) := by simp at hx ⊢; tauto
    rcases this with rfl | h1
    · exact hnew
    · exact hr.valid x h1
  · simp only [upd_same]
    rw [hr.qlen, szAdd_mod]; simp [Nat.add_assoc]
  · simp only [upd_same]
    rw [hr.total, szAdd_mod, sum_map_congr _ h.w1 (ys ++ new :: zs)]
    · simp; congr 1; omega
    · intro x hx
      apply upd_ne
      intro e; subst e
      have : x = new ∨ x ∈ ys ++ zs := by simp at hx ⊢; tauto
      rcases this with rfl | h1
      · exact hfresh (by simp)
      · exact (List.nodup_cons.mp hnd).1 h1
  · intro a ha
    dsimp only
    simp only [List.mem_cons, List.mem_append, not_or] at ha hl
    rw [upd_ne _ _ _ _ (by intro e; subst e; tauto), upd_ne _ _ _ _ ha.2.2.1]
  · intro a ha
    dsimp only
    simp only [List.mem_cons, List.mem_append, not_or] at ha hf
    rw [upd_ne _ _ _ _ (by intro e; subst e; tauto), upd_ne _ _ _ _ ha.2.2.1]
  · intro a ha; exact upd_ne _ _ _ _ ha
  · intro a ha; exact upd_ne _ _ _ _ ha

theorem unlink_ring (h : Heap) (hd e : Addr) (ys zs : List Addr) (hr : Ring h hd (ys ++ e :: zs)) :
    ∃ h', unlink h hd e = some h' ∧ Ring h' hd (ys ++ zs) ∧
      Frame h h' (fun a => a ∈ hd :: (ys ++ e :: zs)) (fun a => a = hd) := by
  have hnd := hr.nodup
  obtain ⟨u1, u2, u3⟩ := seg_unlink _ _ _ _ _ _ hnd hr.seg
  have hl := lst_mem_ring hd ys (e :: zs)
  have hf : fst zs hd ∈ hd :: (ys ++ e :: zs) := by
    have := fst_mem_ring hd ys zs; simp at this ⊢; tauto
  have v1 := hr.valid hd (by simp)
  have v2 := hr.valid e (by simp)
  have v3 := hr.valid _ hl
  have v4 := hr.valid _ hf
  have hne : e ≠ hd := by intro e1; subst e1; simp at hnd
  have hnd' : (hd :: (ys ++ zs)).Nodup := by
    rw [(perm_mid hd e ys zs).nodup_iff, List.nodup_cons] at hnd
    exact hnd.2
  unfold unlink
  simp only [setNext_ok, setPrev_ok, setW0_ok, setW1_ok, getW0_ok, getW1_ok, getNext_ok, getPrev_ok, v1, v2, v3, v4, u1, u2,
    Option.bind_eq_bind, Option.bind_some]
  refine ⟨_, rfl, ⟨u3, hnd', ?_, ?_, ?_⟩, ⟨rfl, ?_, ?_, ?_, ?_⟩⟩
  · intro x hx
    exact hr.valid x (by simp at hx ⊢; tauto)
  · simp only [upd_same]
    rw [hr.qlen, show (ys ++ e :: zs).length = (ys ++ zs).length + 1 by simp [Nat.add_assoc], szSub_mod]
  · simp only [upd_same]
    rw [hr.total, show ((ys ++ e :: zs).map h.w1).sum = ((ys ++ zs).map h.w1).sum + h.w1 e by simp; omega, szSub_mod,
      sum_map_congr (upd _ _ _) h.w1 (ys ++ zs)]
    intro x hx
    apply upd_ne
    intro e1; subst e1
    exact (List.nodup_cons.mp hnd').1 hx
  · intro a ha
    dsimp only
    rw [upd_ne _ _ _ _ (by intro e1; subst e1; exact ha hl)]
  · intro a ha
    dsimp only
    rw [upd_ne _ _ _ _ (by intro e1; subst e1; exact ha hf)]
  · intro a ha; exact upd_ne _ _ _ _ ha
  · intro a ha; exact upd_ne _ _ _ _ ha

/-- Moving `z :: zs` from the end of the ring `f` to the end of the ring `t`. -/
theorem seg_move (n p n' p' : Addr → Addr) (f t z : Addr) (ys zs ts : List Addr) (hnf : (f :: (ys ++ z :: zs)).Nodup)
    (hnt : (t :: ts).Nodup) (hdis : ∀ a ∈ f :: (ys ++ z :: zs), a ∉ t :: ts)
    (hf : Seg n p f (ys ++ z :: zs) f) (ht : Seg n p t ts t)
    (n1 : n' (lst f ys) = f) (n2 : n' (lst z zs) = t) (n3 : n' (lst t ts) = z)
    (n4 : ∀ x, x ≠ lst f ys → x ≠ lst z zs → x ≠ lst t ts → n' x = n x)
    (p1 : p' f = lst f ys) (p2 : p' t = lst z zs) (p3 : p' z = lst t ts)
    (p4 : ∀ x, x ≠ f → x ≠ t → x ≠ z → p' x = p x) :
    Seg n' p' f ys f ∧ Seg n' p' t (ts ++ z :: zs) t := by
  obtain ⟨s1, s2, s3, s4⟩ := (seg_split _ _ _ _ _ _).mp hf
  obtain ⟨q1, q2, q3⟩ := (seg_end _ _ _ _ _).mp ht
  obtain ⟨r1, r2, r3⟩ := (seg_end _ _ _ _ _).mp (show Seg n p z zs f from s4)
  obtain ⟨d1, d2, d3, d4, d5⟩ := nodup_parts f ys (z :: zs) hnf
  have m1 := lst_mem f ys
  have m2 := lst_mem z zs
  have m3 := lst_mem t ts
  have hnz : (z :: zs).Nodup := by
    rw [← List.cons_append] at hnf; exact (List.nodup_append.mp hnf).2.1
  have hA : ∀ x ∈ f :: ys, x ∉ t :: ts := fun x hx => hdis x (by simp at hx ⊢; tauto)
  have hB : ∀ x ∈ z :: zs, x ∉ t :: ts := fun x hx => hdis x (by simp at hx ⊢; tauto)
  have hC : ∀ x ∈ f :: ys, x ∉ z :: zs := fun x hx hz => d3 x hx x hz rfl
  constructor
  · rw [seg_end]
    refine ⟨?_, n1, p1⟩
    refine lnk_congr _ _ _ _ _ _ d1 ?_ ?_ s1
    · intro x hx hne
      exact n4 x hne (fun e => hC x hx (e ▸ m2)) (fun e => hA x hx (e ▸ m3))
    · intro x hx
      refine p4 x ?_ ?_ ?_
      · intro e; subst e; exact (List.nodup_cons.mp d1).1 hx
      · intro e; subst e; exact hA x (List.mem_cons_of_mem _ hx) (by simp)
      · intro e; subst e; exact hC x (List.mem_cons_of_mem _ hx) (by simp)
  · rw [seg_split]
    refine ⟨?_, n3, p3, ?_⟩
    · refine lnk_congr _ _ _ _ _ _ hnt ?_ ?_ q1
      · intro x hx hne
        exact n4 x (fun e => hA _ m1 (e ▸ hx)) (fun e => hB _ m2 (e ▸ hx)) hne
      · intro x hx
        refine p4 x ?_ ?_ ?_
        · intro e; subst e; exact hA x (by simp) (List.mem_cons_of_mem _ hx)
        · intro e; subst e; exact (List.nodup_cons.mp hnt).1 hx
        · intro e; subst e; exact hB x (by simp) (List.mem_cons_of_mem _ hx)
    · show Seg n' p' z zs t
      rw [seg_end]
      refine ⟨?_, n2, p2⟩
      refine lnk_congr _ _ _ _ _ _ hnz ?_ ?_ r1
      · intro x hx hne
        exact n4 x (fun e => hC _ m1 (e ▸ hx)) hne (fun e => hB x hx (e ▸ m3))
      · intro x hx
        refine p4 x ?_ ?_ ?_
        · intro e; subst e; exact hC x (by simp) (List.mem_cons_of_mem _ hx)
        · intro e; subst e; exact hB x (List.mem_cons_of_mem _ hx) (by simp)
        · intro e; subst e; exact (List.nodup_cons.mp hnz).1 hx

theorem headInit_ring (h : Heap) (hd : Addr) (hv : h.valid hd = true) :
    ∃ h', headInit h hd = some h' ∧ Ring h' hd [] ∧ Frame h h' (fun a => a = hd) (fun a => a = hd) := by
  unfold headInit
  simp only [setNext_ok, setPrev_ok, setW0_ok, setW1_ok, hv, Option.bind_eq_bind, Option.bind_some]
  refine ⟨_, rfl, ⟨⟨by simp, by simp⟩, by simp, by simp [hv], by simp, by simp⟩, ⟨rfl, ?_, ?_, ?_, ?_⟩⟩ <;>
    exact fun a ha => upd_ne _ _ _ _ ha

theorem elementInit_frame (h : Heap) (e d l : Nat) (hv : h.valid e = true) :
    ∃ h', elementInit h e d l = some h' ∧ h'.w0 e = d ∧ h'.w1 e = l ∧ Frame h h' (fun _ => False) (fun a => a = e) := by
  unfold elementInit
  simp only [setW0_ok, setW1_ok, hv, Option.bind_eq_bind, Option.bind_some]
  refine ⟨_, rfl, by simp, by simp, ⟨rfl, fun _ _ => rfl, fun _ _ => rfl, ?_, ?_⟩⟩ <;> exact fun a ha => upd_ne _ _ _ _ ha

theorem ring_next (h : Heap) (hd : Addr) (ys zs : List Addr) (hr : Ring h hd (ys ++ zs)) :
    h.next (lst hd ys) = fst zs hd ∧ h.prev (fst zs hd) = lst hd ys :=
  let s := (seg_split _ _ _ _ _ _).mp hr.seg
  ⟨s.2.1, s.2.2.1⟩

theorem queueEmpty_ring (h : Heap) (hd : Addr) (xs : List Addr) (hr : Ring h hd xs) : queueEmpty h hd = some xs.isEmpty := by
  unfold queueEmpty
  rw [getNext_ok _ _ (hr.valid hd (by simp))]
  have := (ring_next h hd [] xs hr).1
  simp only [lst_nil] at this
  rw [this]
  cases xs with
  | nil => simp
  | cons x xs =>
    have := hr.nodup
    simp only [List.nodup_cons, List.mem_cons, not_or] at this
    have h2 : x ≠ hd := fun e => this.1.1 e.symm
    simp [h2]

theorem queuePeek_ring (h : Heap) (hd : Addr) (xs : List Addr) (hr : Ring h hd xs) : queuePeek h hd = some xs.head? := by
  unfold queuePeek
  rw [getNext_ok _ _ (hr.valid hd (by simp))]
  have := (ring_next h hd [] xs hr).1
  simp only [lst_nil] at this
  rw [this]
  cases xs with
  | nil => simp
  | cons x xs =>
    have := hr.nodup
    simp only [List.nodup_cons, List.mem_cons, not_or] at this
    have h2 : x ≠ hd := fun e => this.1.1 e.symm
    simp [h2]

theorem queueLast_ring (h : Heap) (hd : Addr) (xs : List Addr) (hr : Ring h hd xs) : queueLast h hd = some xs.getLast? := by
  unfold queueLast
  rw [getPrev_ok _ _ (hr.valid hd (by simp))]
  have := (ring_next h hd xs [] (by simpa using hr)).2
  simp only [fst_nil] at this
  rw [this]
  rcases List.eq_nil_or_concat xs with rfl | ⟨ys, y, rfl⟩
  · simp
  · rw [List.concat_eq_append, lst_append]
    have := hr.nodup
    have h2 : y ≠ hd := by
      intro e; subst e; simp at this
    simp [h2]

/-- The counting loop runs over the rest of the ring. -/
theorem tailCount_ring (h : Heap) (hd : Addr) (zs : List Addr) (a : Addr) (hs : Seg h.next h.prev a zs hd) (ha : a ≠ hd)
    (hz : hd ∉ zs) (hv : ∀ x ∈ a :: zs, h.valid x = true) (fuel : Nat) (hfuel : zs.length + 1 < fuel) (len q : Nat) :
    tailCount h hd fuel a (len % szMod) (q % szMod) =
      some ((len + ((a :: zs).map h.w1).sum) % szMod, (q + (a :: zs).length) % szMod) := by
  induction zs generalizing a fuel len q with
  | nil =>
    obtain ⟨f1, rfl⟩ : ∃ f1, fuel = f1 + 2 := ⟨fuel - 2, by simp at hfuel; omega⟩
    rw [tailCount, if_pos ha, getW1_ok _ _ (hv a (by simp)), getNext_ok _ _ (hv a (by simp))]
    simp only [Option.bind_eq_bind, Option.bind_some, hs.1, szAdd_mod]
    rw [tailCount, if_neg (by simp)]
    simp
  | cons z zs ih =>
    obtain ⟨f1, rfl⟩ : ∃ f1, fuel = f1 + 1 := ⟨fuel - 1, by simp at hfuel; omega⟩
    rw [tailCount, if_pos ha, getW1_ok _ _ (hv a (by simp)), getNext_ok _ _ (hv a (by simp))]
    simp only [Option.bind_eq_bind, Option.bind_some, hs.1, szAdd_mod]
    simp only [List.mem_cons, not_or] at hz
    rw [ih z hs.2.2 (fun e => hz.1 e.symm) hz.2 (fun x hx => hv x (List.mem_cons_of_mem _ hx)) f1
      (by simp at hfuel; omega)]
    simp only [List.map_cons, List.sum_cons, List.length_cons]
    congr 2
    · congr 1; omega
    · congr 1; omega

/-- The result of moving `z :: zs` from the ring `f` to the ring `t`. -/
theorem move_rings (h h' : Heap) (f t z : Addr) (ys zs ts : List Addr) (hrf : Ring h f (ys ++ z :: zs)) (hrt : Ring h t ts)
    (hdis : ∀ a ∈ f :: (ys ++ z :: zs), a ∉ t :: ts)
    (hv : h'.valid = h.valid)
    (n1 : h'.next (lst f ys) = f) (n2 : h'.next (lst z zs) = t) (n3 : h'.next (lst t ts) = z)
    (n4 : ∀ x, x ≠ lst f ys → x ≠ lst z zs → x ≠ lst t ts → h'.next x = h.next x)
    (p1 : h'.prev f = lst f ys) (p2 : h'.prev t = lst z zs) (p3 : h'.prev z = lst t ts)
    (p4 : ∀ x, x ≠ f → x ≠ t → x ≠ z → h'.prev x = h.prev x)
    (c1 : h'.w0 f = ys.length % szMod) (c2 : h'.w1 f = (ys.map h.w1).sum % szMod)
    (c3 : h'.w0 t = (ts ++ z :: zs).length % szMod) (c4 : h'.w1 t = ((ts ++ z :: zs).map h.w1).sum % szMod)
    (c5 : ∀ a, ¬ (a = f ∨ a = t) → h'.w0 a = h.w0 a) (c6 : ∀ a, ¬ (a = f ∨ a = t) → h'.w1 a = h.w1 a) :
    Ring h' f ys ∧ Ring h' t (ts ++ z :: zs) ∧
      Frame h h' (fun a => a ∈ f :: (ys ++ z :: zs) ∨ a ∈ t :: ts) (fun a => a = f ∨ a = t) := by
  obtain ⟨g1, g2⟩ := seg_move h.next h.prev h'.next h'.prev f t z ys zs ts hrf.nodup hrt.nodup hdis hrf.seg hrt.seg n1 n2 n3 n4 p1 p2 p3 p4
  have m1 := lst_mem f ys
  have m2 := lst_mem z zs
  have m3 := lst_mem t ts
  have hnf := hrf.nodup
  have hnt := hrt.nodup
  have hft : f ≠ t := fun e => hdis f (by simp) (by simp [e])
  rw [List.nodup_cons] at hnf hnt
  have hnf2 : ys.Nodup ∧ (z :: zs).Nodup := ⟨(List.nodup_append.mp hnf.2).1, (List.nodup_append.mp hnf.2).2.1⟩
  refine ⟨⟨g1, ?_, ?_, c1, ?_⟩, ⟨g2, ?_, ?_, c3, ?_⟩, ⟨hv, ?_, ?_, c5, c6⟩⟩
  · rw [List.nodup_cons]; exact ⟨fun hh => hnf.1 (by simp; tauto), hnf2.1⟩
  · intro x hx; rw [hv]; exact hrf.valid x (by simp at hx ⊢; tauto)
  · rw [c2, sum_map_congr h.w1 h'.w1 ys]
    intro x hx
    refine (c6 x ?_).symm
    rintro (rfl | rfl)
    · exact hnf.1 (by simp; tauto)
    · exact hdis x (by simp; tauto) (by simp)
  · rw [List.nodup_cons, List.nodup_append]
    refine ⟨?_, hnt.2, hnf2.2, ?_⟩
    · intro hh
      rcases List.mem_append.mp hh with h1 | h1
      · exact hnt.1 h1
      · exact hdis t (by simp at h1 ⊢; tauto) (by simp)
    · intro a ha b hb e
      subst e
      exact hdis a (by simp at hb ⊢; tauto) (by simp; tauto)
  · intro x hx
    rw [hv]
    have : x ∈ t :: ts ∨ x ∈ f :: (ys ++ z :: zs) := by simp at hx ⊢; tauto
    rcases this with h1 | h1
    · exact hrt.valid x h1
    · exact hrf.valid x h1
  · rw [c4, sum_map_congr h.w1 h'.w1]
    intro x hx
    refine (c6 x ?_).symm
    rintro (rfl | rfl)
    · rcases List.mem_append.mp hx with h1 | h1
      · exact hdis x (by simp) (List.mem_cons_of_mem _ h1)
      · exact hnf.1 (by simp at h1 ⊢; tauto)
    · rcases List.mem_append.mp hx with h1 | h1
      · exact hnt.1 h1
      · exact hdis x (by simp at h1 ⊢; tauto) (by simp)
  · intro a ha
    simp only [List.mem_cons, List.mem_append, not_or] at ha m1 m2 m3
    refine n4 a ?_ ?_ ?_ <;> (intro e; subst e; tauto)
  · intro a ha
    simp only [List.mem_cons, List.mem_append, not_or] at ha
    refine p4 a ?_ ?_ ?_ <;> tauto

theorem splice_ring (h : Heap) (l t : Addr) (xs ts : List Addr) (hrl : Ring h l xs) (hrt : Ring h t ts)
    (hdis : ∀ a ∈ l :: xs, a ∉ t :: ts) :
    ∃ h', splice h l t = some h' ∧ Ring h' l [] ∧ Ring h' t (ts ++ xs) ∧
      Frame h h' (fun a => a ∈ l :: xs ∨ a ∈ t :: ts) (fun a => a = l ∨ a = t) := by
  unfold splice
  rw [queueEmpty_ring h l xs hrl]
  cases xs with
  | nil =>
    simp only [List.isEmpty_nil, Option.bind_eq_bind, Option.bind_some, if_true, Option.pure_def, List.append_nil]
    exact ⟨h, rfl, hrl, hrt, ⟨rfl, fun _ _ => rfl, fun _ _ => rfl, fun _ _ => rfl, fun _ _ => rfl⟩⟩
  | cons z zs =>
    have m2 := lst_mem z zs
    have m3 := lst_mem t ts
    have e1 := (ring_next h l (z :: zs) [] (by simpa using hrl)).2
    have e2 := (ring_next h l [] (z :: zs) hrl).1
    have e3 := (ring_next h t ts [] (by simpa using hrt)).2
    have nlz := (List.nodup_cons.mp hrl.nodup).1
    simp only [lst_nil, fst_nil, fst_cons, lst] at e1 e2 e3
    have v1 := hrl.valid l (by simp)
    have v2 := hrt.valid t (by simp)
    have v3 := hrl.valid (lst z zs) (List.mem_cons_of_mem _ m2)
    have v4 := hrt.valid (lst t ts) m3
    have v5 := hrl.valid z (by simp)
    have k1 : l ≠ t := fun e => hdis l (by simp) (by simp [e])
    have k2 : lst z zs ≠ lst t ts := fun e => hdis _ (List.mem_cons_of_mem _ m2) (e ▸ m3)
    have k3 : l ≠ lst z zs := fun e => nlz (e ▸ m2)
    have k4 : l ≠ lst t ts := fun e => hdis l (by simp) (e ▸ m3)
    have k5 : z ≠ l := fun e => nlz (by simp [e])
    have k6 : z ≠ t := fun e => hdis z (by simp) (by simp [e])
    simp only [List.isEmpty_cons, Bool.false_eq_true, if_false, setNext_ok, setPrev_ok, setW0_ok, setW1_ok, getW0_ok, getW1_ok,
      getNext_ok, getPrev_ok, headInit, v1, v2, v3, v4, v5, e1, e2, e3, Option.bind_eq_bind, Option.bind_some]
    refine ⟨_, rfl, ?_⟩
    refine move_rings h _ l t z [] zs ts hrl hrt hdis rfl ?_ ?_ ?_ ?_ ?_ ?_ ?_ ?_ ?_ ?_ ?_ ?_ ?_ ?_
    · simp
    · dsimp only; rw [upd_ne _ _ _ _ k3.symm]; simp
    · dsimp only; rw [upd_ne _ _ _ _ k4.symm, upd_ne _ _ _ _ k2.symm]; simp
    · intro x h1 h2 h3
      simp only [lst_nil] at h1
      dsimp only; rw [upd_ne _ _ _ _ h1, upd_ne _ _ _ _ h2, upd_ne _ _ _ _ h3]
    · simp
    · dsimp only; rw [upd_ne _ _ _ _ k1.symm]; simp
    · dsimp only; rw [upd_ne _ _ _ _ k5, upd_ne _ _ _ _ k6]; simp
    · intro x h1 h2 h3
      dsimp only; rw [upd_ne _ _ _ _ h1, upd_ne _ _ _ _ h2, upd_ne _ _ _ _ h3]
    · simp
    · simp
    · dsimp only; rw [upd_ne _ _ _ _ k1.symm, upd_same, hrt.qlen, hrl.qlen, szAdd_mod, Nat.add_mod_mod]; simp
    · dsimp only; rw [upd_ne _ _ _ _ k1.symm, upd_same, hrt.total, hrl.total, szAdd_mod, Nat.add_mod_mod]; simp
    · intro a ha; simp only [not_or] at ha; dsimp only; rw [upd_ne _ _ _ _ ha.1, upd_ne _ _ _ _ ha.2]
    · intro a ha; simp only [not_or] at ha; dsimp only; rw [upd_ne _ _ _ _ ha.1, upd_ne _ _ _ _ ha.2]

/-- Splitting off `z :: zs`, given by its first element. -/
theorem split_ring (h : Heap) (f t z w : Addr) (ys zs ts : List Addr) (hrf : Ring h f (ys ++ z :: zs)) (hrt : Ring h t ts)
    (hdis : ∀ a ∈ f :: (ys ++ z :: zs), a ∉ t :: ts) (fuel : Nat) (hfuel : zs.length + 1 < fuel)
    (hw : w = z ∨ (w = f ∧ ys = [])) :
    ∃ h', splitAndAppend fuel h t f w = some h' ∧ Ring h' f ys ∧ Ring h' t (ts ++ z :: zs) ∧
      Frame h h' (fun a => a ∈ f :: (ys ++ z :: zs) ∨ a ∈ t :: ts) (fun a => a = f ∨ a = t) := by
  have hnd := hrf.nodup
  have nlz := (List.nodup_cons.mp hnd).1
  unfold splitAndAppend
  rw [queueEmpty_ring h f _ hrf]
  have hne : (ys ++ z :: zs).isEmpty = false := by simp
  have m1 := lst_mem f ys
  have m2 := lst_mem z zs
  have m3 := lst_mem t ts
  have e0 := (ring_next h f [] (ys ++ z :: zs) hrf).1
  have e1 := (ring_next h f (ys ++ z :: zs) [] (by simpa using hrf)).2
  have e2 := (ring_next h f ys (z :: zs) hrf)
  have e3 := (ring_next h t ts [] (by simpa using hrt)).2
  simp only [lst_nil, fst_nil, fst_cons, lst_append] at e0 e1 e2 e3
  have k5 : z ≠ f := fun e => nlz (by simp [e])
  have hsel : (if f = w then fst (ys ++ z :: zs) f else w) = z := by
    rcases hw with rfl | ⟨rfl, rfl⟩
    · rw [if_neg k5.symm]
    · simp
  have v1 := hrf.valid f (by simp)
  have v2 := hrt.valid t (by simp)
  have v3 := hrf.valid (lst z zs) (by simp at m2 ⊢; tauto)
  have v4 := hrt.valid (lst t ts) m3
  have v5 := hrf.valid z (by simp)
  have v6 := hrf.valid (lst f ys) (by simp at m1 ⊢; tauto)
  have hseg : Seg h.next h.prev z zs f := ((seg_split _ _ _ _ _ _).mp hrf.seg).2.2.2
  have hcnt := tailCount_ring h f zs z hseg k5 (fun hh => nlz (by simp; tauto)) (fun x hx => hrf.valid x (by simp at hx ⊢; tauto)) fuel hfuel 0 0
  simp only [Nat.zero_mod, Nat.zero_add] at hcnt
  have mm1 : lst f ys ∈ f :: (ys ++ z :: zs) := lst_mem_ring f ys (z :: zs)
  have mm2 : lst z zs ∈ f :: (ys ++ z :: zs) := by simp at m2 ⊢; tauto
  obtain ⟨d1, d2, d3, d4, d5⟩ := nodup_parts f ys (z :: zs) hnd
  have k1 : f ≠ t := fun e => hdis f (by simp) (by simp [e])
  have k2 : lst z zs ≠ lst t ts := fun e => hdis _ mm2 (e ▸ m3)
  have k3 : lst f ys ≠ lst z zs := d3 _ m1 _ m2
  have k4 : lst f ys ≠ lst t ts := fun e => hdis _ mm1 (e ▸ m3)
  have k6 : z ≠ t := fun e => hdis z (by simp) (by simp [e])
  have k7 : f ≠ z := k5.symm
  simp only [hne, Bool.false_eq_true, if_false, setNext_ok, setPrev_ok, setW0_ok, setW1_ok, getW0_ok, getW1_ok,
      getNext_ok, getPrev_ok, v1, v2, v3, v4, v5, v6, e0, e1, e2, e3, hsel, hcnt, Option.bind_eq_bind, Option.bind_some]
  refine ⟨_, rfl, ?_⟩
  refine move_rings h _ f t z ys zs ts hrf hrt hdis rfl ?_ ?_ ?_ ?_ ?_ ?_ ?_ ?_ ?_ ?_ ?_ ?_ ?_ ?_
  · dsimp only; rw [upd_ne _ _ _ _ k4, upd_ne _ _ _ _ k3]; simp
  · dsimp only; rw [upd_ne _ _ _ _ k2]; simp
  · simp
  · intro x h1 h2 h3
    dsimp only; rw [upd_ne _ _ _ _ h3, upd_ne _ _ _ _ h2, upd_ne _ _ _ _ h1]
  · dsimp only; rw [upd_ne _ _ _ _ k7, upd_ne _ _ _ _ k1]; simp
  · dsimp only; rw [upd_ne _ _ _ _ k6.symm]; simp
  · simp
  · intro x h1 h2 h3
    dsimp only; rw [upd_ne _ _ _ _ h3, upd_ne _ _ _ _ h2, upd_ne _ _ _ _ h1]
  · dsimp only
    rw [upd_ne _ _ _ _ k1, upd_same, hrf.qlen, List.length_append]
    have : szSub ((ys.length + (z :: zs).length) % szMod) ((z :: zs).length % szMod) = ys.length % szMod := by
      rw [← szSub_mod ys.length (z :: zs).length]; unfold szSub; rw [Nat.mod_mod]
    exact this
  · dsimp only
    rw [upd_ne _ _ _ _ k1, upd_same, hrf.total, List.map_append, List.sum_append]
    rw [← szSub_mod (ys.map h.w1).sum ((z :: zs).map h.w1).sum]; unfold szSub; rw [Nat.mod_mod]
  · dsimp only
    rw [upd_same, upd_ne _ _ _ _ k1.symm, hrt.qlen, szAdd_mod, Nat.add_mod_mod, List.length_append]
  · dsimp only
    rw [upd_same, upd_ne _ _ _ _ k1.symm, hrt.total, szAdd_mod, Nat.add_mod_mod, List.map_append, List.sum_append]
  · intro a ha; simp only [not_or] at ha; dsimp only; rw [upd_ne _ _ _ _ ha.2, upd_ne _ _ _ _ ha.1]
  · intro a ha; simp only [not_or] at ha; dsimp only; rw [upd_ne _ _ _ _ ha.2, upd_ne _ _ _ _ ha.1]

end Cio.WB
