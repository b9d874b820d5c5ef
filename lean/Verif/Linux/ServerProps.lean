import Verif.Linux.Server
/-
Property theorems for listening sockets on Linux (C94).
-/
namespace Cio.Linux.Server

/-! ### Specification -/

/-- What becomes of a connection `c` that arrived: a client with it was handed to the application. -/
def handed (c : Nat) (l : List Obs) : Nat := l.countP fun o => match o with | .handler _ (some d) => d = c | _ => false

/-- It was closed by the library. -/
def drops (c : Nat) (l : List Obs) : Nat := l.countP fun o => match o with | .dropped d => d = c | _ => false

/-- Nothing is left to be done for the connections that arrived. -/
def Settled (l : List Obs) : Prop := ∀ c, .arrived c ∈ l → handed c l + drops c l = 1

/-- Rules of use: `cio_server_socket_accept` is called once; the server socket is not closed by a handler that is told of a failed connection. -/
def Rules (s : St) : Move → Prop
  | .accept _ _ _ => ∀ e, .accepting ∉ s.log ∧ .refused e ∉ s.log
  | .close => Settled s.log
  | _ => True

inductive Reach (R : St → Move → Prop) : St → Prop where
  | init : Reach R initial
  | step {s s' : St} (m : Move) : Reach R s → R s m → step s m = some s' → Reach R s'

/-! ### Invariant -/

/-- The connections that are being dealt with. -/
def pending (k : List Item) : List Nat := k.filterMap fun i => match i with | .drop c | .dropAndFree c => some c | .user => none

structure Inv (s : St) : Prop where
  fresh : ∀ c, s.next ≤ c → handed c s.log = 0 ∧ drops c s.log = 0 ∧ .arrived c ∉ s.log ∧ c ∉ pending s.stack
  once : ∀ c, .arrived c ∈ s.log → handed c s.log + drops c s.log + (pending s.stack).count c = 1
  pend : ∀ c ∈ pending s.stack, .arrived c ∈ s.log
  dead : s.alive = false ↔ .closeCalled ∈ s.log
  out : s.alive = false → s.inKernel = false
  closes : s.log.count .fdClosed = s.log.count .closeCalled ∧ s.log.count .hook = s.log.count .closeCalled ∧ s.log.count .closeCalled ≤ 1
  silent : ∀ p o post, s.log = p ++ o :: post → (∃ e c, o = .handler e c) ∨ (∃ c, o = .arrived c) → .closeCalled ∉ p
  report : ∀ p c post, s.log = p ++ .arrived c :: post → ∃ e cl post', post = .handler e cl :: post' ∧ (cl = none ∨ e = SUCCESS ∧ cl = some c)

theorem split_append {l add p post : List Obs} {o : Obs} (h : l ++ add = p ++ o :: post) :
    (∃ post1, l = p ++ o :: post1 ∧ post = post1 ++ add) ∨ ∃ p2, p = l ++ p2 ∧ add = p2 ++ o :: post := by
  rcases List.append_eq_append_iff.mp h with ⟨a, h1, h2⟩ | ⟨a, h1, h2⟩
  · exact .inr ⟨a, h1, h2⟩
  · cases a with
    | nil => exact .inr ⟨[], by rw [h1]; simp, by simpa using h2.symm⟩
    | cons x a =>
      rw [List.cons_append] at h2
      injection h2 with h2 h3
      subst h2
      exact .inl ⟨a, h1, h3⟩

theorem handed_append (c : Nat) (a b : List Obs) : handed c (a ++ b) = handed c a + handed c b := List.countP_append
theorem drops_append (c : Nat) (a b : List Obs) : drops c (a ++ b) = drops c a + drops c b := List.countP_append

theorem inv_init : Inv initial := by
  refine ⟨fun c _ => ⟨rfl, rfl, ?_, ?_⟩, fun c h => ?_, fun c h => ?_, ?_, ?_, ⟨rfl, rfl, Nat.zero_le _⟩, fun p o post h => ?_, fun p c post h => ?_⟩
  · simp [initial]
  · simp [initial, pending]
  · simp [initial] at h
  · simp [initial, pending] at h
  · simp [initial]
  · simp [initial]
  · simp [initial] at h
  · simp [initial] at h

/-- Something is added to the log that is no news about connections and closing. -/
theorem Inv.neutral {s s' : St} {add : List Obs} (h : Inv s) (hl : s'.log = s.log ++ add) (hadd : ∀ o ∈ add, o = .accepting ∨ ∃ e, o = .refused e ∨ ∃ c, o = .freed c)
    (hn : s'.next = s.next) (hp : pending s'.stack = pending s.stack) (ha : s'.alive = s.alive) (ho : s.alive = false → s'.inKernel = false) : Inv s' := by
  have h0 : ∀ o, (o ∈ add → False) → o ∈ s'.log → o ∈ s.log := fun o q r => by rw [hl] at r; exact (List.mem_append.mp r).resolve_right q
  have hh : ∀ c, handed c add = 0 := fun c => by
    unfold handed; rw [List.countP_eq_zero]
    intro o q; rcases hadd o q with rfl | ⟨e, rfl | ⟨c, rfl⟩⟩ <;> simp
  have hd : ∀ c, drops c add = 0 := fun c => by
    unfold drops; rw [List.countP_eq_zero]
    intro o q; rcases hadd o q with rfl | ⟨e, rfl | ⟨c, rfl⟩⟩ <;> simp
  have hnot : ∀ o, (o = .closeCalled ∨ o = .fdClosed ∨ o = .hook ∨ (∃ e c, o = .handler e c) ∨ ∃ c, o = .arrived c) → o ∉ add := by
    intro o q r
    rcases hadd o r with rfl | ⟨e, rfl | ⟨c, rfl⟩⟩ <;> rcases q with q | q | q | ⟨_, _, q⟩ | ⟨_, q⟩ <;> cases q
  have hc : ∀ o, (o = .closeCalled ∨ o = .fdClosed ∨ o = .hook) → s'.log.count o = s.log.count o := by
    intro o q
    rw [hl, List.count_append, List.count_eq_zero.mpr (hnot o (by rcases q with q | q | q <;> simp [q])), Nat.add_zero]
  refine ⟨fun c q => ?_, fun c q => ?_, fun c q => ?_, ?_, fun q => ho (by rw [← ha]; exact q), ?_, fun p o post q r => ?_, fun p c post q => ?_⟩
  · obtain ⟨q1, q2, q3, q4⟩ := h.fresh c (by rw [← hn]; exact q)
    refine ⟨by rw [hl, handed_append, q1, hh], by rw [hl, drops_append, q2, hd], fun r => q3 (h0 _ (hnot _ (by simp)) r), by rw [hp]; exact q4⟩
  · rw [hl, handed_append, drops_append, hh, hd, hp]
    exact h.once c (h0 _ (hnot _ (by simp)) q)
  · rw [hl]; exact List.mem_append_left _ (h.pend c (by rw [← hp]; exact q))
  · rw [ha, h.dead, hl]
    exact ⟨fun q => List.mem_append_left _ q, fun q => (List.mem_append.mp q).resolve_right (hnot _ (by simp))⟩
  · rw [hc _ (.inl rfl), hc _ (.inr (.inl rfl)), hc _ (.inr (.inr rfl))]; exact h.closes
  · rw [hl] at q
    rcases split_append q with ⟨p1, q1, -⟩ | ⟨p2, -, q2⟩
    · exact h.silent p o p1 q1 r
    · exact absurd (by rw [q2]; simp) (hnot o (by rcases r with r | r <;> simp [r]))
  · rw [hl] at q
    rcases split_append q with ⟨p1, q1, q2⟩ | ⟨p2, -, q2⟩
    · obtain ⟨e, cl, p3, q3, q4⟩ := h.report p c p1 q1
      exact ⟨e, cl, p3 ++ add, by rw [q2, q3]; rfl, q4⟩
    · exact absurd (by rw [q2]; simp) (hnot (.arrived c) (by simp))

/-- `cio_server_socket_close`. -/
theorem Inv.close {s : St} (h : Inv s) (ha : s.alive = true) : Inv (close s) := by
  have hnc : .closeCalled ∉ s.log := fun q => by rw [h.dead.mpr q] at ha; cases ha
  have h0 : s.log.count .closeCalled = 0 := List.count_eq_zero.mpr hnc
  have hp : pending (Server.close s).stack = pending s.stack := rfl
  have hl : (Server.close s).log = s.log ++ [.closeCalled, .fdClosed, .hook] := rfl
  have hmem : ∀ c, .arrived c ∈ (Server.close s).log → .arrived c ∈ s.log := fun c q => by rw [hl] at q; simpa using q
  have hh : ∀ c, handed c (Server.close s).log = handed c s.log := fun c => by rw [hl, handed_append]; rfl
  have hd : ∀ c, drops c (Server.close s).log = drops c s.log := fun c => by rw [hl, drops_append]; rfl
  refine ⟨fun c q => ?_, fun c q => ?_, fun c q => ?_, ⟨fun _ => by rw [hl]; simp, fun _ => rfl⟩, fun _ => rfl, ?_, fun p o post q r => ?_, fun p c post q => ?_⟩
  · obtain ⟨q1, q2, q3, q4⟩ := h.fresh c q
    exact ⟨by rw [hh]; exact q1, by rw [hd]; exact q2, fun r => q3 (hmem c r), by rw [hp]; exact q4⟩
  · rw [hh, hd, hp]; exact h.once c (hmem c q)
  · rw [hl]; exact List.mem_append_left _ (h.pend c (by rw [← hp]; exact q))
  · obtain ⟨q1, q2, -⟩ := h.closes
    rw [hl, List.count_append, List.count_append, List.count_append, q1, q2, h0]
    decide
  · rw [hl] at q
    rcases split_append q with ⟨p1, q1, -⟩ | ⟨p2, q1, q2⟩
    · exact h.silent p o p1 q1 r
    · have : o ∈ [Obs.closeCalled, .fdClosed, .hook] := by rw [q2]; simp
      rcases r with ⟨e, c, rfl⟩ | ⟨c, rfl⟩ <;> simp at this
  · rw [hl] at q
    rcases split_append q with ⟨p1, q1, q2⟩ | ⟨p2, -, q2⟩
    · obtain ⟨e, cl, p3, q3, q4⟩ := h.report p c p1 q1
      exact ⟨e, cl, p3 ++ [.closeCalled, .fdClosed, .hook], by rw [q2, q3]; rfl, q4⟩
    · have : Obs.arrived c ∈ [Obs.closeCalled, .fdClosed, .hook] := by rw [q2]; simp
      simp at this

/-- accept4 failed. -/
theorem Inv.failed {s : St} (h : Inv s) (hk : s.inKernel = true) (e : Err) : Inv (acceptCallback s (.error e)) := by
  have ha : s.alive = true := by
    cases q : s.alive with
    | true => rfl
    | false => rw [h.out q] at hk; cases hk
  have hnc : .closeCalled ∉ s.log := fun q => by rw [h.dead.mpr q] at ha; cases ha
  have hl : (acceptCallback s (.error e)).log = s.log ++ [.handler e none] := rfl
  have hp : pending (acceptCallback s (.error e)).stack = pending s.stack := rfl
  have hmem : ∀ c, .arrived c ∈ (acceptCallback s (.error e)).log → .arrived c ∈ s.log := fun c q => by rw [hl] at q; simpa using q
  have hh : ∀ c, handed c (acceptCallback s (.error e)).log = handed c s.log := fun c => by rw [hl, handed_append]; rfl
  have hd : ∀ c, drops c (acceptCallback s (.error e)).log = drops c s.log := fun c => by rw [hl, drops_append]; rfl
  refine ⟨fun c q => ?_, fun c q => ?_, fun c q => ?_, ?_, h.out, ?_, fun p o post q r => ?_, fun p c post q => ?_⟩
  · obtain ⟨q1, q2, q3, q4⟩ := h.fresh c q
    exact ⟨by rw [hh]; exact q1, by rw [hd]; exact q2, fun r => q3 (hmem c r), by rw [hp]; exact q4⟩
  · rw [hh, hd, hp]; exact h.once c (hmem c q)
  · rw [hl]; exact List.mem_append_left _ (h.pend c (by rw [← hp]; exact q))
  · rw [hl]
    refine ⟨fun q => List.mem_append_left _ (h.dead.mp q), fun q => h.dead.mpr (by simpa using q)⟩
  · obtain ⟨q1, q2, q3⟩ := h.closes
    rw [hl]
    simp only [List.count_append, List.count_singleton, beq_iff_eq, reduceCtorEq, if_false, Nat.add_zero]
    exact ⟨q1, q2, q3⟩
  · rw [hl] at q
    rcases split_append q with ⟨p1, q1, -⟩ | ⟨p2, q1, q2⟩
    · exact h.silent p o p1 q1 r
    · cases p2 with
      | nil => rw [q1, List.append_nil]; exact hnc
      | cons x p2 => simp at q2
  · rw [hl] at q
    rcases split_append q with ⟨p1, q1, q2⟩ | ⟨p2, -, q2⟩
    · obtain ⟨e', cl, p3, q3, q4⟩ := h.report p c p1 q1
      exact ⟨e', cl, p3 ++ [.handler e none], by rw [q2, q3]; rfl, q4⟩
    · have : Obs.arrived c ∈ [Obs.handler e none] := by rw [q2]; simp
      simp at this

/-- A connection. -/
theorem Inv.connection {s s' : St} (h : Inv s) (hk : s.inKernel = true) (e : Err) (cl : Option Nat) (hl : s'.log = s.log ++ [.arrived s.next, .handler e cl]) (hn : s'.next = s.next + 1)
    (ha' : s'.alive = s.alive) (hk' : s'.inKernel = s.inKernel)
    (hcase : (cl = none ∧ pending s'.stack = s.next :: pending s.stack) ∨ (cl = some s.next ∧ e = SUCCESS ∧ pending s'.stack = pending s.stack)) : Inv s' := by
  have ha : s.alive = true := by
    cases q : s.alive with
    | true => rfl
    | false => rw [h.out q] at hk; cases hk
  have hnc : .closeCalled ∉ s.log := fun q => by rw [h.dead.mpr q] at ha; cases ha
  obtain ⟨f1, f2, f3, f4⟩ := h.fresh s.next (Nat.le_refl _)
  have hd : ∀ c, drops c s'.log = drops c s.log := fun c => by rw [hl, drops_append]; rfl
  have hh : ∀ c, handed c s'.log = handed c s.log + if cl = some c then 1 else 0 := fun c => by
    rw [hl, handed_append]
    rcases hcase with ⟨rfl, -⟩ | ⟨rfl, -, -⟩
    · rfl
    · by_cases hc : s.next = c <;> simp [handed, hc]
  have hp : ∀ c, (pending s'.stack).count c = (pending s.stack).count c + if cl = none ∧ c = s.next then 1 else 0 := fun c => by
    rcases hcase with ⟨rfl, q⟩ | ⟨rfl, -, q⟩
    · rw [q, List.count_cons]
      by_cases r : s.next = c
      · subst r; simp
      · have r' : c ≠ s.next := fun e => r e.symm
        simp [r, r']
    · rw [q]; simp
  have hmem : ∀ c, .arrived c ∈ s'.log ↔ .arrived c ∈ s.log ∨ c = s.next := fun c => by rw [hl]; simp
  refine ⟨fun c q => ?_, fun c q => ?_, fun c q => ?_, ?_, (fun q => by rw [ha', ha] at q; cases q), ?_, fun p o post q r => ?_, fun p c post q => ?_⟩
  · rw [hn] at q
    obtain ⟨q1, q2, q3, q4⟩ := h.fresh c (by omega)
    have hne : c ≠ s.next := by omega
    refine ⟨?_, by rw [hd]; exact q2, fun r => ((hmem c).mp r).elim q3 hne, ?_⟩
    · rw [hh, q1]
      rcases hcase with ⟨rfl, -⟩ | ⟨rfl, -, -⟩
      · rfl
      · rw [if_neg (fun q => hne (by injection q with q; exact q.symm))]
    · rcases hcase with ⟨-, q⟩ | ⟨-, -, q⟩
      · rw [q]; simp [hne, q4]
      · rw [q]; exact q4
  · rw [hh, hd, hp]
    rcases (hmem c).mp q with q | q
    · have hne : c ≠ s.next := fun r => f3 (by rw [← r]; exact q)
      have := h.once c q
      rw [if_neg (c := cl = none ∧ c = s.next) (fun r => hne r.2)]
      rw [if_neg (c := cl = some c) (fun r => by
        rcases hcase with ⟨rfl, -⟩ | ⟨rfl, -, -⟩
        · cases r
        · injection r with r; exact hne r.symm)]
      omega
    · subst q
      rw [f1, f2, List.count_eq_zero.mpr f4]
      rcases hcase with ⟨rfl, -⟩ | ⟨rfl, -, -⟩ <;> simp
  · rw [hmem]
    rcases hcase with ⟨-, r⟩ | ⟨-, -, r⟩
    · rw [r] at q
      rcases List.mem_cons.mp q with q | q
      · exact .inr q
      · exact .inl (h.pend c q)
    · rw [r] at q; exact .inl (h.pend c q)
  · rw [ha', hl]
    refine ⟨fun q => List.mem_append_left _ (h.dead.mp q), fun q => h.dead.mpr (by simpa using q)⟩
  · obtain ⟨q1, q2, q3⟩ := h.closes
    rw [hl]
    simp only [List.count_append, List.count_cons, List.count_nil, beq_iff_eq, reduceCtorEq, if_false, Nat.add_zero]
    exact ⟨q1, q2, q3⟩
  · rw [hl] at q
    rcases split_append q with ⟨p1, q1, -⟩ | ⟨p2, q1, q2⟩
    · exact h.silent p o p1 q1 r
    · rw [q1]
      intro hm
      rcases List.mem_append.mp hm with hm | hm
      · exact hnc hm
      · have : Obs.closeCalled ∈ [Obs.arrived s.next, .handler e cl] := by rw [q2]; exact List.mem_append_left _ hm
        simp at this
  · rw [hl] at q
    rcases split_append q with ⟨p1, q1, q2⟩ | ⟨p2, -, q2⟩
    · obtain ⟨e', cl', p3, q3, q4⟩ := h.report p c p1 q1
      exact ⟨e', cl', p3 ++ [.arrived s.next, .handler e cl], by rw [q2, q3]; rfl, q4⟩
    · cases p2 with
      | nil =>
        rw [List.nil_append] at q2
        injection q2 with q2 q3
        injection q2 with q2
        subst q2
        refine ⟨e, cl, [], q3.symm, ?_⟩
        rcases hcase with ⟨r, -⟩ | ⟨r, r2, -⟩
        · exact .inl r
        · exact .inr ⟨r2, r⟩
      | cons x p2 =>
        exfalso
        injection q2 with _ q2
        cases p2 with
        | nil => injection q2 with q2; cases q2
        | cons y p2 => injection q2 with _ q2; cases p2 <;> cases q2

/-- A connection is closed behind the handler. -/
theorem Inv.dropped {s s' : St} {c : Nat} {k : List Item} (h : Inv s) (hp : pending s.stack = c :: pending k) (hs : s'.stack = k) (hl : s'.log = s.log ++ [.dropped c]) (hn : s'.next = s.next)
    (ha' : s'.alive = s.alive) (hk' : s'.inKernel = s.inKernel) : Inv s' := by
  have hh : ∀ c, handed c s'.log = handed c s.log := fun c => by rw [hl, handed_append]; rfl
  have hd : ∀ d, drops d s'.log = drops d s.log + if d = c then 1 else 0 := fun d => by
    rw [hl, drops_append]
    by_cases r : c = d
    · subst r; simp [drops]
    · have r' : d ≠ c := fun e => r e.symm
      simp [drops, r, r']
  have hc : ∀ d, (pending s.stack).count d = (pending k).count d + if d = c then 1 else 0 := fun d => by
    rw [hp, List.count_cons]
    by_cases r : c = d
    · subst r; simp
    · have r' : d ≠ c := fun e => r e.symm
      simp [r, r']
  have hmem : ∀ c, .arrived c ∈ s'.log ↔ .arrived c ∈ s.log := fun c => by rw [hl]; simp
  have hcn : c < s.next := by
    have := h.pend c (by rw [hp]; exact List.mem_cons_self)
    apply Classical.byContradiction
    intro q
    exact (h.fresh c (by omega)).2.2.1 this
  refine ⟨fun d q => ?_, fun d q => ?_, fun d q => ?_, ?_, fun q => by rw [hk']; exact h.out (by rw [← ha']; exact q), ?_, fun p o post q r => ?_, fun p d post q => ?_⟩
  · rw [hn] at q
    obtain ⟨q1, q2, q3, q4⟩ := h.fresh d q
    refine ⟨by rw [hh]; exact q1, by rw [hd, q2, if_neg (by omega)], fun r => q3 ((hmem d).mp r), ?_⟩
    rw [hs]; rw [hp] at q4; exact fun r => q4 (List.mem_cons_of_mem _ r)
  · have := h.once d ((hmem d).mp q)
    rw [hc] at this
    rw [hh, hd, hs]; omega
  · rw [hs] at q; rw [hmem]; exact h.pend d (by rw [hp]; exact List.mem_cons_of_mem _ q)
  · rw [ha', hl]
    refine ⟨fun q => List.mem_append_left _ (h.dead.mp q), fun q => h.dead.mpr (by simpa using q)⟩
  · obtain ⟨q1, q2, q3⟩ := h.closes
    rw [hl]
    simp only [List.count_append, List.count_singleton, beq_iff_eq, reduceCtorEq, if_false, Nat.add_zero]
    exact ⟨q1, q2, q3⟩
  · rw [hl] at q
    rcases split_append q with ⟨p1, q1, -⟩ | ⟨p2, q1, q2⟩
    · exact h.silent p o p1 q1 r
    · have : o ∈ [Obs.dropped c] := by rw [q2]; simp
      rcases r with ⟨e, c, rfl⟩ | ⟨c, rfl⟩ <;> simp at this
  · rw [hl] at q
    rcases split_append q with ⟨p1, q1, q2⟩ | ⟨p2, -, q2⟩
    · obtain ⟨e', cl, p3, q3, q4⟩ := h.report p d p1 q1
      exact ⟨e', cl, p3 ++ [.dropped c], by rw [q2, q3]; rfl, q4⟩
    · have : Obs.arrived d ∈ [Obs.dropped c] := by rw [q2]; simp
      simp at this

theorem accept_inv {s : St} (h : Inv s) (ha : s.alive = true) (a b c : Option Err) : Inv (accept s a b c) := by
  have hx : ∀ q : s.alive = false, False := fun q => by rw [ha] at q; cases q
  unfold accept
  cases a with
  | some e => exact h.neutral (add := [.refused e]) rfl (by simp) rfl rfl rfl (fun q => (hx q).elim)
  | none =>
    dsimp only
    split
    · exact h.neutral (add := [.refused eExist]) rfl (by simp) rfl rfl rfl (fun q => (hx q).elim)
    · cases b with
      | some e => exact h.neutral (add := [.refused e]) rfl (by simp) rfl rfl rfl (fun q => (hx q).elim)
      | none =>
        cases c with
        | some e => exact h.neutral (add := [.refused e]) rfl (by simp) rfl rfl rfl (fun q => (hx q).elim)
        | none => exact h.neutral (add := [.accepting]) rfl (by simp) rfl rfl rfl (fun q => (hx q).elim)

theorem step_inv {s s' : St} {m : Move} (h : Inv s) (hs : step s m = some s') : Inv s' := by
  have hsame : ∀ t : St, t.log = s.log → t.next = s.next → pending t.stack = pending s.stack → t.alive = s.alive → t.inKernel = s.inKernel → Inv t := fun t e1 e2 e3 e4 e5 =>
    h.neutral (add := []) (by rw [e1, List.append_nil]) (by simp) e2 e3 e4 (fun q => by rw [e5]; exact h.out q)
  unfold step at hs
  split at hs
  · cases hs
  · split at hs
    · rename_i hk
      injection hs with hs; subst hs
      exact hsame _ rfl rfl (by rw [hk]; rfl) rfl rfl
    · rename_i k hk
      injection hs with hs; subst hs
      exact hsame _ rfl rfl (by rw [hk]; rfl) rfl rfl
    · split at hs
      · rename_i ha
        injection hs with hs; subst hs
        exact accept_inv h ha _ _ _
      · cases hs
    · split at hs
      · rename_i ha
        injection hs with hs; subst hs
        exact h.close ha
      · cases hs
    · rename_i r hk
      split at hs
      · rename_i hl
        have hl := (Bool.and_eq_true_iff.mp hl).1
        injection hs with hs; subst hs
        cases r with
        | nothing => exact h
        | error e => exact h.failed hl e
        | noMemory => exact h.connection hl noMemory none rfl rfl rfl rfl (.inl ⟨rfl, rfl⟩)
        | initFailed e => exact h.connection hl e none rfl rfl rfl rfl (.inl ⟨rfl, rfl⟩)
        | client => exact h.connection hl SUCCESS (some s.next) rfl rfl rfl rfl (.inr ⟨rfl, rfl, rfl⟩)
      · cases hs
    · rename_i c k hk
      injection hs with hs; subst hs
      exact h.dropped (k := k) (by rw [hk]; rfl) rfl rfl rfl rfl rfl
    · rename_i c k hk
      split at hs
      · injection hs with hs; subst hs
        have h1 : Inv { s with log := s.log ++ [.dropped c], stack := k } := h.dropped (k := k) (by rw [hk]; rfl) rfl rfl rfl rfl rfl
        exact h1.neutral (add := [.freed c]) (by simp) (by simp) rfl rfl rfl h1.out
      · injection hs with hs; subst hs
        exact h.dropped (k := k) (by rw [hk]; rfl) rfl rfl rfl rfl rfl
    · cases hs

theorem reach_inv {R : St → Move → Prop} {s : St} (h : Reach R s) : Inv s := by
  induction h with
  | init => exact inv_init
  | step m _ _ hs ih => exact step_inv ih hs

/-! ### Properties -/

/-- C94: each connection that arrives is reported at once, with a client on its descriptor or with an error; when the library is idle, it has either been handed over or been closed,
once.  (No rules are needed for that.) -/
theorem connections_accounted {s : St} (h : Reach (fun _ _ => True) s) :
    (∀ p c post, s.log = p ++ .arrived c :: post → ∃ e cl post', post = .handler e cl :: post' ∧ (cl = none ∨ e = SUCCESS ∧ cl = some c)) ∧ (s.stack = [] → Settled s.log) := by
  have hi := reach_inv h
  refine ⟨hi.report, fun hk c hc => ?_⟩
  have := hi.once c hc
  rw [hk] at this
  exact this

/-- C94: behind `cio_server_socket_close` the accept handler is not called any more and no connection is accepted; the listening descriptor is closed and the close hook called, once. -/
theorem closed_once {s : St} (h : Reach (fun _ _ => True) s) :
    (∀ p post, s.log = p ++ .closeCalled :: post → ∀ o ∈ post, (∀ e c, o ≠ .handler e c) ∧ ∀ c, o ≠ .arrived c) ∧
    s.log.count .fdClosed = s.log.count .closeCalled ∧ s.log.count .hook = s.log.count .closeCalled ∧ s.log.count .closeCalled ≤ 1 := by
  have hi := reach_inv h
  refine ⟨fun p post hl o ho => ?_, hi.closes⟩
  obtain ⟨a, b, rfl⟩ := List.append_of_mem ho
  have key : ∀ q : (∃ e c, o = .handler e c) ∨ ∃ c, o = .arrived c, False := fun q => by
    exact hi.silent (p ++ .closeCalled :: a) o b (by rw [hl]; simp) q (by simp)
  exact ⟨fun e c q => key (.inl ⟨e, c, q⟩), fun c q => key (.inr ⟨c, q⟩)⟩

/-- Under the rules: the socket is registered from its acceptance on. -/
structure Listening (s : St) : Prop where
  quiet : (∀ e, .accepting ∉ s.log ∧ .refused e ∉ s.log) → s.inKernel = false
  on : .accepting ∈ s.log → s.alive = true → s.inKernel = true ∧ s.regIn = true
  safe : s.ub = false
  frees : ∀ c, .dropAndFree c ∈ s.stack → s.alive = true

theorem settled_pending {s : St} (h : Inv s) (hs : Settled s.log) : pending s.stack = [] := by
  cases hp : pending s.stack with
  | nil => rfl
  | cons c k =>
    have h1 := h.pend c (by rw [hp]; exact List.mem_cons_self)
    have h2 := h.once c h1
    have h3 := hs c h1
    rw [hp, List.count_cons_self] at h2
    omega

theorem no_frees {k : List Item} (h : pending k = []) (c : Nat) : .dropAndFree c ∉ k := by
  intro hm
  have : c ∈ pending k := by
    unfold pending
    rw [List.mem_filterMap]
    exact ⟨_, hm, rfl⟩
  rw [h] at this; cases this

theorem listening_step {s s' : St} {m : Move} (hi : Inv s) (h : Listening s) (hr : Rules s m) (hs : step s m = some s') : Listening s' := by
  have hsame : ∀ t : St, t.log = s.log → t.inKernel = s.inKernel → t.regIn = s.regIn → t.alive = s.alive → t.ub = s.ub → (∀ c, .dropAndFree c ∈ t.stack → .dropAndFree c ∈ s.stack) → Listening t :=
    fun t e1 e2 e3 e4 e5 e6 => ⟨by rw [e1, e2]; exact h.quiet, by rw [e1, e2, e3, e4]; exact h.on, by rw [e5]; exact h.safe, fun c q => by rw [e4]; exact h.frees c (e6 c q)⟩
  have hadd : ∀ (t : St) (add : List Obs), t.log = s.log ++ add → (∀ o ∈ add, o ≠ .accepting ∧ ∀ e, o ≠ .refused e) → t.inKernel = s.inKernel → t.regIn = s.regIn → t.alive = s.alive → t.ub = s.ub →
      (∀ c, .dropAndFree c ∈ t.stack → t.alive = true) → Listening t := by
    intro t add e1 e0 e2 e3 e4 e5 e6
    refine ⟨fun q => ?_, fun q r => ?_, by rw [e5]; exact h.safe, e6⟩
    · rw [e2]; exact h.quiet (fun e => ⟨fun r => (q e).1 (by rw [e1]; exact List.mem_append_left _ r), fun r => (q e).2 (by rw [e1]; exact List.mem_append_left _ r)⟩)
    · rw [e2, e3]
      rw [e1] at q
      exact h.on ((List.mem_append.mp q).resolve_right (fun q => (e0 _ q).1 rfl)) (by rw [← e4]; exact r)
  unfold step at hs
  rw [if_neg (by rw [h.safe]; exact Bool.false_ne_true)] at hs
  split at hs
  · rename_i hk
    injection hs with hs; subst hs
    exact hsame _ rfl rfl rfl rfl rfl (fun c q => by simp at q)
  · rename_i k hk
    injection hs with hs; subst hs
    exact hsame _ rfl rfl rfl rfl rfl (fun c q => by rw [hk]; exact List.mem_cons_of_mem _ q)
  · rename_i a b c k hk
    split at hs
    · rename_i ha
      injection hs with hs; subst hs
      have hr : ∀ e, .accepting ∉ s.log ∧ .refused e ∉ s.log := hr
      have hq := h.quiet hr
      unfold accept
      cases a with
      | some e =>
        refine ⟨fun q => absurd (by simp) (q e).2, fun q => ?_, h.safe, h.frees⟩
        exact absurd (by simpa using q) (hr e).1
      | none =>
        dsimp only
        rw [if_neg (by rw [hq]; exact Bool.false_ne_true)]
        cases b with
        | some e =>
          refine ⟨fun q => absurd (by simp) (q e).2, fun q => ?_, h.safe, h.frees⟩
          exact absurd (by simpa using q) (hr e).1
        | none =>
          cases c with
          | some e =>
            refine ⟨fun q => absurd (by simp) (q e).2, fun q => ?_, h.safe, h.frees⟩
            exact absurd (by simpa using q) (hr e).1
          | none => exact ⟨fun q => absurd (by simp) (q 0).1, fun _ _ => ⟨rfl, rfl⟩, h.safe, h.frees⟩
    · cases hs
  · rename_i k hk
    split at hs
    · injection hs with hs; subst hs
      refine ⟨fun _ => rfl, (fun _ q => by cases q), h.safe, fun c q => ?_⟩
      have hp : pending (close s).stack = [] := settled_pending (s := s) hi hr
      exact absurd q (no_frees hp c)
    · cases hs
  · rename_i r hk
    split at hs
    · rename_i hl
      have hl := (Bool.and_eq_true_iff.mp hl).1
      have ha : s.alive = true := by
        cases q : s.alive with
        | true => rfl
        | false => rw [hi.out q] at hl; cases hl
      injection hs with hs; subst hs
      cases r with
      | nothing => exact h
      | error e => exact hadd _ [.handler e none] rfl (by simp) rfl rfl rfl rfl (fun _ _ => ha)
      | noMemory => exact hadd _ [.arrived s.next, .handler noMemory none] rfl (by simp) rfl rfl rfl rfl (fun _ _ => ha)
      | initFailed e => exact hadd _ [.arrived s.next, .handler e none] rfl (by simp) rfl rfl rfl rfl (fun _ _ => ha)
      | client => exact hadd _ [.arrived s.next, .handler SUCCESS (some s.next)] rfl (by simp) rfl rfl rfl rfl (fun _ _ => ha)
    · cases hs
  · rename_i c k hk
    injection hs with hs; subst hs
    exact hadd _ [.dropped c] rfl (by simp) rfl rfl rfl rfl (fun d q => h.frees d (by rw [hk]; exact List.mem_cons_of_mem _ q))
  · rename_i c k hk
    have ha : s.alive = true := h.frees c (by rw [hk]; exact List.mem_cons_self)
    rw [if_pos ha] at hs
    injection hs with hs; subst hs
    exact hadd _ [.dropped c, .freed c] rfl (by simp) rfl rfl rfl rfl (fun _ _ => ha)
  · cases hs

theorem reach_listening {s : St} (h : Reach Rules s) : Listening s := by
  induction h with
  | init => exact ⟨fun _ => rfl, fun q => by simp [initial] at q, rfl, fun c q => by simp [initial] at q⟩
  | step m hr hm hs ih => exact listening_step (reach_inv hr) ih hm hs

/-- C94, partial (the rules of use): from a successful `cio_server_socket_accept` until `cio_server_socket_close` the socket goes on accepting, whatever became of the connections before; and
no memory is used after the close hook. -/
theorem goes_on_accepting_partial {s : St} (h : Reach Rules s) :
    s.ub = false ∧ (.accepting ∈ s.log → .closeCalled ∉ s.log → s.stack = [] → ∀ r, ∃ s', step s (.event r) = some s') := by
  have hl := reach_listening h
  have hi := reach_inv h
  refine ⟨hl.safe, fun h1 h2 h3 r => ?_⟩
  have ha : s.alive = true := by
    cases q : s.alive with
    | true => rfl
    | false => exact absurd (hi.dead.mp q) h2
  obtain ⟨h4, h5⟩ := hl.on h1 ha
  unfold step
  rw [if_neg (by rw [hl.safe]; exact Bool.false_ne_true), h3]
  dsimp only
  rw [if_pos (by rw [h4, h5]; rfl)]
  exact ⟨_, rfl⟩

/-- What the accept handler is told when accept4 has this result: nothing, the error of accept4, ENOMEM for want of memory, the error of the initialisation, or success with the client. -/
def told (c : Nat) : Conn → List Obs
  | .nothing => []
  | .error e => [.handler e none]
  | .noMemory => [.arrived c, .handler (-12) none]
  | .initFailed e => [.arrived c, .handler e none]
  | .client => [.arrived c, .handler SUCCESS (some c)]

/-- C94: the accept handler is told what became of the connection, and runs with the whole library at its disposal (it may close the server, for instance). -/
theorem outcome_reported {s s' : St} (r : Conn) (h : step s (.event r) = some s') : s'.log = s.log ++ told s.next r ∧ (told s.next r ≠ [] → s'.stack.head? = some .user) := by
  unfold step at h
  split at h
  · cases h
  · cases hk : s.stack with
    | cons x k => rw [hk] at h; cases h
    | nil =>
      rw [hk] at h
      dsimp only at h
      split at h
      · injection h with h; subst h
        cases r <;> simp [acceptCallback, told, noMemory]
      · cases h

/-- A server accepts a client, runs out of memory for the next, fails to initialise a third, accepts a fourth and is closed; the rules are kept. -/
def exampleMoves : List Move :=
  [.enter, .accept none none none, .leave, .event .client, .leave, .event .noMemory, .leave, .continue, .event (.initFailed (-24)), .leave, .continue, .event .nothing, .event .client, .close, .leave, .leave]

example : (run initial exampleMoves).map St.log = some [.accepting, .arrived 0, .handler SUCCESS (some 0), .arrived 1, .handler (-12) none, .dropped 1, .arrived 2, .handler (-24) none,
    .dropped 2, .freed 2, .arrived 3, .handler SUCCESS (some 3), .closeCalled, .fdClosed, .hook] := by decide

/-- C94, deviation: once the socket is deaf, it stays deaf: the loop never calls it again, whatever the application does. -/
theorem deaf_for_ever {s s' : St} (hd : s.inKernel = true → s.regIn = false) (hx : s.inKernel = true ∨ s.alive = false) (ms : List Move) (h : run s ms = some s') :
    ∀ o ∈ s'.log.drop s.log.length, (∀ c, o ≠ .arrived c) ∧ ∀ e c, o ≠ .handler e c := by
  suffices key : ∃ add, s'.log = s.log ++ add ∧ ∀ o ∈ add, (∀ c, o ≠ .arrived c) ∧ ∀ e c, o ≠ .handler e c by
    obtain ⟨add, h1, h2⟩ := key
    rw [h1, List.drop_left]
    exact h2
  induction ms generalizing s with
  | nil => injection h with h; subst h; exact ⟨[], by simp, by simp⟩
  | cons m ms ih =>
    rw [run] at h
    cases hs : step s m with
    | none => rw [hs] at h; cases h
    | some t =>
      rw [hs, Option.bind_some] at h
      have one : ∃ add, t.log = s.log ++ add ∧ (∀ o ∈ add, (∀ c, o ≠ .arrived c) ∧ ∀ e c, o ≠ .handler e c) ∧ (t.inKernel = true → t.regIn = false) ∧ (t.inKernel = true ∨ t.alive = false) := by
        unfold step at hs
        split at hs
        · cases hs
        · split at hs
          · injection hs with hs; subst hs; exact ⟨[], by simp, by simp, hd, hx⟩
          · injection hs with hs; subst hs; exact ⟨[], by simp, by simp, hd, hx⟩
          · split at hs
            · rename_i a b c k hk ha
              injection hs with hs; subst hs
              have hk := hx.resolve_right (by rw [ha]; simp)
              unfold accept
              cases a with
              | some e => exact ⟨[.refused e], rfl, by simp, hd, hx⟩
              | none =>
                dsimp only
                rw [if_pos hk]
                exact ⟨[.refused eExist], rfl, by simp, fun _ => rfl, hx⟩
            · cases hs
          · split at hs
            · injection hs with hs; subst hs
              exact ⟨[.closeCalled, .fdClosed, .hook], rfl, by simp, (fun q => by cases q), .inr rfl⟩
            · cases hs
          · split at hs
            · rename_i hl
              obtain ⟨h1, h2⟩ := Bool.and_eq_true_iff.mp hl
              rw [hd h1] at h2; cases h2
            · cases hs
          · rename_i c k hk
            injection hs with hs; subst hs
            exact ⟨[.dropped c], rfl, by simp, hd, hx⟩
          · rename_i c k hk
            split at hs
            · injection hs with hs; subst hs; exact ⟨[.dropped c, .freed c], rfl, by simp, hd, hx⟩
            · injection hs with hs; subst hs; exact ⟨[.dropped c], rfl, by simp, hd, hx⟩
          · cases hs
      obtain ⟨a1, b1, b2, b3, b4⟩ := one
      obtain ⟨a2, c1, c2⟩ := ih b3 b4 h
      refine ⟨a1 ++ a2, by rw [c1, b1, List.append_assoc], fun o ho => ?_⟩
      rcases List.mem_append.mp ho with ho | ho
      · exact b2 o ho
      · exact c2 o ho

/-- C94, deviation: a second `cio_server_socket_accept` is refused (EEXIST), but makes the socket deaf for ever: it is still in the interest list, no callback will be called any more, so
that the loop spins as soon as a connection arrives. -/
theorem second_accept_makes_deaf : ∃ s, run initial [.enter, .accept none none none, .accept none none none, .leave] = some s ∧ .refused (-17) ∈ s.log ∧ s.alive = true ∧ s.inKernel = true ∧
    ∀ ms s', run s ms = some s' → ∀ o ∈ s'.log.drop s.log.length, (∀ c, o ≠ .arrived c) ∧ ∀ e c, o ≠ .handler e c := by
  refine ⟨{ inKernel := true, regIn := false, log := [.accepting, .refused eExist] }, rfl, by simp [eExist], rfl, rfl, fun ms s' h => ?_⟩
  exact deaf_for_ever (fun _ => rfl) (.inl rfl) ms h

/-- C94, deviation: a handler that closes the server socket when it is told of a client that could not be initialised: `accept_callback` uses the socket after its close hook. -/
theorem close_on_error_used : ∃ s, run initial [.enter, .accept none none none, .leave, .event (.initFailed (-24)), .close, .leave, .leave, .continue] = some s ∧ s.ub = true ∧ .hook ∈ s.log :=
  ⟨_, rfl, rfl, by decide⟩

end Cio.Linux.Server
