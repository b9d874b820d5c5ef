import Mathlib.Data.List.Forall2
import Verif.BufferedWrite.HeapSim
import Verif.Masking.Lemmas
/-
C15, C16 on the linked structure in memory.
-/
namespace Cio.BufferedWrite.OnHeap
open WB (Heap Addr)
open WB.Spec (State Free setFn seqOf)
open Masking (Mem bytesAt chainBytes)

/-- The user's buffer in memory is the given sequence of elements, and nothing else of the user has changed. -/
def Represents (c : Nodes) (mem : Mem) (s0 : State) (h : Heap) (chain : List Elem) : Prop :=
  ∃ s xs, B c h s xs ∧ Same c s0 s ∧ chain = xs.map (elemOf c mem s)

/-- The two models are in the same state. -/
structure R (c : Nodes) (mem : Mem) (s0 : State) (N : Nat) (W : World) (w : BufferedWrite.World) : Prop where
  phase : W.phase = w.phase
  wire : W.wire = w.wire
  returned : W.returned = w.returned
  calls : List.Forall₂ (fun a b => a.1 = b.1 ∧ Represents c mem s0 a.2 b.2) W.calls w.calls
  chain : Represents c mem s0 W.heap w.chain
  small : w.phase = .first → w.chain.length ≤ N ∧ (flat w.chain).length < 2 ^ 64
  more : w.phase = .more → ∃ s xs ys, M c W.heap s xs ys ∧ Same c s0 s ∧ w.chain = xs.map (elemOf c mem s) ∧ w.wbh = ys.map (elemOf c mem s) ∧ ys.length ≤ N + 1

theorem advance_length (ch : List Elem) (n : Nat) (b : List Elem) : (BufferedWrite.advance ch n b).2.length ≤ b.length := by
  induction b generalizing ch n with
  | nil => simp [BufferedWrite.advance]
  | cons e b ih =>
    simp only [BufferedWrite.advance]
    split
    · simp
    · exact Nat.le_trans (ih _ _) (by simp)

theorem forall₂_append {α β : Type} {P : α → β → Prop} {a a' : List α} {b b' : List β} (h : List.Forall₂ P a b) (h' : List.Forall₂ P a' b') : List.Forall₂ P (a ++ a') (b ++ b') := by
  induction h with
  | nil => exact h'
  | cons h1 _ ih => exact .cons h1 ih

theorem R.call {c : Nodes} {mem : Mem} {s0 : State} {N : Nat} {W : World} {w : BufferedWrite.World} (h : R c mem s0 N W w) (e : Err) :
    R c mem s0 N (callHandler W e) (BufferedWrite.callHandler w e) := by
  refine ⟨rfl, h.wire, h.returned, ?_, h.chain, ?_, ?_⟩
  · exact forall₂_append h.calls (.cons ⟨rfl, h.chain⟩ .nil)
  · intro hp; cases hp
  · intro hp; cases hp

theorem respond_sim (c : Nodes) (mem : Mem) (s0 : State) (N fuel : Nat) (hN : N + 1 < 2 ^ 64) (hf : N + 2 ≤ fuel) (W : World) (w : BufferedWrite.World) (h : R c mem s0 N W w) (r : Resp) :
    (BufferedWrite.respond w r = none → respond c mem fuel W r = none) ∧
    ∀ w', BufferedWrite.respond w r = some w' → ∃ W', respond c mem fuel W r = some (some W') ∧ R c mem s0 N W' w' := by
  have hph := h.phase
  cases r with
  | err e =>
    cases hp : w.phase with
    | idle => rw [hp] at hph; simp [BufferedWrite.respond, respond, hp, hph]
    | first =>
      rw [hp] at hph
      simp only [BufferedWrite.respond, respond, hp, hph, reduceCtorEq, false_implies, true_and, Option.some.injEq]
      rintro w' rfl
      exact ⟨_, rfl, h.call e⟩
    | more =>
      rw [hp] at hph
      simp only [BufferedWrite.respond, respond, hp, hph, reduceCtorEq, false_implies, true_and, Option.some.injEq]
      rintro w' rfl
      obtain ⟨s, xs, ys, m, sm, e1, e2, hl⟩ := h.more hp
      obtain ⟨h', s', xs', g1, g2, g3, g4⟩ := giveBack_sim c mem ys fuel W.heap s xs m (by omega)
      refine ⟨callHandler { W with heap := h' } e, by rw [g1]; rfl, ?_⟩
      have : Represents c mem s0 h' (BufferedWrite.giveBack w.chain w.wbh) := ⟨s', xs', g2.toB, sm.trans g3, by rw [g4, e1, e2]⟩
      refine ⟨rfl, h.wire, h.returned, ?_, this, ?_, ?_⟩
      · exact forall₂_append h.calls (.cons ⟨rfl, this⟩ .nil)
      · intro hp; cases hp
      · intro hp; cases hp
  | sync e =>
    cases hp : w.phase with
    | idle => rw [hp] at hph; simp [BufferedWrite.respond, respond, hp, hph]
    | first =>
      rw [hp] at hph
      simp only [BufferedWrite.respond, respond, hp, hph, reduceCtorEq, false_implies, true_and, Option.some.injEq]
      rintro w' rfl
      exact ⟨_, rfl, rfl, h.wire, rfl, h.calls, h.chain, fun hp => (by cases hp), fun hp => (by cases hp)⟩
    | more =>
      rw [hp] at hph
      simp only [BufferedWrite.respond, respond, hp, hph, reduceCtorEq, false_implies, true_and, Option.some.injEq]
      rintro w' rfl
      exact ⟨_, rfl, h.call e⟩
  | ok n =>
    cases hp : w.phase with
    | idle => rw [hp] at hph; simp [BufferedWrite.respond, respond, hp, hph]
    | first =>
      rw [hp] at hph
      obtain ⟨s, xs, b, sm, e1⟩ := h.chain
      obtain ⟨hlen, hbig⟩ := h.small hp
      have hxl : xs.length ≤ N := by rw [e1, List.length_map] at hlen; exact hlen
      have hreq := request_sim c mem b.inv b.user (by omega)
      have htot := total_sim c mem b.inv b.user
      rw [← e1] at hreq htot
      rw [Nat.mod_eq_of_lt hbig] at htot
      simp only [BufferedWrite.respond, respond, hp, hph, hreq]
      by_cases hn : n ≤ (flat w.chain).length
      · simp only [if_pos hn, Option.some.injEq, BufferedWrite.handleFirstWrite, handleFirstWrite, htot, Option.bind_eq_bind, Option.bind_some]
        by_cases he : n = (flat w.chain).length
        · simp only [if_pos he, reduceCtorEq, false_implies, true_and, Option.some.injEq]
          rintro w' rfl
          refine ⟨_, rfl, R.call (W := { W with wire := _ }) (w := { w with wire := _ }) ?_ _⟩
          exact ⟨h.phase, congrArg (· ++ _) h.wire, h.returned, h.calls, h.chain, h.small, h.more⟩
        · simp only [if_neg he]
          obtain ⟨pre, x, m, post, f1, -, -, -⟩ := findPartial_spec n w.chain (by omega)
          refine ⟨fun hcon => ?_, fun w' hw' => ?_⟩
          · exfalso
            simp only [BufferedWrite.handlePartialWrites, f1, Option.bind_eq_bind, Option.bind_some] at hcon
            cases post <;> simp at hcon
          · obtain ⟨h', s', xs', ys', g1, g2, g3, g4, -, g5⟩ := partial_sim c mem fuel n { W with wire := W.wire ++ List.take n (flat w.chain) } s xs b (by omega)
              { w with wire := w.wire ++ List.take n (flat w.chain) } w' e1 hw'
            refine ⟨_, g1, ?_⟩
            rw [g5]
            refine ⟨rfl, congrArg (· ++ _) h.wire, h.returned, h.calls, ⟨s', xs', g2.toB, sm.trans g3, rfl⟩, fun hp => (by cases hp), fun _ => ⟨s', xs', ys', g2, sm.trans g3, rfl, rfl, by omega⟩⟩
      · simp [if_neg hn]
    | more =>
      rw [hp] at hph
      obtain ⟨s, xs, ys, m, sm, e1, e2, hl⟩ := h.more hp
      have hreq := request_sim c mem m.inv m.wbh (by omega)
      rw [← e2] at hreq
      simp only [BufferedWrite.respond, respond, hp, hph, hreq]
      by_cases hn : n ≤ (flat w.wbh).length
      · simp only [if_pos hn, reduceCtorEq, false_implies, true_and, Option.some.injEq]
        rintro w' rfl
        obtain ⟨h', s', xs', ys', g1, g2, g3, g4⟩ := advance_sim c mem ys fuel n W.heap s xs m (by omega)
        have hq := queueEmpty_ok g2.inv g2.wbh
        have hyl : ys'.length ≤ ys.length := by
          have := advance_length (xs.map (elemOf c mem s)) n (ys.map (elemOf c mem s))
          rw [← g4] at this
          simpa using this
        simp only [handleWrite, g1, Option.bind_eq_bind, Option.bind_some, hq, pure, BufferedWrite.handleWrite]
        rw [e1, e2, ← g4]
        have hrep : Represents c mem s0 h' (xs'.map (elemOf c mem s')) := ⟨s', xs', g2.toB, sm.trans g3, rfl⟩
        cases ys' with
        | nil =>
          simp only [List.isEmpty_nil, if_true, List.map_nil]
          refine ⟨_, rfl, rfl, congrArg (· ++ _) h.wire, h.returned, ?_, hrep, fun hp => (by cases hp), fun hp => (by cases hp)⟩
          exact forall₂_append h.calls (.cons ⟨rfl, hrep⟩ .nil)
        | cons y ys' =>
          simp only [List.isEmpty_cons, Bool.false_eq_true, if_false, List.map_cons, reduceCtorEq]
          refine ⟨_, rfl, rfl, congrArg (· ++ _) h.wire, h.returned, h.calls, hrep, fun hp => (by cases hp), fun _ => ⟨s', xs', y :: ys', g2, sm.trans g3, rfl, rfl, by omega⟩⟩
      · simp [if_neg hn]

theorem run_sim (c : Nodes) (mem : Mem) (s0 : State) (N fuel : Nat) (hN : N + 1 < 2 ^ 64) (hf : N + 2 ≤ fuel) (rs : List Resp) (W : World) (w : BufferedWrite.World) (h : R c mem s0 N W w) :
    (BufferedWrite.run w rs = none → run c mem fuel W rs = none) ∧
    ∀ w', BufferedWrite.run w rs = some w' → ∃ W', run c mem fuel W rs = some (some W') ∧ R c mem s0 N W' w' := by
  induction rs generalizing W w with
  | nil => exact ⟨fun h => (by cases h), fun w' hw => by simp only [BufferedWrite.run, Option.some.injEq] at hw; subst hw; exact ⟨W, rfl, h⟩⟩
  | cons r rs ih =>
    obtain ⟨a1, a2⟩ := respond_sim c mem s0 N fuel hN hf W w h r
    cases hr : BufferedWrite.respond w r with
    | none => simp [BufferedWrite.run, run, hr, a1 hr]
    | some w1 =>
      obtain ⟨W1, b1, b2⟩ := a2 w1 hr
      simp only [BufferedWrite.run, run, hr, b1, Option.bind_eq_bind, Option.bind_some]
      exact ih W1 w1 b2

/-- The memory when `cio_buffered_stream_write` is called (`s`: what it represents): the user's write buffer contains the elements `xs`, of less than 2^64
bytes; the two nodes of the stream are valid, differ from the user's and are in none of the user's buffers. -/
structure Ready (c : Nodes) (h : Heap) (s : State) (xs : List Addr) : Prop extends B c h s xs where
  number : xs.length + 1 < 2 ^ 64
  size : (xs.map h.w1).sum < 2 ^ 64

/-- The bytes the user wants to write. -/
def bytesOf (mem : Mem) (h : Heap) (xs : List Addr) : List UInt8 := xs.flatMap fun a => bytesAt mem (h.w0 a) (h.w1 a)

theorem flat_elems (c : Nodes) (mem : Mem) {h : Heap} {s : State} (hi : WB.Inv h s) (xs : List Addr) (hx : ∀ x ∈ xs, ∃ d, s.elem x = some d) :
    flat (xs.map (elemOf c mem s)) = bytesOf mem h xs ∧ (flat (xs.map (elemOf c mem s))).length = (xs.map h.w1).sum := by
  induction xs with
  | nil => exact ⟨rfl, rfl⟩
  | cons x xs ih =>
    obtain ⟨⟨d, l⟩, hd⟩ := hx x (by simp)
    obtain ⟨i1, i2⟩ := ih (fun y hy => hx y (List.mem_cons_of_mem _ hy))
    obtain ⟨-, w0, w1, -⟩ := hi.elem x d l hd
    refine ⟨?_, ?_⟩
    · rw [List.map_cons, flat_cons, i1]
      simp [bytesOf, elemOf, hd, w0, w1]
    · rw [List.map_cons, flat_cons, List.length_append, i2, elemOf_length c mem s x d l hd, List.map_cons, List.sum_cons, w1]

theorem write_R {c : Nodes} {mem : Mem} {h : Heap} {s : State} {xs : List Addr} (hr : Ready c h s xs) :
    R c mem s xs.length (write h) (BufferedWrite.write (xs.map (elemOf c mem s))) := by
  refine ⟨rfl, rfl, rfl, .nil, ⟨s, xs, hr.toB, .refl c s, rfl⟩, fun _ => ⟨by simp [BufferedWrite.write], ?_⟩, fun hp => (by cases hp)⟩
  show (flat (xs.map (elemOf c mem s))).length < _
  rw [(flat_elems c mem hr.inv xs (hr.inv.inited _ _ hr.user)).2]
  exact hr.size

/-- The transport's answers are possible: it never claims to have written more than it was asked to, and answers only if asked. -/
def Possible (c : Nodes) (mem : Mem) (fuel : Nat) (h : Heap) (rs : List Resp) : Prop := run c mem fuel (write h) rs ≠ none

/-- No sequence of answers of the transport makes the stream touch invalid memory or loop for ever - also when the defects of C15 and C16 strike. -/
theorem no_undefined_behaviour (c : Nodes) (mem : Mem) (h : Heap) (s : State) (xs : List Addr) (hr : Ready c h s xs) (fuel : Nat) (hf : xs.length + 2 ≤ fuel) (rs : List Resp) :
    run c mem fuel (write h) rs ≠ some none := by
  obtain ⟨a1, a2⟩ := run_sim c mem s xs.length fuel hr.number hf rs _ _ (write_R hr)
  cases hw : BufferedWrite.run (BufferedWrite.write (xs.map (elemOf c mem s))) rs with
  | none => rw [a1 hw]; simp
  | some w =>
    obtain ⟨W, b1, -⟩ := a2 w hw
    rw [b1]; simp

/-- `FirstEndsEarly` in terms of memory: the first answer takes everything or ends before the last element. -/
def FirstEndsEarlyMem (mem : Mem) (h : Heap) (xs : List Addr) (rs : List Resp) : Prop :=
  ∀ n, rs.head? = some (.ok n) → n = (bytesOf mem h xs).length ∨ n < (bytesOf mem h xs.dropLast).length

theorem elems_not_temp {c : Nodes} {mem : Mem} {h : Heap} {s : State} {xs : List Addr} (b : B c h s xs) : ∀ e ∈ xs.map (elemOf c mem s), e.addr ≠ temp := by
  intro e he
  obtain ⟨a, ha, rfl⟩ := List.mem_map.mp he
  have h1 : a ≠ c.temp := fun eq => b.tf _ _ b.user (Ne.symm b.wu) (eq ▸ ha)
  have h2 := b.nz b.user ha
  simp [elemOf, h1, temp, h2]

theorem firstEndsEarly {c : Nodes} {mem : Mem} {h : Heap} {s : State} {xs : List Addr} (b : B c h s xs) {rs : List Resp} (hf : FirstEndsEarlyMem mem h xs rs) :
    FirstEndsEarly (xs.map (elemOf c mem s)) rs := by
  intro n hn
  have hin := b.inv.inited _ _ b.user
  rw [← List.map_dropLast, (flat_elems c mem b.inv xs hin).1, (flat_elems c mem b.inv xs.dropLast (fun x hx => hin x ((List.dropLast_sublist xs).mem hx))).1]
  exact hf n hn

/-- The user's write buffer is as it was: walked in both directions it consists of the same elements, which point to the same data, and the head
has the right counts. -/
structure Intact (c : Nodes) (h h' : Heap) (xs : List Addr) : Prop where
  next : WB.walk h'.next (xs.length + 1) c.user = xs ++ [c.user]
  prev : WB.walk h'.prev (xs.length + 1) c.user = xs.reverse ++ [c.user]
  data : ∀ a ∈ xs, h'.w0 a = h.w0 a ∧ h'.w1 a = h.w1 a
  number : h'.w0 c.user = xs.length
  size : h'.w1 c.user = (xs.map h.w1).sum

theorem intact_of {c : Nodes} {mem : Mem} {h h' : Heap} {s : State} {xs : List Addr} (hr : Ready c h s xs) (hp : Represents c mem s h' (xs.map (elemOf c mem s))) : Intact c h h' xs := by
  obtain ⟨s', xs', b, sm, e⟩ := hp
  have hx : xs' = xs := by
    have hi : ∀ (s : State) (h : Heap) (zs : List Addr), B c h s zs → (zs.map (elemOf c mem s)).map (·.addr) = zs := by
      intro s h zs b
      rw [List.map_map]
      conv => rhs; rw [← List.map_id zs]
      refine List.map_congr_left fun a ha => ?_
      have h1 : a ≠ c.temp := fun eq => b.tf _ _ b.user (Ne.symm b.wu) (eq ▸ ha)
      simp [elemOf, h1]
    rw [← hi s h xs hr.toB, e, hi s' h' xs' b]
  subst hx
  have r := b.inv.ring _ _ b.user
  have hd : ∀ a ∈ xs', h'.w0 a = h.w0 a ∧ h'.w1 a = h.w1 a := by
    intro a ha
    obtain ⟨⟨d, l⟩, hd⟩ := hr.inv.inited _ _ hr.user a ha
    have hd' : s'.elem a = some (d, l) := by
      rw [sm.elem a (fun eq => hr.tf _ _ hr.user (Ne.symm hr.wu) (eq ▸ ha)) (fun eq => hr.wf _ _ hr.user (eq ▸ ha))]; exact hd
    have p := hr.inv.elem a d l hd
    have q := b.inv.elem a d l hd'
    rw [p.2.1, p.2.2.1, q.2.1, q.2.2.1]
    exact ⟨rfl, rfl⟩
  refine ⟨WB.seg_walk _ _ _ _ _ r.seg, WB.seg_walk_back _ _ _ _ _ r.seg, hd, ?_, ?_⟩
  · rw [r.qlen]; exact Nat.mod_eq_of_lt (by have := hr.number; show xs'.length < 2 ^ 64; omega)
  · rw [r.total, List.map_congr_left (fun a ha => (hd a ha).2)]
    exact Nat.mod_eq_of_lt hr.size

theorem run_inverse {c : Nodes} {mem : Mem} {h : Heap} {s : State} {xs : List Addr} (hr : Ready c h s xs) {fuel : Nat} (hf : xs.length + 2 ≤ fuel) {rs : List Resp} {W : World}
    (hW : run c mem fuel (write h) rs = some (some W)) :
    ∃ w, BufferedWrite.run (BufferedWrite.write (xs.map (elemOf c mem s))) rs = some w ∧ R c mem s xs.length W w := by
  obtain ⟨a1, a2⟩ := run_sim c mem s xs.length fuel hr.number hf rs _ _ (write_R (mem := mem) hr)
  cases hw : BufferedWrite.run (BufferedWrite.write (xs.map (elemOf c mem s))) rs with
  | none => rw [a1 hw] at hW; cases hW
  | some w =>
    obtain ⟨W', b1, b2⟩ := a2 w hw
    rw [b1] at hW
    cases hW
    exact ⟨w, rfl, b2⟩

/-- C15 on memory, partial as `write_exactly_partial`: the bytes of the user's elements go out in order, at most once; the handler is called once, with
success only if everything is out. -/
theorem heap_write_exactly_partial (c : Nodes) (mem : Mem) (h : Heap) (s : State) (xs : List Addr) (hr : Ready c h s xs) (fuel : Nat) (hf : xs.length + 2 ≤ fuel) (rs : List Resp)
    (hp : ∀ r ∈ rs, Proper r) (he : FirstEndsEarlyMem mem h xs rs) (W : World) (hW : run c mem fuel (write h) rs = some (some W)) :
    W.wire <+: bytesOf mem h xs ∧ (W.phase ≠ .idle → W.calls = []) ∧
      (W.phase = .idle → (∃ e h', W.calls = [(e, h')] ∧ W.returned = none ∧ (e = SUCCESS → W.wire = bytesOf mem h xs)) ∨ (W.calls = [] ∧ (∃ e, W.returned = some e) ∧ W.wire = [])) := by
  obtain ⟨w, w1, w2⟩ := run_inverse hr hf hW
  obtain ⟨e1, e2, e3⟩ := write_exactly_partial _ (elems_not_temp hr.toB) rs hp (firstEndsEarly hr.toB he) w w1
  rw [(flat_elems c mem hr.inv xs (hr.inv.inited _ _ hr.user)).1] at e1 e3
  rw [w2.wire, w2.phase, w2.returned]
  have hc := w2.calls
  refine ⟨e1, fun hph => ?_, fun hph => ?_⟩
  · rw [e2 hph] at hc; exact List.forall₂_nil_right_iff.mp hc
  · rcases e3 hph with ⟨e, ch, h1, h2, h3⟩ | ⟨h1, h2, h3⟩
    · rw [h1] at hc
      generalize W.calls = cl at hc
      cases hc with
      | cons hh ht =>
        cases ht
        rename_i a
        obtain ⟨a1, a2⟩ := a
        have hh : a1 = e := hh.1
        subst hh
        exact .inl ⟨a1, a2, rfl, h2, h3⟩
    · rw [h1] at hc; exact .inr ⟨List.forall₂_nil_right_iff.mp hc, h2, h3⟩

/-- C16 on memory, partial as `chain_given_back_partial`. -/
theorem heap_chain_given_back_partial (c : Nodes) (mem : Mem) (h : Heap) (s : State) (xs : List Addr) (hr : Ready c h s xs) (fuel : Nat) (hf : xs.length + 2 ≤ fuel) (rs : List Resp)
    (hp : ∀ r ∈ rs, Proper r) (he : FirstEndsEarlyMem mem h xs rs) (hns : ∀ r ∈ rs, ∀ e, r ≠ .sync e) (W : World) (hW : run c mem fuel (write h) rs = some (some W)) :
    ∀ e h', (e, h') ∈ W.calls → Intact c h h' xs := by
  obtain ⟨w, w1, w2⟩ := run_inverse hr hf hW
  have g := chain_given_back_partial _ (elems_not_temp hr.toB) rs hp (firstEndsEarly hr.toB he) hns w w1
  intro e h' hm
  obtain ⟨⟨e', ch⟩, hm', he', hrep⟩ : ∃ b ∈ w.calls, (e, h').1 = b.1 ∧ Represents c mem s (e, h').2 b.2 := by
    have hc := w2.calls
    clear g
    generalize W.calls = cl at hc hm
    generalize w.calls = cl' at hc
    induction hc with
    | nil => cases hm
    | cons hh _ ih =>
      rcases List.mem_cons.mp hm with hm | hm
      · subst hm; exact ⟨_, List.mem_cons_self, hh⟩
      · obtain ⟨b, b1, b2⟩ := ih hm; exact ⟨b, List.mem_cons_of_mem _ b1, b2⟩
  rw [g e' ch hm'] at hrep
  exact intact_of hr hrep

/-- C16 on memory: success also gives the buffer back if `write_some` may fail by its return value. -/
theorem heap_chain_given_back_on_success_partial (c : Nodes) (mem : Mem) (h : Heap) (s : State) (xs : List Addr) (hr : Ready c h s xs) (fuel : Nat) (hf : xs.length + 2 ≤ fuel) (rs : List Resp)
    (hp : ∀ r ∈ rs, Proper r) (he : FirstEndsEarlyMem mem h xs rs) (W : World) (hW : run c mem fuel (write h) rs = some (some W)) :
    ∀ h', (SUCCESS, h') ∈ W.calls → Intact c h h' xs := by
  obtain ⟨w, w1, w2⟩ := run_inverse hr hf hW
  have g := chain_given_back_on_success_partial _ (elems_not_temp hr.toB) rs hp (firstEndsEarly hr.toB he) w w1
  intro h' hm
  obtain ⟨⟨e', ch⟩, hm', he', hrep⟩ : ∃ b ∈ w.calls, (SUCCESS, h').1 = b.1 ∧ Represents c mem s (SUCCESS, h').2 b.2 := by
    have hc := w2.calls
    clear g
    generalize W.calls = cl at hc hm
    generalize w.calls = cl' at hc
    induction hc with
    | nil => cases hm
    | cons hh _ ih =>
      rcases List.mem_cons.mp hm with hm | hm
      · subst hm; exact ⟨_, List.mem_cons_self, hh⟩
      · obtain ⟨b, b1, b2⟩ := ih hm; exact ⟨b, List.mem_cons_of_mem _ b1, b2⟩
  have he'' : e' = SUCCESS := he'.symm
  subst he''
  rw [g ch hm'] at hrep
  exact intact_of hr hrep

/-! ### The theorems are about something: a buffer made with the API, written in pieces -/

/-- Three elements of 3, 0 and 2 bytes in the buffer at address 1; the stream's nodes are at 2 and 3. -/
def exOps : List WB.Spec.Op :=
  [.headInit 1, .elementInit 7 100 3, .elementInit 8 0 0, .elementInit 9 200 2, .queueTail 1 7, .queueTail 1 8, .queueTail 1 9]
def exNodes : Nodes := ⟨2, 3, 1⟩
def exHeap0 : Heap := ⟨fun a => decide (a ≠ 0), fun _ => 0, fun _ => 0, fun _ => 0, fun _ => 0⟩

theorem ex_ready : ∃ h', WB.execAll 0 exHeap0 exOps = some (WB.Spec.results WB.emptyState exOps, h') ∧ Ready exNodes h' (WB.Spec.run WB.emptyState exOps) [7, 8, 9] := by
  obtain ⟨h', g1, g2, g3⟩ : ∃ h', WB.execAll 0 exHeap0 exOps = some (WB.Spec.results WB.emptyState exOps, h') ∧ WB.Inv h' (WB.Spec.run WB.emptyState exOps) ∧ h'.valid = exHeap0.valid := by
    have hall : WB.Spec.AllAllowed exHeap0.valid WB.emptyState exOps := by
      simp [exOps, exHeap0, WB.Spec.AllAllowed, WB.Spec.Allowed, Free, WB.Spec.step, setFn, seqOf, WB.emptyState]
      grind
    obtain ⟨h', g1, g2⟩ := WB.execAll_refines exOps exHeap0 WB.emptyState (WB.inv_empty _) hall 0 (by decide)
    refine ⟨h', g1, g2, ?_⟩
    have : (WB.execAll 0 exHeap0 exOps).map (fun p => p.2.valid) = some exHeap0.valid := rfl
    rw [g1] at this
    exact Option.some.inj this
  have hbuf : ∀ hd zs, (WB.Spec.run WB.emptyState exOps).buf hd = some zs → hd = 1 ∧ zs = [7, 8, 9] := by
    intro hd zs hz
    simp only [exOps, WB.Spec.run, WB.Spec.step, setFn, seqOf, WB.emptyState] at hz
    split at hz
    · rename_i h1; exact ⟨h1, by simpa using hz.symm⟩
    · cases hz
  refine ⟨h', g1, ⟨⟨g2, rfl, by rw [g3]; rfl, by rw [g3]; rfl, by rw [g3]; rfl, rfl, by decide, by decide, by decide, ?_, ?_⟩, by decide, ?_⟩⟩
  · intro hd zs hz _
    rw [(hbuf hd zs hz).2]; decide
  · intro hd zs hz
    rw [(hbuf hd zs hz).2]; decide
  · have e7 := g2.elem 7 100 3 rfl
    have e8 := g2.elem 8 0 0 rfl
    have e9 := g2.elem 9 200 2 rfl
    simp [e7.2.2.1, e8.2.2.1, e9.2.2.1]

/-- It is written in four pieces. -/
example : ∃ h' W, WB.execAll 0 exHeap0 exOps = some (WB.Spec.results WB.emptyState exOps, h') ∧
    run exNodes (fun a => UInt8.ofNat a) 5 (write h') [.ok 1, .ok 0, .ok 3, .ok 1] = some (some W) ∧ W.wire = [100, 101, 102, 200, 201] ∧ W.calls.map (·.1) = [SUCCESS] :=
  ⟨_, _, rfl, rfl, rfl, rfl⟩

end Cio.BufferedWrite.OnHeap
