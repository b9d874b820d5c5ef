import Verif.BufferedWrite.HeapModel
import Verif.BufferedWrite.Props
import Verif.WriteBuffer.Props
/-
The model on the linked structure does what the model on sequences does: one step.
-/
namespace Cio.BufferedWrite.OnHeap
open WB (Heap Addr getNext getW0 getW1 queueDequeue queueTail queueHead queueEmpty elementInit headInit splitAndAppend exec_refines Ring)
open WB.Spec (State Free setFn seqOf)
open Masking (Mem bytesAt)

/-! ### The operations, from `exec_refines` -/

theorem dequeue_ok {h : Heap} {s : State} (hi : WB.Inv h s) {b : Addr} {xs : List Addr} (hb : s.buf b = some xs) :
    ∃ h', queueDequeue h b = some (xs.head?, h') ∧ WB.Inv h' { s with buf := setFn s.buf b (some xs.tail) } ∧ h'.valid = h.valid := by
  obtain ⟨h', e, i, v⟩ := exec_refines h s (.dequeue b) hi ⟨xs, hb⟩ 0 (Nat.zero_le _)
  refine ⟨h', ?_, ?_, v⟩
  · simp only [WB.exec, WB.Spec.result, WB.seqOf_eq s b xs hb] at e
    cases hq : queueDequeue h b with
    | none => rw [hq] at e; cases e
    | some p =>
      rw [hq] at e
      obtain ⟨x, h1⟩ := p
      simp only [Option.bind_eq_bind, Option.bind_some, pure, Option.some.injEq, Prod.mk.injEq, WB.Spec.Res.elem.injEq] at e
      rw [e.1, e.2]
  · simpa [WB.Spec.step, WB.seqOf_eq s b xs hb] using i

theorem queueTail_ok {h : Heap} {s : State} (hi : WB.Inv h s) {b e : Addr} {xs : List Addr} (hb : s.buf b = some xs) (he : ∃ d, s.elem e = some d) (hf : Free s e) :
    ∃ h', queueTail h b e = some h' ∧ WB.Inv h' { s with buf := setFn s.buf b (some (xs ++ [e])) } ∧ h'.valid = h.valid := by
  obtain ⟨h', e', i, v⟩ := exec_refines h s (.queueTail b e) hi ⟨⟨xs, hb⟩, he, hf⟩ 0 (Nat.zero_le _)
  refine ⟨h', ?_, ?_, v⟩
  · simp only [WB.exec] at e'
    cases hq : queueTail h b e with
    | none => rw [hq] at e'; cases e'
    | some p => rw [hq] at e'; simp only [Option.bind_eq_bind, Option.bind_some, pure, Option.some.injEq, Prod.mk.injEq] at e'; rw [e'.2]
  · simpa [WB.Spec.step, WB.seqOf_eq s b xs hb] using i

theorem queueHead_ok {h : Heap} {s : State} (hi : WB.Inv h s) {b e : Addr} {xs : List Addr} (hb : s.buf b = some xs) (he : ∃ d, s.elem e = some d) (hf : Free s e) :
    ∃ h', queueHead h b e = some h' ∧ WB.Inv h' { s with buf := setFn s.buf b (some (e :: xs)) } ∧ h'.valid = h.valid := by
  obtain ⟨h', e', i, v⟩ := exec_refines h s (.queueHead b e) hi ⟨⟨xs, hb⟩, he, hf⟩ 0 (Nat.zero_le _)
  refine ⟨h', ?_, ?_, v⟩
  · simp only [WB.exec] at e'
    cases hq : queueHead h b e with
    | none => rw [hq] at e'; cases e'
    | some p => rw [hq] at e'; simp only [Option.bind_eq_bind, Option.bind_some, pure, Option.some.injEq, Prod.mk.injEq] at e'; rw [e'.2]
  · simpa [WB.Spec.step, WB.seqOf_eq s b xs hb] using i

theorem elementInit_ok {h : Heap} {s : State} (hi : WB.Inv h s) {e : Addr} (d l : Nat) (hv : h.valid e = true) (hb : s.buf e = none) (hf : Free s e) :
    ∃ h', elementInit h e d l = some h' ∧ WB.Inv h' { s with elem := setFn s.elem e (some (d, l)) } ∧ h'.valid = h.valid := by
  obtain ⟨h', e', i, v⟩ := exec_refines h s (.elementInit e d l) hi ⟨hv, hb, hf⟩ 0 (Nat.zero_le _)
  refine ⟨h', ?_, i, v⟩
  simp only [WB.exec] at e'
  cases hq : elementInit h e d l with
  | none => rw [hq] at e'; cases e'
  | some p => rw [hq] at e'; simp only [Option.bind_eq_bind, Option.bind_some, pure, Option.some.injEq, Prod.mk.injEq] at e'; rw [e'.2]

theorem headInit_ok {h : Heap} {s : State} (hi : WB.Inv h s) {b : Addr} (hv : h.valid b = true) (hf : Free s b) :
    ∃ h', headInit h b = some h' ∧ WB.Inv h' { s with elem := setFn s.elem b none, buf := setFn s.buf b (some []) } ∧ h'.valid = h.valid := by
  obtain ⟨h', e', i, v⟩ := exec_refines h s (.headInit b) hi ⟨hv, hf⟩ 0 (Nat.zero_le _)
  refine ⟨h', ?_, i, v⟩
  simp only [WB.exec] at e'
  cases hq : headInit h b with
  | none => rw [hq] at e'; cases e'
  | some p => rw [hq] at e'; simp only [Option.bind_eq_bind, Option.bind_some, pure, Option.some.injEq, Prod.mk.injEq] at e'; rw [e'.2]

theorem split_ok {h : Heap} {s : State} (hi : WB.Inv h s) {t f e : Addr} {ts xs : List Addr} (ht : s.buf t = some ts) (hf : s.buf f = some xs) (hne : t ≠ f)
    (he : e = f ∨ e ∈ xs) (fuel : Nat) (hfu : xs.length + 2 ≤ fuel) :
    ∃ h', splitAndAppend fuel h t f e = some h' ∧ WB.Inv h' (WB.Spec.step s (.splitAndAppend t f e)) ∧ h'.valid = h.valid := by
  obtain ⟨h', e', i, v⟩ := exec_refines h s (.splitAndAppend t f e) hi ⟨hne, ⟨ts, ht⟩, xs, hf, he⟩ fuel (by simpa [WB.fuelFor, WB.seqOf_eq s f xs hf] using hfu)
  refine ⟨h', ?_, i, v⟩
  simp only [WB.exec] at e'
  cases hq : splitAndAppend fuel h t f e with
  | none => rw [hq] at e'; cases e'
  | some p => rw [hq] at e'; simp only [Option.bind_eq_bind, Option.bind_some, pure, Option.some.injEq, Prod.mk.injEq] at e'; rw [e'.2]

theorem queueEmpty_ok {h : Heap} {s : State} (hi : WB.Inv h s) {b : Addr} {xs : List Addr} (hb : s.buf b = some xs) : queueEmpty h b = some xs.isEmpty :=
  WB.queueEmpty_ring h b xs (hi.ring b xs hb)

theorem getW_ok {h : Heap} {s : State} (hi : WB.Inv h s) {e d l : Nat} (he : s.elem e = some (d, l)) : getW0 h e = some d ∧ getW1 h e = some l := by
  obtain ⟨v, h0, h1, -⟩ := hi.elem e d l he
  rw [WB.getW0_ok h e v, WB.getW1_ok h e v, h0, h1]
  exact ⟨rfl, rfl⟩

/-! ### The relation -/

/-- An element as the model on sequences sees it. -/
def elemOf (c : Nodes) (mem : Mem) (s : State) (a : Addr) : Elem := ⟨if a = c.temp then temp else a, bytesAt mem ((s.elem a).getD (0, 0)).1 ((s.elem a).getD (0, 0)).2⟩

/-- What always holds during a write; `s` is what the memory represents. -/
structure B (c : Nodes) (h : Heap) (s : State) (xs : List Addr) : Prop where
  inv : WB.Inv h s
  user : s.buf c.user = some xs
  v0 : h.valid 0 = false
  tv : h.valid c.temp = true
  wv : h.valid c.wbh = true
  tb : s.buf c.temp = none
  tu : c.temp ≠ c.user
  tw : c.temp ≠ c.wbh
  wu : c.wbh ≠ c.user
  tf : ∀ hd zs, s.buf hd = some zs → hd ≠ c.wbh → c.temp ∉ zs
  wf : Free s c.wbh

/-- While there is more to write. -/
structure M (c : Nodes) (h : Heap) (s : State) (xs ys : List Addr) : Prop extends B c h s xs where
  wbh : s.buf c.wbh = some ys
  tt : c.temp ∉ ys.tail

/-- Only the two nodes of the stream and the user's write buffer have changed. -/
structure Same (c : Nodes) (s s' : State) : Prop where
  elem : ∀ a, a ≠ c.temp → a ≠ c.wbh → s'.elem a = s.elem a
  buf : ∀ hd, hd ≠ c.user → hd ≠ c.wbh → s'.buf hd = s.buf hd

theorem Same.refl (c : Nodes) (s : State) : Same c s s := ⟨fun _ _ _ => rfl, fun _ _ _ => rfl⟩
theorem Same.trans {c : Nodes} {s s' s'' : State} (h : Same c s s') (h' : Same c s' s'') : Same c s s'' :=
  ⟨fun a h1 h2 => (h'.elem a h1 h2).trans (h.elem a h1 h2), fun a h1 h2 => (h'.buf a h1 h2).trans (h.buf a h1 h2)⟩

theorem elemOf_congr (c : Nodes) (mem : Mem) (s s' : State) (a : Addr) (h : s'.elem a = s.elem a) : elemOf c mem s' a = elemOf c mem s a := by
  simp [elemOf, h]

theorem B.nz {c : Nodes} {h : Heap} {s : State} {xs : List Addr} (b : B c h s xs) {hd : Addr} {zs : List Addr} (hb : s.buf hd = some zs) {a : Addr} (ha : a ∈ zs) : a ≠ 0 := by
  rintro rfl
  have := (b.inv.ring hd zs hb).valid 0 (List.mem_cons_of_mem _ ha)
  rw [b.v0] at this; cases this

theorem isTemp_elemOf (c : Nodes) (mem : Mem) (s : State) (a : Addr) (h : a ≠ 0) : isTemp (elemOf c mem s a) = decide (c.temp = a) := by
  unfold isTemp elemOf
  by_cases e : a = c.temp
  · simp [e, temp]
  · simp [e, temp, h, Ne.symm e]

theorem elemOf_length (c : Nodes) (mem : Mem) (s : State) (a d l : Nat) (h : s.elem a = some (d, l)) : (elemOf c mem s a).data.length = l := by
  simp [elemOf, h, bytesAt]

theorem drop_bytesAt (mem : Mem) (d l n : Nat) : (bytesAt mem d l).drop n = bytesAt mem (d + n) (l - n) := by
  apply List.ext_getElem
  · simp [bytesAt]
  · intro i h1 h2
    simp [bytesAt, Nat.add_assoc]

/-- An element that was taken out of `wbh` is in no buffer. -/
theorem free_dequeued {c : Nodes} {h : Heap} {s : State} {xs ys : List Addr} {e : Addr} (m : M c h s xs (e :: ys)) :
    Free { s with buf := setFn s.buf c.wbh (some ys) } e := by
  intro hd zs hz
  by_cases eq : hd = c.wbh
  · subst eq
    have hz : setFn s.buf c.wbh (some ys) c.wbh = some zs := hz
    rw [WB.setFn_same] at hz
    cases hz
    have := (m.inv.ring c.wbh (e :: ys) m.wbh).nodup
    simp only [List.nodup_cons, List.mem_cons, not_or] at this
    exact this.2.1
  · have hz' : s.buf hd = some zs := by simpa [WB.setFn_ne _ _ _ _ eq] using hz
    have := m.inv.disj c.wbh hd (e :: ys) zs m.wbh hz' (Ne.symm eq) e (by simp)
    exact fun hm => this (List.mem_cons_of_mem _ hm)

/-- One element is taken out of `wbh` and, unless it is the stream's own, put back into the user's buffer. -/
theorem take_one {c : Nodes} {h : Heap} {s : State} {xs ys : List Addr} {e : Addr} (m : M c h s xs (e :: ys)) :
    ∃ h1 h2 s2, queueDequeue h c.wbh = some (some e, h1) ∧ backToUser c h1 e = some h2 ∧ s2.elem = s.elem ∧
      M c h2 s2 (if c.temp = e then xs else xs ++ [e]) ys ∧ Same c s s2 ∧ WB.Inv h1 { s with buf := setFn s.buf c.wbh (some ys) } ∧ Free s2 c.temp := by
  obtain ⟨h1, q1, i1, v1⟩ := dequeue_ok m.inv m.wbh
  simp only [List.head?_cons, List.tail_cons] at q1 i1
  have hfree := free_dequeued m
  have hu : (setFn s.buf c.wbh (some ys)) c.user = some xs := by rw [WB.setFn_ne _ _ _ _ (Ne.symm m.wu)]; exact m.user
  have hw : (setFn s.buf c.wbh (some ys)) c.wbh = some ys := WB.setFn_same _ _ _
  have htb : (setFn s.buf c.wbh (some ys)) c.temp = none := by rw [WB.setFn_ne _ _ _ _ m.tw]; exact m.tb
  have htf : ∀ hd zs, setFn s.buf c.wbh (some ys) hd = some zs → hd ≠ c.wbh → c.temp ∉ zs := fun hd zs hz hn =>
    m.tf hd zs (by simpa [WB.setFn_ne _ _ _ _ hn] using hz) hn
  have hsub : ∀ hd zs, setFn s.buf c.wbh (some ys) hd = some zs → ∃ zs', s.buf hd = some zs' ∧ ∀ a ∈ zs, a ∈ zs' := by
    intro hd zs hz
    by_cases eq : hd = c.wbh
    · subst eq; rw [WB.setFn_same] at hz; cases hz
      exact ⟨_, m.wbh, fun a ha => List.mem_cons_of_mem _ ha⟩
    · exact ⟨zs, by simpa [WB.setFn_ne _ _ _ _ eq] using hz, fun a ha => ha⟩
  have hwf : Free { s with buf := setFn s.buf c.wbh (some ys) } c.wbh := by
    intro hd zs hz hm
    obtain ⟨zs', h1, h2⟩ := hsub hd zs hz
    exact m.wf hd zs' h1 (h2 _ hm)
  have hsame : Same c s { s with buf := setFn s.buf c.wbh (some ys) } := ⟨fun _ _ _ => rfl, fun hd _ h2 => WB.setFn_ne _ _ _ _ h2⟩
  have htt : c.temp ∉ ys.tail := fun hm => m.tt (List.mem_of_mem_tail hm)
  by_cases et : c.temp = e
  · refine ⟨h1, h1, { s with buf := setFn s.buf c.wbh (some ys) }, q1, by simp [backToUser, et], rfl, ?_, hsame, i1, ?_⟩
    · rw [if_pos et]
      exact ⟨⟨i1, hu, by rw [v1]; exact m.v0, by rw [v1]; exact m.tv, by rw [v1]; exact m.wv, htb, m.tu, m.tw, m.wu, htf, hwf⟩, hw, htt⟩
    · rw [et]; exact hfree
  · have hin : ∃ d, s.elem e = some d := m.inv.inited c.wbh _ m.wbh e (by simp)
    obtain ⟨h2, q2, i2, v2⟩ := queueTail_ok i1 hu hin hfree
    have hne_ew : e ≠ c.wbh := fun eq => m.wf c.wbh _ m.wbh (eq ▸ List.mem_cons_self)
    have htf2 : ∀ hd zs, setFn (setFn s.buf c.wbh (some ys)) c.user (some (xs ++ [e])) hd = some zs → hd ≠ c.wbh → c.temp ∉ zs := by
      intro hd zs hz hn
      by_cases eq : hd = c.user
      · subst eq; rw [WB.setFn_same] at hz; cases hz
        have := m.tf _ _ m.user (Ne.symm m.wu)
        simp [this, et]
      · rw [WB.setFn_ne _ _ _ _ eq] at hz; exact htf hd zs hz hn
    refine ⟨h1, h2, { s with buf := setFn (setFn s.buf c.wbh (some ys)) c.user (some (xs ++ [e])) }, q1, by simpa [backToUser, et] using q2, rfl, ?_, hsame.trans ⟨fun _ _ _ => rfl, fun hd h1 _ => WB.setFn_ne _ _ _ _ h1⟩, i1, ?_⟩
    · rw [if_neg et]
      refine ⟨⟨i2, WB.setFn_same _ _ _, by rw [v2, v1]; exact m.v0, by rw [v2, v1]; exact m.tv, by rw [v2, v1]; exact m.wv, ?_, m.tu, m.tw, m.wu, htf2, ?_⟩, ?_, htt⟩
      · show setFn _ _ _ _ = none; rw [WB.setFn_ne _ _ _ _ m.tu]; exact htb
      · intro hd zs hz hm
        by_cases eq : hd = c.user
        · subst eq
          have hz : setFn _ c.user (some (xs ++ [e])) c.user = some zs := hz
          rw [WB.setFn_same] at hz; cases hz
          rcases List.mem_append.mp hm with hm | hm
          · exact m.wf _ _ m.user hm
          · simp at hm; exact hne_ew hm.symm
        · exact hwf hd zs (by simpa [WB.setFn_ne _ _ _ _ eq] using hz) hm
      · show setFn _ _ _ _ = some ys; rw [WB.setFn_ne _ _ _ _ m.wu]; exact hw
    · intro hd zs hz hm
      by_cases eq : hd = c.wbh
      · subst eq
        have hz : setFn (setFn s.buf c.wbh (some ys)) c.user (some (xs ++ [e])) c.wbh = some zs := hz
        rw [WB.setFn_ne _ _ _ _ m.wu, hw] at hz; cases hz
        exact m.tt hm
      · exact htf2 hd zs hz eq hm

theorem map_elemOf (c : Nodes) (mem : Mem) (s s' : State) (zs : List Addr) (h : ∀ a ∈ zs, s'.elem a = s.elem a) :
    zs.map (elemOf c mem s') = zs.map (elemOf c mem s) := List.map_congr_left fun a ha => elemOf_congr c mem s s' a (h a ha)

theorem giveBack_sim (c : Nodes) (mem : Mem) (ys : List Addr) : ∀ (fuel : Nat) (h : Heap) (s : State) (xs : List Addr), M c h s xs ys → ys.length < fuel →
    ∃ h' s' xs', giveBack c fuel h = some h' ∧ M c h' s' xs' [] ∧ Same c s s' ∧
      xs'.map (elemOf c mem s') = BufferedWrite.giveBack (xs.map (elemOf c mem s)) (ys.map (elemOf c mem s)) := by
  induction ys with
  | nil =>
    intro fuel h s xs m hf
    cases fuel with
    | zero => omega
    | succ fuel =>
      obtain ⟨h1, q1, i1, v1⟩ := dequeue_ok m.inv m.wbh
      simp only [List.head?_nil, List.tail_nil] at q1 i1
      have e : ({ s with buf := setFn s.buf c.wbh (some []) } : State) = s := by
        have : setFn s.buf c.wbh (some []) = s.buf := by
          funext a; by_cases ea : a = c.wbh
          · rw [ea, WB.setFn_same, m.wbh]
          · rw [WB.setFn_ne _ _ _ _ ea]
        rw [this]
      rw [e] at i1
      refine ⟨h1, s, xs, by simp [giveBack, q1], ⟨⟨i1, m.user, by rw [v1]; exact m.v0, by rw [v1]; exact m.tv, by rw [v1]; exact m.wv, m.tb, m.tu, m.tw, m.wu, m.tf, m.wf⟩, m.wbh, m.tt⟩, .refl c s, rfl⟩
  | cons e ys ih =>
    intro fuel h s xs m hf
    cases fuel with
    | zero => omega
    | succ fuel =>
      obtain ⟨h1, h2, s2, q1, q2, es, m2, sm, -, -⟩ := take_one m
      obtain ⟨h', s', xs', g1, g2, g3, g4⟩ := ih fuel h2 s2 _ m2 (by simp only [List.length_cons] at hf; omega)
      refine ⟨h', s', xs', by simp [giveBack, q1, q2, g1], g2, sm.trans g3, ?_⟩
      rw [g4, map_elemOf c mem s s2 ys (fun a _ => by rw [es]), List.map_cons, BufferedWrite.giveBack, isTemp_elemOf c mem s e (m.nz m.wbh (by simp)),
        map_elemOf c mem s s2 _ (fun a _ => by rw [es])]
      congr 1
      by_cases et : c.temp = e <;> simp [et]

theorem advance_sim (c : Nodes) (mem : Mem) (ys : List Addr) : ∀ (fuel n : Nat) (h : Heap) (s : State) (xs : List Addr), M c h s xs ys → ys.length < fuel →
    ∃ h' s' xs' ys', advance c fuel h n = some h' ∧ M c h' s' xs' ys' ∧ Same c s s' ∧
      (xs'.map (elemOf c mem s'), ys'.map (elemOf c mem s')) = BufferedWrite.advance (xs.map (elemOf c mem s)) n (ys.map (elemOf c mem s)) := by
  induction ys with
  | nil =>
    intro fuel n h s xs m hf
    cases fuel with
    | zero => omega
    | succ fuel =>
      obtain ⟨h1, q1, i1, v1⟩ := dequeue_ok m.inv m.wbh
      simp only [List.head?_nil, List.tail_nil] at q1 i1
      have e : ({ s with buf := setFn s.buf c.wbh (some []) } : State) = s := by
        have : setFn s.buf c.wbh (some []) = s.buf := by
          funext a; by_cases ea : a = c.wbh
          · rw [ea, WB.setFn_same, m.wbh]
          · rw [WB.setFn_ne _ _ _ _ ea]
        rw [this]
      rw [e] at i1
      exact ⟨h1, s, xs, [], by simp [advance, q1], ⟨⟨i1, m.user, by rw [v1]; exact m.v0, by rw [v1]; exact m.tv, by rw [v1]; exact m.wv, m.tb, m.tu, m.tw, m.wu, m.tf, m.wf⟩, m.wbh, m.tt⟩, .refl c s, rfl⟩
  | cons e ys ih =>
    intro fuel n h s xs m hf
    cases fuel with
    | zero => omega
    | succ fuel =>
      obtain ⟨h1, h2, s2, q1, q2, es, m2, sm, i1, hfree⟩ := take_one m
      obtain ⟨⟨d, l⟩, hd⟩ := m.inv.inited c.wbh _ m.wbh e (by simp)
      have w1 := (getW_ok i1 (show State.elem { s with buf := _ } e = some (d, l) from hd)).2
      have w2 := getW_ok m2.inv (show s2.elem e = some (d, l) by rw [es]; exact hd)
      have ht := isTemp_elemOf c mem s e (m.nz m.wbh (by simp))
      have hlen := elemOf_length c mem s e d l hd
      have htx : c.temp ∉ (if c.temp = e then xs else xs ++ [e]) := m2.tf _ _ m2.user (Ne.symm m2.wu)
      have hty : c.temp ∉ ys := m.tt
      have hx : (if c.temp = e then xs else xs ++ [e]).map (elemOf c mem s) =
          (if isTemp (elemOf c mem s e) = true then xs.map (elemOf c mem s) else xs.map (elemOf c mem s) ++ [elemOf c mem s e]) := by
        rw [ht]
        by_cases et : c.temp = e <;> simp [et]
      by_cases hp : l > n
      · obtain ⟨h3, q3, i3, v3⟩ := elementInit_ok m2.inv (d + n) (l - n) m2.tv m2.tb hfree
        have hf3 : Free { s2 with elem := setFn s2.elem c.temp (some (d + n, l - n)) } c.temp := hfree
        obtain ⟨h4, q4, i4, v4⟩ := queueHead_ok i3 (b := c.wbh) (xs := ys) m2.wbh ⟨_, WB.setFn_same _ _ _⟩ hf3
        have hdel : ∀ a, a ≠ c.temp → setFn s2.elem c.temp (some (d + n, l - n)) a = s.elem a := fun a ha => by rw [WB.setFn_ne _ _ _ _ ha, es]
        refine ⟨h4, _, (if c.temp = e then xs else xs ++ [e]), c.temp :: ys, ?_, ⟨⟨i4, ?_, ?_, ?_, ?_, ?_, m.tu, m.tw, m.wu, ?_, ?_⟩, WB.setFn_same _ _ _, m.tt⟩, sm.trans ⟨?_, ?_⟩, ?_⟩
        · simp [advance, q1, w1, hp, q2, w2, q3, q4]
        · show setFn _ _ _ _ = _
          rw [WB.setFn_ne _ _ _ _ (Ne.symm m.wu)]; exact m2.user
        · rw [v4, v3]; exact m2.v0
        · rw [v4, v3]; exact m2.tv
        · rw [v4, v3]; exact m2.wv
        · show setFn _ _ _ _ = _
          rw [WB.setFn_ne _ _ _ _ m.tw]; exact m2.tb
        · intro hd' zs hz hn
          exact m2.tf hd' zs (by simpa [WB.setFn_ne _ _ _ _ hn] using hz) hn
        · intro hd' zs hz hm
          by_cases eq : hd' = c.wbh
          · subst eq
            have hz : setFn _ c.wbh (some (c.temp :: ys)) c.wbh = some zs := hz
            rw [WB.setFn_same] at hz; cases hz
            rcases List.mem_cons.mp hm with hm | hm
            · exact m.tw hm.symm
            · exact m2.wf _ _ m2.wbh hm
          · exact m2.wf hd' zs (by simpa [WB.setFn_ne _ _ _ _ eq] using hz) hm
        · intro a ha _; exact WB.setFn_ne _ _ _ _ ha
        · intro a _ ha; exact WB.setFn_ne _ _ _ _ ha
        · simp only [List.map_cons, BufferedWrite.advance, partiallyWritten, hlen, decide_eq_true hp, if_true]
          rw [← hx]
          rw [map_elemOf c mem s _ _ (fun a ha => hdel a (fun eq => htx (by rw [eq] at ha; exact ha))), map_elemOf c mem s _ ys (fun a ha => hdel a (fun eq => hty (eq ▸ ha)))]
          congr 2
          simp only [elemOf, if_true, WB.setFn_same, Option.getD_some, hd, drop_bytesAt]
      · obtain ⟨h', s', xs', ys', g1, g2, g3, g4⟩ := ih fuel (n - l) h2 s2 _ m2 (by simp only [List.length_cons] at hf; omega)
        refine ⟨h', s', xs', ys', by simp [advance, q1, w1, hp, q2, g1], g2, sm.trans g3, ?_⟩
        rw [g4, map_elemOf c mem s s2 ys (fun a _ => by rw [es]), map_elemOf c mem s s2 _ (fun a _ => by rw [es]), List.map_cons]
        simp only [BufferedWrite.advance, partiallyWritten, hlen]
        rw [hx, if_neg (show ¬ decide (l > n) = true by simpa using Nat.le_of_not_lt hp)]

/-! ### What the transport sees -/

theorem gather_sim (c : Nodes) (mem : Mem) {h : Heap} {s : State} (hi : WB.Inv h s) (zs : List Addr) : ∀ (a b : Addr), WB.Seg h.next h.prev a zs b → h.valid a = true →
    (∀ z ∈ zs, ∃ d, s.elem z = some d) → gather mem h zs.length (h.next a) = some (flat (zs.map (elemOf c mem s))) := by
  induction zs with
  | nil => intro a b _ _ _; rfl
  | cons z zs ih =>
    intro a b hs hv hz
    obtain ⟨⟨d, l⟩, hd⟩ := hz z (by simp)
    obtain ⟨g0, g1⟩ := getW_ok hi hd
    have hvz := (hi.elem z d l hd).1
    have ih := ih z b hs.2.2 hvz (fun x hx => hz x (List.mem_cons_of_mem _ hx))
    rw [hs.1, List.length_cons, gather, g0, g1, WB.getNext_ok h z hvz]
    simp only [Option.bind_eq_bind, Option.bind_some, ih, pure, List.map_cons, flat_cons]
    simp [elemOf, hd]

theorem request_sim (c : Nodes) (mem : Mem) {h : Heap} {s : State} (hi : WB.Inv h s) {b : Addr} {zs : List Addr} (hb : s.buf b = some zs) (hl : zs.length < 2 ^ 64) :
    request mem h b = some (flat (zs.map (elemOf c mem s))) := by
  have hr := hi.ring b zs hb
  have hv := hr.valid b (by simp)
  have hq : h.w0 b = zs.length := by rw [hr.qlen]; exact Nat.mod_eq_of_lt hl
  rw [request, WB.getW0_ok h b hv, WB.getNext_ok h b hv, hq]
  exact gather_sim c mem hi zs b b hr.seg hv (hi.inited b zs hb)

theorem total_sim (c : Nodes) (mem : Mem) {h : Heap} {s : State} (hi : WB.Inv h s) {b : Addr} {zs : List Addr} (hb : s.buf b = some zs) :
    getW1 h b = some ((flat (zs.map (elemOf c mem s))).length % 2 ^ 64) := by
  have hr := hi.ring b zs hb
  rw [WB.getW1_ok h b (hr.valid b (by simp)), hr.total]
  have : ∀ zs : List Addr, (∀ z ∈ zs, ∃ d, s.elem z = some d) → (zs.map h.w1).sum = (flat (zs.map (elemOf c mem s))).length := by
    intro zs
    induction zs with
    | nil => intro _; rfl
    | cons z zs ih =>
      intro hz
      obtain ⟨⟨d, l⟩, hd⟩ := hz z (by simp)
      rw [List.map_cons, List.sum_cons, List.map_cons, flat_cons, List.length_append, elemOf_length c mem s z d l hd, (hi.elem z d l hd).2.2.1,
        ih (fun x hx => hz x (List.mem_cons_of_mem _ hx))]
  rw [this zs (hi.inited b zs hb)]
  rfl

/-! ### The first short write -/

theorem findPartial_sim (c : Nodes) (mem : Mem) {h : Heap} {s : State} (hi : WB.Inv h s) (zs : List Addr) : ∀ (fuel n : Nat) (a b : Addr), WB.Seg h.next h.prev a zs b → h.valid a = true →
    (∀ z ∈ zs, ∃ d, s.elem z = some d) → zs.length < fuel → ∀ pre x m post, BufferedWrite.findPartial n (zs.map (elemOf c mem s)) = some (pre, x, m, post) →
    ∃ e pre' post', findPartial h fuel (h.next a) n = some (e, m) ∧ zs = pre' ++ e :: post' ∧ pre = pre'.map (elemOf c mem s) ∧ x = elemOf c mem s e ∧
      post = post'.map (elemOf c mem s) := by
  induction zs with
  | nil => intro fuel n a b _ _ _ _ pre x m post hp; simp [BufferedWrite.findPartial] at hp
  | cons z zs ih =>
    intro fuel n a b hs hv hz hf pre x m post hp
    cases fuel with
    | zero => omega
    | succ fuel =>
      obtain ⟨⟨d, l⟩, hd⟩ := hz z (by simp)
      obtain ⟨g0, g1⟩ := getW_ok hi hd
      have hvz := (hi.elem z d l hd).1
      have hlen := elemOf_length c mem s z d l hd
      simp only [List.map_cons, BufferedWrite.findPartial, partiallyWritten, hlen] at hp
      rw [hs.1]
      by_cases hp' : l > n
      · rw [if_pos (by simpa using hp')] at hp
        cases hp
        exact ⟨z, [], zs, by simp [findPartial, g1, hp'], rfl, rfl, rfl, rfl⟩
      · rw [if_neg (by simpa using Nat.le_of_not_lt hp')] at hp
        simp only [Option.map_eq_some_iff] at hp
        obtain ⟨⟨pre1, x1, m1, post1⟩, hp1, hp2⟩ := hp
        simp only [Prod.mk.injEq] at hp2
        obtain ⟨rfl, rfl, rfl, rfl⟩ := hp2
        obtain ⟨e, pre', post', r1, r2, r3, r4, r5⟩ := ih fuel (n - l) z b hs.2.2 hvz (fun x hx => hz x (List.mem_cons_of_mem _ hx)) (by simp only [List.length_cons] at hf; omega) _ _ _ _ hp1
        refine ⟨e, z :: pre', post', ?_, by rw [r2]; rfl, by rw [r3]; rfl, r4, r5⟩
        simp [findPartial, g1, hp', WB.getNext_ok h z hvz, r1]

theorem takeWhile_split (p : Addr) (pre post : List Addr) (h : p ∉ pre) : (pre ++ p :: post).takeWhile (· ≠ p) = pre ∧ (pre ++ p :: post).dropWhile (· ≠ p) = p :: post := by
  induction pre with
  | nil => simp
  | cons q pre ih =>
    have hq : q ≠ p := fun e => h (e ▸ List.mem_cons_self)
    have ih := ih (fun hm => h (List.mem_cons_of_mem _ hm))
    simp only [List.cons_append, List.takeWhile_cons, List.dropWhile_cons, ne_eq, hq, not_false_eq_true, decide_true, if_true] at ih ⊢
    exact ⟨by rw [ih.1], ih.2⟩

theorem partial_sim (c : Nodes) (mem : Mem) (fuel n : Nat) (w : World) (s : State) (xs : List Addr) (b : B c w.heap s xs) (hf : xs.length + 2 ≤ fuel)
    (wl wl' : BufferedWrite.World) (hc : wl.chain = xs.map (elemOf c mem s)) (hl : BufferedWrite.handlePartialWrites wl n = some wl') :
    ∃ h' s' xs' ys', handlePartialWrites c fuel w n = some { w with phase := .more, heap := h' } ∧ M c h' s' xs' ys' ∧ Same c s s' ∧ ys'.length ≤ xs.length + 1 ∧ xs'.length ≤ xs.length ∧
      wl' = { wl with phase := .more, chain := xs'.map (elemOf c mem s'), wbh := ys'.map (elemOf c mem s') } := by
  simp only [BufferedWrite.handlePartialWrites, hc, Option.bind_eq_bind] at hl
  cases hfp : BufferedWrite.findPartial n (xs.map (elemOf c mem s)) with
  | none => rw [hfp] at hl; cases hl
  | some r =>
    obtain ⟨pre, x, m, post⟩ := r
    rw [hfp] at hl
    simp only [Option.bind_some] at hl
    obtain ⟨h1, q1, i1, v1⟩ := headInit_ok b.inv b.wv b.wf
    have hwx : c.wbh ∉ xs := b.wf _ _ b.user
    have htx : c.temp ∉ xs := b.tf _ _ b.user (Ne.symm b.wu)
    have hu1 : setFn s.buf c.wbh (some []) c.user = some xs := by rw [WB.setFn_ne _ _ _ _ (Ne.symm b.wu)]; exact b.user
    have hr1 := i1.ring c.user xs hu1
    have hmap1 : xs.map (elemOf c mem { s with elem := setFn s.elem c.wbh none, buf := setFn s.buf c.wbh (some []) }) = xs.map (elemOf c mem s) :=
      map_elemOf c mem s _ xs (fun a ha => WB.setFn_ne _ _ _ _ (fun eq => hwx (eq ▸ ha)))
    obtain ⟨e, pre', post', f1, f2, f3, f4, f5⟩ := findPartial_sim c mem i1 xs fuel n c.user c.user hr1.seg (hr1.valid _ (by simp)) (i1.inited _ _ hu1) (by omega) pre x m post
      (by rw [hmap1]; exact hfp)
    have hex : e ∈ xs := by rw [f2]; simp
    obtain ⟨⟨d, l⟩, hd⟩ := b.inv.inited _ _ b.user e hex
    have hew : e ≠ c.wbh := fun eq => hwx (eq ▸ hex)
    have het : e ≠ c.temp := fun eq => htx (eq ▸ hex)
    have g := getW_ok i1 (show State.elem { s with elem := setFn s.elem c.wbh none, buf := setFn s.buf c.wbh (some []) } e = some (d, l) by
      show setFn _ _ _ _ = _; rw [WB.setFn_ne _ _ _ _ hew]; exact hd)
    have htb1 : setFn s.buf c.wbh (some []) c.temp = none := by rw [WB.setFn_ne _ _ _ _ b.tw]; exact b.tb
    have htf1 : Free { s with elem := setFn s.elem c.wbh none, buf := setFn s.buf c.wbh (some []) } c.temp := by
      intro hd' zs hz hm
      by_cases eq : hd' = c.wbh
      · subst eq
        have hz : setFn s.buf c.wbh (some []) c.wbh = some zs := hz
        rw [WB.setFn_same] at hz; cases hz; cases hm
      · exact b.tf hd' zs (by simpa [WB.setFn_ne _ _ _ _ eq] using hz) eq hm
    obtain ⟨h2, q2, i2, v2⟩ := elementInit_ok i1 (d + m) (l - m) (by rw [v1]; exact b.tv) htb1 htf1
    obtain ⟨h3, q3, i3, v3⟩ := queueHead_ok i2 (b := c.wbh) (e := c.temp) (xs := []) (WB.setFn_same _ _ _) ⟨_, WB.setFn_same _ _ _⟩ htf1
    -- the state now
    generalize hs3 : ({ elem := setFn (setFn s.elem c.wbh none) c.temp (some (d + m, l - m)), buf := setFn (setFn s.buf c.wbh (some [])) c.wbh (some [c.temp]) } : State) = s3
    have i3 : WB.Inv h3 s3 := by rw [← hs3]; exact i3
    have hw3 : s3.buf c.wbh = some [c.temp] := by rw [← hs3]; exact WB.setFn_same _ _ _
    have hu3 : s3.buf c.user = some xs := by rw [← hs3]; show setFn _ _ _ _ = _; rw [WB.setFn_ne _ _ _ _ (Ne.symm b.wu)]; exact hu1
    have ho3 : ∀ hd', hd' ≠ c.wbh → s3.buf hd' = s.buf hd' := by
      intro hd' hn; rw [← hs3]; show setFn _ _ _ _ = _; rw [WB.setFn_ne _ _ _ _ hn, WB.setFn_ne _ _ _ _ hn]
    have he3 : ∀ a, a ≠ c.temp → a ≠ c.wbh → s3.elem a = s.elem a := by
      intro a h1 h2; rw [← hs3]; show setFn _ _ _ _ = _; rw [WB.setFn_ne _ _ _ _ h1, WB.setFn_ne _ _ _ _ h2]
    have hT3 : s3.elem c.temp = some (d + m, l - m) := by rw [← hs3]; exact WB.setFn_same _ _ _
    have hr3 := i3.ring c.user xs hu3
    have hnx : getNext h3 e = some (WB.fst post' c.user) := by
      rw [WB.getNext_ok h3 e (hr3.valid e (List.mem_cons_of_mem _ hex))]
      have := (WB.ring_next h3 c.user (pre' ++ [e]) post' (by rw [List.append_assoc]; rw [f2] at hr3; exact hr3)).1
      rw [WB.lst_append] at this
      exact congrArg some this
    have hsp : WB.fst post' c.user = c.user ∨ WB.fst post' c.user ∈ xs := by
      cases post' with
      | nil => exact .inl rfl
      | cons p ps => right; rw [f2]; simp [WB.fst]
    obtain ⟨h4, q4, i4, v4⟩ := split_ok i3 hw3 hu3 b.wu hsp fuel hf
    have hrun : handlePartialWrites c fuel w n = some { w with phase := .more, heap := h4 } := by
      have hn1 : getNext h1 c.user = some (h1.next c.user) := WB.getNext_ok h1 c.user (hr1.valid _ (by simp))
      simp [handlePartialWrites, q1, hn1, f1, g.1, g.2, q2, q3, hnx, q4]
    have hval : h4.valid = w.heap.valid := by rw [v4, v3, v2, v1]
    have htmp : elemOf c mem s3 c.temp = ⟨temp, x.data.drop m⟩ := by
      rw [f4]
      simp only [elemOf, if_true, hT3, Option.getD_some, drop_bytesAt]
      show _ = Elem.mk temp (bytesAt mem (((setFn s.elem c.wbh none e).getD (0, 0)).1 + m) (((setFn s.elem c.wbh none e).getD (0, 0)).2 - m))
      rw [WB.setFn_ne _ _ _ _ hew, hd]; rfl
    have hmap3 : ∀ zs : List Addr, (∀ z ∈ zs, z ∈ xs) → zs.map (elemOf c mem s3) = zs.map (elemOf c mem s) := fun zs hz =>
      map_elemOf c mem s s3 zs (fun a ha => he3 a (fun eq => htx (eq ▸ hz a ha)) (fun eq => hwx (eq ▸ hz a ha)))
    have hmap1' : ∀ zs : List Addr, (∀ z ∈ zs, z ∈ xs) → zs.map (elemOf c mem { s with elem := setFn s.elem c.wbh none, buf := setFn s.buf c.wbh (some []) }) = zs.map (elemOf c mem s) :=
      fun zs hz => map_elemOf c mem s _ zs (fun a ha => WB.setFn_ne _ _ _ _ (fun eq => hwx (eq ▸ hz a ha)))
    -- the final state, given the new contents of the two buffers
    have fin : ∀ (xs' ys' : List Addr) (s4 : State), WB.Inv h4 s4 → s4 = { s3 with buf := setFn (setFn s3.buf c.wbh (some (c.temp :: ys'))) c.user (some xs') } →
        (∀ a ∈ xs', a ∈ xs) → (∀ a ∈ ys', a ∈ xs) → M c h4 s4 xs' (c.temp :: ys') ∧ Same c s s4 ∧
          xs'.map (elemOf c mem s4) = xs'.map (elemOf c mem s) ∧ (c.temp :: ys').map (elemOf c mem s4) = ⟨temp, x.data.drop m⟩ :: ys'.map (elemOf c mem s) := by
      intro xs' ys' s4 i e4 hx' hy'
      subst e4
      refine ⟨⟨⟨i, WB.setFn_same _ _ _, by rw [hval]; exact b.v0, by rw [hval]; exact b.tv, by rw [hval]; exact b.wv, ?_, b.tu, b.tw, b.wu, ?_, ?_⟩, ?_, ?_⟩, ⟨?_, ?_⟩, ?_, ?_⟩
      · show setFn _ _ _ _ = _
        rw [WB.setFn_ne _ _ _ _ b.tu, WB.setFn_ne _ _ _ _ b.tw, ho3 _ b.tw]; exact b.tb
      · intro hd' zs hz hn hm
        have hz : setFn (setFn s3.buf c.wbh (some (c.temp :: ys'))) c.user (some xs') hd' = some zs := hz
        by_cases eq : hd' = c.user
        · subst eq; rw [WB.setFn_same] at hz; cases hz; exact htx (hx' _ hm)
        · rw [WB.setFn_ne _ _ _ _ eq, WB.setFn_ne _ _ _ _ hn, ho3 _ hn] at hz
          exact b.tf hd' zs hz hn hm
      · intro hd' zs hz hm
        have hz : setFn (setFn s3.buf c.wbh (some (c.temp :: ys'))) c.user (some xs') hd' = some zs := hz
        by_cases eq : hd' = c.user
        · subst eq; rw [WB.setFn_same] at hz; cases hz; exact hwx (hx' _ hm)
        · rw [WB.setFn_ne _ _ _ _ eq] at hz
          by_cases eq2 : hd' = c.wbh
          · subst eq2; rw [WB.setFn_same] at hz; cases hz
            rcases List.mem_cons.mp hm with hm | hm
            · exact b.tw hm.symm
            · exact hwx (hy' _ hm)
          · rw [WB.setFn_ne _ _ _ _ eq2, ho3 _ eq2] at hz
            exact b.wf hd' zs hz hm
      · show setFn _ _ _ _ = _
        rw [WB.setFn_ne _ _ _ _ b.wu, WB.setFn_same]
      · exact fun hm => htx (hy' _ hm)
      · exact he3
      · intro hd' h1 h2
        show setFn _ _ _ _ = _
        rw [WB.setFn_ne _ _ _ _ h1, WB.setFn_ne _ _ _ _ h2, ho3 _ h2]
      · exact hmap3 xs' hx'
      · rw [List.map_cons]
        refine congrArg₂ List.cons ?_ (hmap3 ys' hy')
        exact htmp
    cases post' with
    | nil =>
      have e4 : WB.Spec.step s3 (.splitAndAppend c.wbh c.user (WB.fst [] c.user)) = { s3 with buf := setFn (setFn s3.buf c.wbh (some (c.temp :: xs))) c.user (some []) } := by
        simp [WB.Spec.step, WB.fst, WB.seqOf_eq _ _ _ hw3, WB.seqOf_eq _ _ _ hu3]
      obtain ⟨p1, p2, p3, p4⟩ := fin [] xs _ i4 e4 (by simp) (fun a ha => ha)
      refine ⟨h4, _, [], c.temp :: xs, hrun, p1, p2, by simp, by simp, ?_⟩
      rw [p4]
      have : post = [] := f5
      subst this
      simp only [Option.some.injEq] at hl
      rw [← hl]; rfl
    | cons p ps =>
      have hne : p ≠ c.user := by
        intro eq
        have := hr3.nodup
        rw [f2, eq] at this
        simp at this
      have hpn : p ∉ pre' ++ [e] := by
        have := (List.nodup_cons.mp hr3.nodup).2
        rw [f2] at this
        have e' : pre' ++ e :: p :: ps = (pre' ++ [e]) ++ p :: ps := by simp
        rw [e', List.nodup_append] at this
        exact fun hm => this.2.2 p hm p (by simp) rfl
      have hxs : xs = (pre' ++ [e]) ++ p :: ps := by rw [f2]; simp
      have e4 : WB.Spec.step s3 (.splitAndAppend c.wbh c.user (WB.fst (p :: ps) c.user)) = { s3 with buf := setFn (setFn s3.buf c.wbh (some (c.temp :: p :: ps))) c.user (some (pre' ++ [e])) } := by
        have t := takeWhile_split p (pre' ++ [e]) ps hpn
        rw [← hxs] at t
        rw [show WB.fst (p :: ps) c.user = p from rfl]
        simp only [WB.Spec.step, WB.seqOf_eq _ _ _ hw3, WB.seqOf_eq _ _ _ hu3, if_neg hne]
        rw [show List.dropWhile (fun x : WB.Spec.Addr => decide (x ≠ p)) xs = p :: ps from t.2, show List.takeWhile (fun x : WB.Spec.Addr => decide (x ≠ p)) xs = pre' ++ [e] from t.1]
        rfl
      obtain ⟨p1, p2, p3, p4⟩ := fin (pre' ++ [e]) (p :: ps) _ i4 e4 (fun a ha => by rw [hxs]; exact List.mem_append_left _ ha) (fun a ha => by rw [hxs]; exact List.mem_append_right _ ha)
      refine ⟨h4, _, pre' ++ [e], c.temp :: p :: ps, hrun, p1, p2, by rw [hxs]; simp only [List.length_cons, List.length_append]; omega, by rw [hxs]; simp, ?_⟩
      rw [p3, p4]
      rw [hmap1' _ (fun a ha => by rw [hxs]; exact List.mem_append_right _ ha)] at f5
      rw [hmap1' _ (fun a ha => by rw [f2]; exact List.mem_append_left _ ha)] at f3
      rw [f5] at hl
      simp only [List.map_cons, Option.some.injEq] at hl
      rw [← hl, f3, f4]
      simp only [List.map_append, List.map_cons, List.map_nil]
      have : elemOf c mem { s with elem := setFn s.elem c.wbh none, buf := setFn s.buf c.wbh (some []) } e = elemOf c mem s e :=
        elemOf_congr c mem s _ e (WB.setFn_ne _ _ _ _ hew)
      rw [this]

end Cio.BufferedWrite.OnHeap
