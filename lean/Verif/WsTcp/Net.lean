import Verif.WsTcp.Ends
/-
Both sides: each of them is one side as in `Ends.lean`; what arrives is what was sent.
-/
namespace Cio.WsTcp
open StreamSocket (Sys)
open WsStream (Env handler)
open Socket (St Obs)

theorem set_same {α : Type} (f : Bool → α) (i : Bool) (v : α) : set f i v i = v := by unfold set; rw [if_pos rfl]
theorem set_other {α : Type} (f : Bool → α) {i j : Bool} (h : j ≠ i) (v : α) : set f i v j = f j := by unfold set; rw [if_neg h]

/-- A closed stream stays closed and sends nothing any more. -/
theorem closed_stays {quiet : Bool} {H : BufferedRead.Handler} {c : Bool} {mem : List UInt8} {s s' : Sys} {x : StreamSocket.Ev} (h : StreamSocket.Inv quiet H c mem s)
    (ha : StreamSocket.Allowed quiet s x) (hs : StreamSocket.step H s x = some s') (hcl : s.br.closed = true) :
    s'.br.closed = true ∧ s'.sock.outgoing = s.sock.outgoing := by
  have no : ∀ y, BufferedRead.step H s.br y ≠ some s'.br := by
    intro y hy
    cases y with
    | user a => rw [(StreamSocket.user_facts H s.br s'.br a hy).2.1] at hcl; cases hcl
    | loop rs =>
      unfold BufferedRead.step at hy
      dsimp only at hy
      split at hy
      · next hl => rw [h.loopOpen hl] at hcl; cases hcl
      · cases hy
    | deliver d =>
      unfold BufferedRead.step at hy
      dsimp only at hy
      rw [if_neg (by simp [hcl])] at hy; cases hy
    | fail err =>
      unfold BufferedRead.step at hy
      dsimp only at hy
      rw [if_neg (by simp [hcl])] at hy; cases hy
  cases saw h ha hs with
  | user a os hx hb he => exact absurd hb (no _)
  | loop os hx hb he => exact absurd hb (no _)
  | data d hb he hx => exact absurd hb (no _)
  | fail err hb he hx => exact absurd hb (no _)
  | sent d hx hb he ho => exact ⟨by rw [hb]; exact hcl, ho⟩
  | fin hx hb he ho => exact ⟨by rw [hb]; exact hcl, ho⟩
  | rest hb he hx ho => exact ⟨by rw [hb]; exact hcl, ho hcl⟩

/-- What a step does to the history of the network side of a socket. -/
theorem net_effect {quiet : Bool} {H : BufferedRead.Handler} {c : Bool} {mem : List UInt8} {s s' : Sys} {x : StreamSocket.Ev} (h : StreamSocket.Inv quiet H c mem s)
    (ha : StreamSocket.Allowed quiet s x) (hs : StreamSocket.step H s x = some s') :
    s.sock.outgoing <+: s'.sock.outgoing ∧
      (fromPeer x = false → Socket.sent s'.sock.log = Socket.sent s.sock.log ∧ (.peerClosed ∈ s'.sock.log ↔ .peerClosed ∈ s.sock.log)) ∧
      (∀ d, x = .peerSends d → Socket.sent s'.sock.log = Socket.sent s.sock.log ++ d ∧ (.peerClosed ∈ s'.sock.log ↔ .peerClosed ∈ s.sock.log) ∧ s'.sock.outgoing = s.sock.outgoing) ∧
      (x = .peerCloses → Socket.sent s'.sock.log = Socket.sent s.sock.log ∧ s'.sock.outgoing = s.sock.outgoing) := by
  have no : ∀ {p f}, f = false → Eff p [] f s.sock s'.sock → Socket.sent s'.sock.log = Socket.sent s.sock.log ∧ (.peerClosed ∈ s'.sock.log ↔ .peerClosed ∈ s.sock.log) := by
    rintro p f hf ⟨⟨l, l1, -, l3, l4⟩, -, -⟩
    subst hf
    exact ⟨by rw [l1, Socket.sent_append, l3, List.append_nil], by rw [l1, List.mem_append, l4]; simp⟩
  cases saw h ha hs with
  | user a os hx hb he => subst hx; exact ⟨he.out, fun _ => no rfl he, fun d g => (nomatch g), fun g => (nomatch g)⟩
  | loop os hx hb he => subst hx; exact ⟨he.out, fun _ => no rfl he, fun d g => (nomatch g), fun g => (nomatch g)⟩
  | data d hb he hx => exact ⟨he.out, fun _ => no rfl he, (by rintro d rfl; cases hx), (by rintro rfl; cases hx)⟩
  | fail err hb he hx => exact ⟨he.out, fun _ => no rfl he, (by rintro d rfl; cases hx), (by rintro rfl; cases hx)⟩
  | rest hb he hx ho => exact ⟨he.out, fun _ => no rfl he, (by rintro d rfl; cases hx), (by rintro rfl; cases hx)⟩
  | sent d hx hb he ho =>
    subst hx
    refine ⟨he.out, (fun g => nomatch g), ?_, (fun g => nomatch g)⟩
    intro d' g
    injection g with g
    subst g
    obtain ⟨⟨l, l1, -, l3, l4⟩, -, -⟩ := he
    exact ⟨by rw [l1, Socket.sent_append, l3], by rw [l1, List.mem_append, l4]; simp, ho⟩
  | fin hx hb he ho =>
    subst hx
    refine ⟨he.out, (fun g => nomatch g), (fun d g => nomatch g), fun _ => ?_⟩
    obtain ⟨⟨l, l1, -, l3, l4⟩, -, -⟩ := he
    exact ⟨by rw [l1, Socket.sent_append, l3, List.append_nil], ho⟩

/-- The invariant of the network. -/
structure NetInv (quiet : Bool) (E : Bool → Env) (c : Bool → Bool) (mem : Bool → List UInt8) (n : Net) : Prop where
  ends : ∀ i, End quiet (E i) (c i) (mem i) (n.sys i)
  le : ∀ i, n.carried i ≤ (n.sys i).sock.outgoing.length
  arrived : ∀ i, Socket.sent (n.sys !i).sock.log = (n.sys i).sock.outgoing.take (n.carried i)
  fin : ∀ i, .peerClosed ∈ (n.sys !i).sock.log → (n.sys i).br.closed = true ∧ n.carried i = (n.sys i).sock.outgoing.length

theorem take_of_prefix {a b : List UInt8} {k : Nat} (h : a <+: b) (hk : k ≤ a.length) : b.take k = a.take k := by
  obtain ⟨t, rfl⟩ := h
  rw [List.take_append_of_le_length hk]

theorem reach_net {quiet : Bool} {E : Bool → Env} {c : Bool → Bool} {mem : Bool → List UInt8} (hmem : ∀ i, 125 ≤ (mem i).length) {n : Net} (h : Reach quiet E c mem n) :
    NetInv quiet E c mem n := by
  induction h with
  | init => exact ⟨fun i => .init, fun i => Nat.le_refl 0, fun i => rfl, fun i g => (nomatch g)⟩
  | @step n n' x h ha hs ih =>
    have inv : ∀ i, StreamSocket.Inv quiet (handler (E i)) (c i) (mem i) (n.sys i) := fun i =>
      StreamSocket.reach_inv (fun g => by have := hmem i; rw [g] at this; exact absurd this (by decide)) (end_reach (hmem i) (ih.ends i)).1
    have hne : ∀ i : Bool, i ≠ !i := by decide
    have hcase : ∀ i j : Bool, j = i ∨ j = !i := by decide
    cases x with
    | app i x =>
      unfold step at hs
      dsimp only at hs
      split at hs
      · cases hs
      · next hp =>
        have hp : fromPeer x = false := by simpa using hp
        cases hx : StreamSocket.step (handler (E i)) (n.sys i) x with
        | none => rw [hx] at hs; cases hs
        | some s =>
          rw [hx] at hs; cases hs
          obtain ⟨a1, a2, a3⟩ := ha
          obtain ⟨b1, b2, -, -⟩ := net_effect (inv i) a1 hx
          obtain ⟨b2, b3⟩ := b2 hp
          have se : set n.sys i s (!i) = n.sys (!i) := set_other _ (fun g => hne i g.symm) _
          refine ⟨fun j => ?_, fun j => ?_, fun j => ?_, fun j => ?_⟩ <;> dsimp only
          · rcases hcase i j with rfl | rfl
            · rw [set_same]; exact .step (ih.ends j) a1 a2 hx (a3 s hx)
            · rw [se]; exact ih.ends _
          · rcases hcase i j with rfl | rfl
            · rw [set_same]; exact Nat.le_trans (ih.le j) b1.length_le
            · rw [se]; exact ih.le _
          · show Socket.sent (set n.sys i s (!j)).sock.log = (set n.sys i s j).sock.outgoing.take (n.carried j)
            rcases hcase i j with rfl | rfl
            · rw [set_same, se, ih.arrived j, take_of_prefix b1 (ih.le j)]
            · have := ih.arrived (!i)
              rw [Bool.not_not] at this ⊢
              rw [set_same, se, b2, this]
          · show .peerClosed ∈ (set n.sys i s (!j)).sock.log → (set n.sys i s j).br.closed = true ∧ n.carried j = (set n.sys i s j).sock.outgoing.length
            rcases hcase i j with rfl | rfl
            · rw [set_same, se]
              intro g
              obtain ⟨g1, g2⟩ := ih.fin j g
              obtain ⟨k1, k2⟩ := closed_stays (inv j) a1 hx g1
              exact ⟨k1, by rw [k2]; exact g2⟩
            · have := ih.fin (!i)
              rw [Bool.not_not] at this ⊢
              rw [set_same, se, b3]
              exact this
    | carry i k =>
      unfold step at hs
      dsimp only at hs
      cases hx : StreamSocket.step (handler (E !i)) (n.sys !i) (.peerSends ((n.flying i).take k)) with
      | none => rw [hx] at hs; cases hs
      | some s =>
        rw [hx] at hs; cases hs
        obtain ⟨b1, -, b3, -⟩ := net_effect (x := .peerSends ((n.flying i).take k)) (inv !i) trivial hx
        obtain ⟨b4, b5, b6⟩ := b3 _ rfl
        have hen : End quiet (E !i) (c !i) (mem !i) s :=
          .step (ih.ends !i) (x := .peerSends ((n.flying i).take k)) trivial trivial hx (fun g1 g2 => by
            cases saw (x := .peerSends ((n.flying i).take k)) (inv !i) trivial hx with
            | user a os hx hb he => cases hx
            | loop os hx hb he => cases hx
            | data d hb he hx => cases hx
            | fail err hb he hx => cases hx
            | rest hb he hx ho => cases hx
            | fin hx hb he ho => cases hx
            | sent d hx hb he ho => rw [hb, g2] at g1; cases g1)
        have hcl : (n.sys !i).br.closed = true → s.br.closed = true := fun g => (closed_stays (x := .peerSends ((n.flying i).take k)) (inv !i) trivial hx g).1
        have ss : set n.sys (!i) s i = n.sys i := set_other _ (hne i) _
        have cs : ∀ v, set n.carried i v (!i) = n.carried (!i) := fun v => set_other _ (fun g => hne i g.symm) v
        have hfl : ((n.flying i).take k).length ≤ (n.sys i).sock.outgoing.length - n.carried i := by
          unfold Net.flying
          rw [List.length_take, List.length_drop]; exact Nat.min_le_right _ _
        have hle := ih.le i
        refine ⟨fun j => ?_, fun j => ?_, fun j => ?_, fun j => ?_⟩ <;> dsimp only
        · rcases hcase i j with rfl | rfl
          · rw [ss]; exact ih.ends j
          · rw [set_same]; exact hen
        · rcases hcase i j with rfl | rfl
          · rw [ss, set_same]; omega
          · rw [set_same, cs, b6]; exact ih.le _
        · rcases hcase i j with rfl | rfl
          · show Socket.sent (set n.sys (!j) s (!j)).sock.log = (set n.sys (!j) s j).sock.outgoing.take (set n.carried j _ j)
            rw [set_same, ss, set_same, b4, ih.arrived j]
            unfold Net.flying
            generalize (n.sys j).sock.outgoing = o
            rw [List.take_add]
            congr 1
            rw [List.length_take, List.take_eq_take_min]
          · show Socket.sent (set n.sys (!i) s (!!i)).sock.log = (set n.sys (!i) s (!i)).sock.outgoing.take (set n.carried i _ (!i))
            rw [Bool.not_not, set_same, ss, cs, b6]
            have := ih.arrived (!i)
            rw [Bool.not_not] at this
            exact this
        · show .peerClosed ∈ (set n.sys (!i) s (!j)).sock.log → (set n.sys (!i) s j).br.closed = true ∧ set n.carried i _ j = (set n.sys (!i) s j).sock.outgoing.length
          rcases hcase i j with rfl | rfl
          · rw [set_same, ss, set_same, b5]
            intro g
            obtain ⟨g1, g2⟩ := ih.fin j g
            exact ⟨g1, by omega⟩
          · rw [Bool.not_not, set_same, ss, cs, b6]
            intro g
            have := ih.fin (!i)
            rw [Bool.not_not] at this
            obtain ⟨g1, g2⟩ := this g
            exact ⟨hcl g1, g2⟩
    | fin i =>
      unfold step at hs
      dsimp only at hs
      split at hs
      case isFalse => cases hs
      next hg =>
      rw [Bool.and_eq_true, List.isEmpty_iff] at hg
      obtain ⟨hg1, hg2⟩ := hg
      cases hx : StreamSocket.step (handler (E !i)) (n.sys !i) .peerCloses with
      | none => rw [hx] at hs; cases hs
      | some s =>
        rw [hx] at hs; cases hs
        obtain ⟨-, -, -, b3⟩ := net_effect (x := .peerCloses) (inv !i) trivial hx
        obtain ⟨b4, b6⟩ := b3 rfl
        have hen : End quiet (E !i) (c !i) (mem !i) s :=
          .step (ih.ends !i) (x := .peerCloses) trivial trivial hx (fun g1 g2 => by
            cases saw (x := .peerCloses) (inv !i) trivial hx with
            | user a os hx hb he => cases hx
            | loop os hx hb he => cases hx
            | data d hb he hx => cases hx
            | fail err hb he hx => cases hx
            | rest hb he hx ho => cases hx
            | sent d hx hb he ho => cases hx
            | fin hx hb he ho => rw [hb, g2] at g1; cases g1)
        have hcl : (n.sys !i).br.closed = true → s.br.closed = true := fun g => (closed_stays (x := .peerCloses) (inv !i) trivial hx g).1
        have ss : set n.sys (!i) s i = n.sys i := set_other _ (hne i) _
        have hall : n.carried i = (n.sys i).sock.outgoing.length := by
          have := ih.le i
          have h0 := congrArg List.length hg2
          unfold Net.flying at h0
          rw [List.length_drop, List.length_nil] at h0
          omega
        refine ⟨fun j => ?_, fun j => ?_, fun j => ?_, fun j => ?_⟩ <;> dsimp only
        · rcases hcase i j with rfl | rfl
          · rw [ss]; exact ih.ends j
          · rw [set_same]; exact hen
        · rcases hcase i j with rfl | rfl
          · rw [ss]; exact ih.le j
          · rw [set_same, b6]; exact ih.le _
        · show Socket.sent (set n.sys (!i) s (!j)).sock.log = (set n.sys (!i) s j).sock.outgoing.take (n.carried j)
          rcases hcase i j with rfl | rfl
          · rw [set_same, ss, b4]; exact ih.arrived j
          · rw [Bool.not_not, set_same, ss, b6]
            have := ih.arrived (!i)
            rw [Bool.not_not] at this
            exact this
        · show .peerClosed ∈ (set n.sys (!i) s (!j)).sock.log → (set n.sys (!i) s j).br.closed = true ∧ n.carried j = (set n.sys (!i) s j).sock.outgoing.length
          rcases hcase i j with rfl | rfl
          · rw [ss]
            intro _
            exact ⟨hg1, hall⟩
          · rw [Bool.not_not, set_same, ss, b6]
            intro g
            have := ih.fin (!i)
            rw [Bool.not_not] at this
            obtain ⟨g1, g2⟩ := this g
            exact ⟨hcl g1, g2⟩

end Cio.WsTcp
