import Verif.PingPong.Props
import Verif.WsTcp.Net
/-
C116: the ping-pong client and the echo server, connected by a network.
-/
namespace Cio.BufferedRead

theorem act_calls (w : World) (a : UAct) : (act w a).calls = w.calls := by
  cases a with
  | consume n => rfl
  | close => unfold act close; dsimp only; split <;> rfl
  | read j =>
    unfold act read
    dsimp only
    split
    · split <;> rfl
    · rfl

theorem acts_calls (l : List UAct) : ∀ w : World, (l.foldl act w).calls = w.calls := by
  induction l with
  | nil => intro w; rfl
  | cons a l ih => intro w; rw [List.foldl_cons, ih, act_calls]

theorem callHandler_calls (H : Handler) (w : World) (j : Job) (e : Err) (n : Nat) : w.calls <+: (callHandler H w j e n).1.calls := by
  unfold callHandler
  dsimp only
  split
  · show w.calls <+: (List.foldl act _ _).calls
    rw [acts_calls]
    exact List.prefix_append _ _
  · show w.calls <+: (List.foldl act _ _).calls
    rw [acts_calls]
    exact List.prefix_append _ _

theorem runJob_calls (H : Handler) (w : World) (j : Job) : w.calls <+: (runJob H w j).1.calls := by
  unfold runJob
  split
  · exact callHandler_calls ..
  · cases j with
    | atMost n => dsimp only; split; exact callHandler_calls ..; exact List.prefix_rfl
    | atLeast n => dsimp only; split; exact callHandler_calls ..; exact List.prefix_rfl
    | «until» d =>
      dsimp only
      split
      · exact List.prefix_rfl
      · exact List.prefix_rfl
      · exact callHandler_calls ..

theorem readSome_calls (H : Handler) (w : World) (j : Job) (rs : Err) : w.calls <+: (readSome H w j rs).calls := by
  unfold readSome
  split
  · exact callHandler_calls H { w with transportErrs := w.transportErrs ++ [rs] } j rs 0
  · exact List.prefix_rfl

theorem fillBuffer_calls (H : Handler) (w : World) (j : Job) (rs : Err) : w.calls <+: (fillBuffer H w j rs).calls := by
  unfold fillBuffer
  split
  · split
    · exact runJob_calls H { w with lastError := MESSAGE_TOO_LONG } j
    · exact readSome_calls H { w with rb := w.rb.compact } j rs
  · exact readSome_calls ..

/-- Handler calls are never forgotten; a step other than one of the loop calls no handler. -/
theorem step_calls {H : Handler} {w w' : World} {e : Ev} (h : step H w e = some w') : w.calls <+: w'.calls ∧ ((∀ rs, e ≠ .loop rs) → w'.calls = w.calls) := by
  cases e with
  | user a =>
    unfold step at h
    dsimp only at h
    split at h
    · cases h
    have : w'.calls = w.calls := by
      cases a with
      | read j => injection h with h; subst h; exact act_calls w _
      | consume n => injection h with h; subst h; exact act_calls w _
      | close => injection h with h; subst h; exact act_calls w _
    exact ⟨by rw [this], fun _ => this⟩
  | deliver bs =>
    unfold step at h
    dsimp only at h
    split at h
    · injection h with h; subst h; exact ⟨List.prefix_rfl, fun _ => rfl⟩
    · cases h
  | fail er =>
    unfold step at h
    dsimp only at h
    split at h
    · injection h with h; subst h; exact ⟨List.prefix_rfl, fun _ => rfl⟩
    · cases h
  | loop rs =>
    refine ⟨?_, fun q => absurd rfl (q rs)⟩
    unfold step at h
    dsimp only at h
    split at h
    · injection h with h
      subst h
      unfold loopIter
      split
      · exact List.prefix_rfl
      · next j _ =>
        have h1 := runJob_calls H w j
        generalize runJob H w j = z at h1
        obtain ⟨z1, z2⟩ := z
        cases z2
        · exact h1
        · exact h1.trans (fillBuffer_calls ..)
        · exact h1
    · cases h

end Cio.BufferedRead

namespace Cio.PingPong
open BufferedRead (UAct Handler Job World Call)
open StreamSocket (Sys Ev Write step Allowed follow settle answer)
open BufferedWrite (FirstEndsEarly flat)
open Echo (ToldSuccess elem)

theorem sys_calls {quiet : Bool} {H : Handler} {c : Bool} {mem : List UInt8} {s s' : Sys} {x : Ev} (h : StreamSocket.Inv quiet H c mem s) (ha : Allowed quiet s x) (hs : step H s x = some s') :
    s.br.calls <+: s'.br.calls ∧ (s'.br.calls = s.br.calls ∨ (s.br.closed = false ∧ Socket.sent s'.sock.log = Socket.sent s.sock.log ∧ (.peerClosed ∈ s'.sock.log ↔ .peerClosed ∈ s.sock.log))) := by
  have old : s'.br = s.br → s.br.calls <+: s'.br.calls ∧ (s'.br.calls = s.br.calls ∨ (s.br.closed = false ∧ Socket.sent s'.sock.log = Socket.sent s.sock.log ∧ (.peerClosed ∈ s'.sock.log ↔ .peerClosed ∈ s.sock.log))) :=
    fun q => ⟨by rw [q], Or.inl (by rw [q])⟩
  cases WsTcp.saw h ha hs with
  | user a os hx hb he => exact ⟨(BufferedRead.step_calls hb).1, Or.inl ((BufferedRead.step_calls hb).2 fun rs q => nomatch q)⟩
  | data d hb he hx => exact ⟨(BufferedRead.step_calls hb).1, Or.inl ((BufferedRead.step_calls hb).2 fun rs q => nomatch q)⟩
  | fail er hb he hx => exact ⟨(BufferedRead.step_calls hb).1, Or.inl ((BufferedRead.step_calls hb).2 fun rs q => nomatch q)⟩
  | sent d hx hb he ho => exact old hb
  | fin hx hb he ho => exact old hb
  | rest hb he hx ho => exact old hb
  | loop os hx hb he =>
    refine ⟨(BufferedRead.step_calls hb).1, Or.inr ⟨?_, ?_⟩⟩
    · unfold BufferedRead.step at hb
      dsimp only at hb
      split at hb
      · next hl => exact h.loopOpen hl
      · cases hb
    · subst hx
      exact (WsTcp.net_effect h ha hs).2.1 rfl

variable {quiet ct : Bool} {memc mems hello : List UInt8} {max : Nat} {x : Pair}

theorem Together.reach (h : Together hello max quiet ct memc mems x) : Reach hello max quiet ct memc x.pc x.c ∧ Echo.Reach hello.length quiet ct mems x.ps x.s := by
  induction h with
  | init => exact ⟨.init, .init⟩
  | client h hn ha hs hp ih => exact ⟨.step ih.1 ha hs hp, ih.2⟩
  | server h hn ha hs hp ih => exact ⟨ih.1, .step ih.2 ha hs hp⟩

/-- The invariant of the network: what arrived was sent, and an end that arrived was one. -/
structure Net (x : Pair) : Prop where
  toC : Socket.sent x.c.sock.log <+: x.s.sock.outgoing
  toS : Socket.sent x.s.sock.log <+: x.c.sock.outgoing
  finC : .peerClosed ∈ x.c.sock.log → x.s.br.closed = true
  finS : .peerClosed ∈ x.s.sock.log → x.c.br.closed = true

/-- One side moves. -/
theorem net_side {H : Handler} {c : Bool} {mem : List UInt8} {a a' b : Sys} {e : Ev} (i : StreamSocket.Inv quiet H c mem a) (hn : Arrives a b e) (ha : Allowed quiet a e) (hs : step H a e = some a')
    (h1 : Socket.sent a.sock.log <+: b.sock.outgoing) (h2 : Socket.sent b.sock.log <+: a.sock.outgoing) (h3 : .peerClosed ∈ a.sock.log → b.br.closed = true)
    (h4 : .peerClosed ∈ b.sock.log → a.br.closed = true) :
    Socket.sent a'.sock.log <+: b.sock.outgoing ∧ Socket.sent b.sock.log <+: a'.sock.outgoing ∧ (.peerClosed ∈ a'.sock.log → b.br.closed = true) ∧ (.peerClosed ∈ b.sock.log → a'.br.closed = true) := by
  obtain ⟨n1, n2, n3, n4⟩ := WsTcp.net_effect i ha hs
  refine ⟨?_, h2.trans n1, ?_, fun q => (WsTcp.closed_stays i ha hs (h4 q)).1⟩
  · cases hp : WsTcp.fromPeer e with
    | false => rw [(n2 hp).1]; exact h1
    | true =>
      cases e with
      | peerSends d => rw [(n3 d rfl).1]; exact hn
      | peerCloses => rw [(n4 rfl).1]; exact h1
      | _ => cases hp
  · cases hp : WsTcp.fromPeer e with
    | false => rw [(n2 hp).2]; exact h3
    | true =>
      cases e with
      | peerSends d => rw [(n3 d rfl).2.1]; exact h3
      | peerCloses => exact fun _ => hn.1
      | _ => cases hp

theorem Together.net (hc : memc ≠ []) (hs : mems ≠ []) (huc : hello.length ≤ memc.length) (hus : hello.length ≤ mems.length) (h : Together hello max quiet ct memc mems x) : Net x := by
  induction h with
  | init => exact ⟨List.nil_prefix, List.nil_prefix, (fun q => nomatch q), (fun q => nomatch q)⟩
  | client h hn ha hst hp ih =>
    obtain ⟨r1, r2⟩ := h.reach
    obtain ⟨a1, a2, a3, a4⟩ := net_side (StreamSocket.reach_inv hc (proper_user hc huc r1)) hn ha hst ih.toC ih.toS ih.finC ih.finS
    exact ⟨a1, a2, a3, a4⟩
  | server h hn ha hst hp ih =>
    obtain ⟨r1, r2⟩ := h.reach
    obtain ⟨a1, a2, a3, a4⟩ := net_side (StreamSocket.reach_inv hs (Echo.proper_user hs hus r2)) hn ha hst ih.toS ih.toC ih.finS ih.finC
    exact ⟨a2, a1, a4, a3⟩

/-! ### What is exchanged -/

/-- `hello`, `n` times. -/
def times (n : Nat) (hello : List UInt8) : List UInt8 := (List.replicate n hello).flatten

theorem times_succ (n : Nat) (hello : List UInt8) : times (n + 1) hello = hello ++ times n hello := by unfold times; rw [List.replicate_succ, List.flatten_cons]

theorem times_length (n : Nat) (hello : List UInt8) : (times n hello).length = n * hello.length := by
  induction n with
  | zero => unfold times; simp
  | succ n ih => rw [times_succ, List.length_append, ih, Nat.succ_mul, Nat.add_comm]

theorem repeats {hello : List UInt8} (n : Nat) : ∀ l : List UInt8, l <+: hello ++ l → l.length ≤ n * hello.length → l <+: times n hello := by
  induction n with
  | zero =>
    intro l _ hl
    have : l = [] := List.length_eq_zero_iff.1 (by omega)
    rw [this]; exact List.nil_prefix
  | succ n ih =>
    intro l h hl
    rw [times_succ]
    by_cases hle : l.length ≤ hello.length
    · exact (List.prefix_of_prefix_length_le h (List.prefix_append _ _) hle).trans (List.prefix_append _ _)
    · have hp : hello <+: l := List.prefix_of_prefix_length_le (List.prefix_append _ _) h (by omega)
      obtain ⟨m, hm⟩ := hp
      subst hm
      have h' : m <+: hello ++ m := (List.prefix_append_right_inj _).1 h
      refine (List.prefix_append_right_inj _).2 (ih m h' ?_)
      rw [List.length_append, Nat.succ_mul] at hl
      omega

/-- A whole message at a place where a message begins. -/
theorem piece {hello a v l : List UInt8} {n : Nat} (hl : l <+: times n hello) (h : a ++ v <+: l) (hd : hello.length ∣ a.length) (hv : hello.length ≤ v.length) : v.take hello.length = hello := by
  replace h := h.trans hl
  obtain ⟨k, hk⟩ := hd
  clear hl
  revert k
  induction n generalizing a with
  | zero =>
    intro k hk
    have := h.length_le
    rw [times_length, List.length_append] at this
    have hz : hello.length = 0 := by omega
    rw [List.length_eq_zero_iff] at hz
    subst hz; rfl
  | succ n ih =>
    intro k hk
    rw [times_succ] at h
    cases k with
    | zero =>
      have : a = [] := List.length_eq_zero_iff.1 (by rw [hk, Nat.mul_zero])
      subst this
      rw [List.nil_append] at h
      have hp : hello <+: v := List.prefix_of_prefix_length_le (List.prefix_append _ _) h hv
      obtain ⟨m, hm⟩ := hp
      rw [← hm, List.take_left]
    | succ k =>
      have hp : hello <+: a := by
        refine List.prefix_of_prefix_length_le (List.prefix_append _ _) ((List.prefix_append a v).trans h) ?_
        rw [hk, Nat.mul_succ]; exact Nat.le_add_left _ _
      obtain ⟨m, hm⟩ := hp
      subst hm
      rw [List.append_assoc] at h
      refine ih (a := m) ((List.prefix_append_right_inj hello).1 h) k ?_
      rw [List.length_append, Nat.mul_succ] at hk
      omega

/-- What the server's handler was given: a whole message, at a place where a message begins. -/
theorem server_reads {unit : Nat} {mem : List UInt8} {p : Echo.Phase} {s : Sys} (hmem : mem ≠ []) (hu : unit ≤ mem.length) (h : Echo.Reach unit quiet ct mem p s) :
    ∀ y ∈ s.br.calls, y.err = SUCCESS → ∃ a v, a ++ v <+: Socket.sent s.sock.log ∧ unit ∣ a.length ∧ unit ≤ v.length ∧ y.view.take y.num = v.take unit := by
  induction h with
  | init => intro y hy; cases hy
  | @step p p' s s' e h ha hs hn ih =>
    obtain ⟨hr, i⟩ := Echo.reach_both hmem hu h
    have j := StreamSocket.reach_inv hmem hr
    obtain ⟨n1, n2, n3, n4⟩ := WsTcp.net_effect j ha hs
    have grow : Socket.sent s.sock.log <+: Socket.sent s'.sock.log := by
      cases hp : WsTcp.fromPeer e with
      | false => rw [(n2 hp).1]
      | true =>
        cases e with
        | peerSends d => rw [(n3 d rfl).1]; exact List.prefix_append _ _
        | peerCloses => rw [(n4 rfl).1]
        | _ => cases hp
    have old : ∀ y ∈ s.br.calls, y.err = SUCCESS → ∃ a v, a ++ v <+: Socket.sent s'.sock.log ∧ unit ∣ a.length ∧ unit ≤ v.length ∧ y.view.take y.num = v.take unit := fun y hy he => by
      obtain ⟨a, v, q1, q2⟩ := ih y hy he
      exact ⟨a, v, q1.trans grow, q2⟩
    have same : s'.br.calls = s.br.calls → ∀ y ∈ s'.br.calls, y.err = SUCCESS → ∃ a v, a ++ v <+: Socket.sent s'.sock.log ∧ unit ∣ a.length ∧ unit ≤ v.length ∧ y.view.take y.num = v.take unit :=
      fun q => by rw [q]; exact old
    cases WsTcp.saw j ha hs with
    | user a os hx hb he => exact same ((BufferedRead.step_calls hb).2 fun rs q => nomatch q)
    | data d hb he hx => exact same ((BufferedRead.step_calls hb).2 fun rs q => nomatch q)
    | fail er hb he hx => exact same ((BufferedRead.step_calls hb).2 fun rs q => nomatch q)
    | sent d hx hb he ho => exact same (by rw [hb])
    | fin hx hb he ho => exact same (by rw [hb])
    | rest hb he hx ho => exact same (by rw [hb])
    | loop os hx hb he =>
      have hl : s.br.looping = true := by
        unfold BufferedRead.step at hb
        dsimp only at hb
        split at hb
        · assumption
        · cases hb
      by_cases hpr : p = .reading
      · subst hpr
        rcases Echo.loop_reading j.br i.job (i.shall (j.loopOpen hl)) hb with ⟨cl, l1, l2, l3, l4⟩ | l | ⟨l1, -⟩
        · intro y hy hye
          rw [l1] at hy
          rcases mem_concat hy with hy | hy
          · exact old y hy hye
          · subst hy
            obtain ⟨r1, -, -⟩ := StreamSocket.reads_what_peer_sent hmem hr
            exact ⟨_, _, r1.trans grow, i.units, l4, l3⟩
        · obtain ⟨cl, c1, c2⟩ := l.calls
          intro y hy hye
          rw [c1] at hy
          rcases mem_concat hy with hy | hy
          · exact old y hy hye
          · subst hy; exact absurd hye c2
        · exact same l1
      · have hj : s.br.job = none := by rw [i.job, if_neg hpr]
        exact same (by rw [Echo.loop_idle hj hb])

/-- Both sides' first transfers do not end within the message (see `Echo.echoes_partial`). -/
def AllEarly (x : Pair) : Prop := (∀ w ∈ x.c.writes, FirstEndsEarly w.chain w.answers) ∧ ∀ w ∈ x.s.writes, FirstEndsEarly w.chain w.answers

/-- C116: whatever the network does, all that is ever sent, in either direction, is the greeting over and over, and every successful read, on either side, gives the greeting.
Missing: sends that end within a message, or that find the socket's buffer full at once. -/
theorem only_greetings_partial (hne : hello ≠ []) (huc : hello.length ≤ memc.length) (hus : hello.length ≤ mems.length) (h : Together hello max quiet ct memc mems x) (hf : AllEarly x) :
    (∃ n, x.c.sock.outgoing <+: times n hello) ∧ (∃ n, x.s.sock.outgoing <+: times n hello) ∧
      (∀ y ∈ x.c.br.calls, y.err = SUCCESS → y.view.take y.num = hello) ∧ ∀ y ∈ x.s.br.calls, y.err = SUCCESS → y.view.take y.num = hello := by
  have hpos : 0 < hello.length := List.length_pos_iff.2 hne
  have hc : memc ≠ [] := fun q => by rw [q] at huc; exact absurd huc (by simp; omega)
  have hs : mems ≠ [] := fun q => by rw [q] at hus; exact absurd hus (by simp; omega)
  obtain ⟨r1, r2⟩ := h.reach
  have net := h.net hc hs huc hus
  have o1 := sends_partial hc huc r1 hf.1
  obtain ⟨o2, -, -⟩ := Echo.echoes_partial hs hus r2 hf.2
  have hso : x.s.sock.outgoing <+: x.c.sock.outgoing := o2.trans net.toS
  have hco : x.c.sock.outgoing <+: hello ++ x.c.sock.outgoing := o1.trans ((List.prefix_append_right_inj _).2 (net.toC.trans hso))
  have hcn := repeats x.c.sock.outgoing.length _ hco (Nat.le_mul_of_pos_right _ hpos)
  obtain ⟨rc, ic⟩ := reach_both hc huc r1
  obtain ⟨-, -, rd⟩ := StreamSocket.reads_what_peer_sent hc rc
  refine ⟨⟨_, hcn⟩, ⟨_, hso.trans hcn⟩, fun y hy he => ?_, fun y hy he => ?_⟩
  · obtain ⟨a1, a2⟩ := rd y hy
    rw [ic.nums y hy he] at a1 ⊢
    exact piece hcn (a2.trans (net.toC.trans hso)) (ic.units y hy) a1
  · obtain ⟨a, v, q1, q2, q3, q4⟩ := server_reads hs hus r2 y hy he
    rw [q4]
    exact piece hcn (q1.trans net.toS) q2 q3

end Cio.PingPong
