import Verif.PlainEcho.StepInv
/-
C100: the echo server of examples/socket_echo.c.

`Reach size c s`: the server, whose read buffer has `size` bytes (128 in the example), can get into the state `s` on a connection (`c`: the socket has a close timeout; in the example it has).
`s.sock.log` is the history of the socket: what the client sent (`Socket.sent`), what the server's read handler was given (`Socket.delivered`), that the client closed (`.peerClosed`), that the server closed
(`.closeCalled`); `s.sock.outgoing` is what the operating system accepted for the client; `s.sock.stack = []`: control is in the event loop.
-/
namespace Cio.PlainEcho
open BufferedWrite (Elem Resp flat FirstEndsEarly)
open StreamSocket (Write Os answer respOf dead wires optWire sock_stack)
open Socket (St Obs sent delivered)

/-- All writes of the server. -/
def Sys.writes (s : Sys) : List Write := s.done ++ s.cur.toList

/-- The first `sendmsg` of a write that succeeds takes everything (the chain has one element). -/
def TakenAtOnce (x : Write) : Prop := ∀ n, x.answers.head? = some (.ok n) → n = (flat x.chain).length

theorem TakenAtOnce.early {x : Write} (h : TakenAtOnce x) : FirstEndsEarly x.chain x.answers := fun n hn => Or.inl (h n hn)

theorem exact_of {x : Write} (hok : x.Ok) (h : TakenAtOnce x) : BufferedWrite.WritesExactly x.chain x.world :=
  BufferedWrite.write_exactly_partial x.chain hok.2.2 x.answers hok.2.1 h.early x.world hok.1

theorem wire_of_success {x : Write} (hok : x.Ok) (hi : x.world.phase = .idle) (h : TakenAtOnce x) (ht : ToldSuccess x) : x.world.wire = flat x.chain := by
  obtain ⟨-, -, q⟩ := exact_of hok h
  obtain ⟨ch, hch⟩ := ht
  rcases q hi with ⟨e, c', q1, -, q3⟩ | ⟨q1, -⟩
  · rw [q1] at hch
    simp only [List.getLast?_singleton, Option.some.injEq, Prod.mk.injEq] at hch
    exact q3 hch.1
  · rw [q1] at hch; cases hch

theorem wires_good {l : List Write} {d : List UInt8} (hok : ∀ x ∈ l, x.Ok ∧ x.world.phase = .idle) (hf : ∀ x ∈ l, TakenAtOnce x) (hg : Good l d) : wires l = d := by
  obtain ⟨g1, g2⟩ := hg
  rw [← g2]
  clear g2
  induction l with
  | nil => rfl
  | cons x l ih =>
    unfold wires at ih ⊢
    rw [List.flatMap_cons, List.flatMap_cons, ih (fun y hy => hok y (List.mem_cons_of_mem _ hy)) (fun y hy => hf y (List.mem_cons_of_mem _ hy)) (fun y hy => g1 y (List.mem_cons_of_mem _ hy))]
    obtain ⟨o1, o2⟩ := hok x List.mem_cons_self
    rw [wire_of_success o1 o2 (hf x List.mem_cons_self) (g1 x List.mem_cons_self)]
    rfl

theorem wires_snoc (l : List Write) (x : Write) : wires (l ++ [x]) = wires l ++ x.world.wire := by
  unfold wires
  rw [List.flatMap_append]
  show _ ++ (x.world.wire ++ []) = _
  rw [List.append_nil]

variable {size : Nat} {c : Bool} {s : Sys}

/-- What has gone out is a beginning of what the server was given, and all of it unless a write is under way or has failed. -/
theorem out_data (h : Reach size c s) (hf : ∀ x ∈ s.writes, TakenAtOnce x) : s.sock.outgoing <+: s.data ∧ (s.phase = .reading → s.sock.outgoing = s.data) := by
  have i := reach_inv h
  have hp := i.phase
  have hd : ∀ x ∈ s.done, TakenAtOnce x := fun x hx => hf x (List.mem_append_left _ hx)
  have hall : s.cur = none → Good s.done s.data → s.sock.outgoing = s.data := fun hc hg => by
    rw [i.out, hc, wires_good i.done hd hg]; exact List.append_nil _
  have part : ∀ (good : List Write) (x : Write) (w : List UInt8), (∀ y ∈ good, y.Ok ∧ y.world.phase = .idle) → (∀ y ∈ good, TakenAtOnce y) → Good good (s.data.take s.fetch) → x.Ok → TakenAtOnce x → x.chain = [⟨elem, unread s⟩] →
      w = x.world.wire → wires good ++ w <+: s.data := by
    intro good x w h1 h2 h3 h4 h5 h6 hw
    rw [wires_good h1 h2 h3, hw]
    obtain ⟨q, -⟩ := exact_of h4 h5
    rw [h6] at q
    have q : x.world.wire <+: unread s := by
      have e : flat [⟨elem, unread s⟩] = unread s := by show unread s ++ [] = _; rw [List.append_nil]
      rw [e] at q; exact q
    obtain ⟨t, ht⟩ := q
    refine ⟨t, ?_⟩
    rw [List.append_assoc, ht]; exact List.take_append_drop _ _
  unfold PhaseOk at hp
  cases hph : s.phase <;> rw [hph] at hp <;> dsimp only at hp
  · obtain ⟨-, -, q1, q2, q3, -⟩ := hp
    refine ⟨?_, fun g => by cases g⟩
    rw [i.out, q1, q2]; exact List.nil_prefix
  · have := hall hp.2.2.2.2.1 hp.2.2.2.2.2.1
    exact ⟨by rw [this]; exact List.prefix_rfl, fun _ => this⟩
  · refine ⟨?_, fun g => by cases g⟩
    rw [i.out, hp.2.2.1, wires_good i.done hd hp.2.2.2.1]
    show _ ++ [] <+: _
    rw [List.append_nil]; exact List.take_prefix _ _
  · obtain ⟨-, -, q1, q2, -, x, q3, q4⟩ := hp
    refine ⟨?_, fun g => by cases g⟩
    rw [i.out, q3]
    exact part s.done x _ i.done hd q1 (i.cur x q3).1 (hf x (List.mem_append_right _ (by rw [q3]; exact List.mem_cons_self))) q4 rfl
  · exact ⟨by rw [hall hp.2.2.1 hp.2.2.2.1]; exact List.prefix_rfl, fun g => by cases g⟩
  · exact ⟨by rw [hall hp.2.2.1 hp.2.2.2.1]; exact List.prefix_rfl, fun g => by cases g⟩
  · refine ⟨?_, fun g => by cases g⟩
    rcases hp.2 with ⟨-, g⟩ | ⟨-, -, g, -⟩ | ⟨-, -, good, x, g1, g2, g3, g4, g5⟩
    · rw [hall hp.1 g]; exact List.prefix_rfl
    · rw [hall hp.1 g]; exact List.prefix_rfl
    · rw [i.out, hp.1, g1, wires_snoc]
      show (_ ++ _) ++ [] <+: _
      rw [List.append_nil]
      have hx : x ∈ s.done := by rw [g1]; exact List.mem_append_right _ List.mem_cons_self
      have hgm : ∀ y ∈ good, y ∈ s.done := fun y hy => by rw [g1]; exact List.mem_append_left _ hy
      exact part good x _ (fun y hy => i.done y (hgm y hy)) (fun y hy => hd y (hgm y hy)) g2 (i.done x hx).1 (hd x hx) g4 rfl

/-- C100, partial: what the client gets back is always a beginning of what it has sent.  Missing: writes that `sendmsg` does not take at once; see `bytes_echoed_twice`. -/
theorem echoes_partial (h : Reach size c s) (hf : ∀ x ∈ s.writes, TakenAtOnce x) : s.sock.outgoing <+: sent s.sock.log := by
  have i := reach_inv h
  have := (out_data h hf).1
  rw [i.data] at this
  exact this.trans i.live.pre

/-- C100, partial: when the server waits for more and everything that arrived has been handed to it, the client has got back everything it has sent. -/
theorem echoes_all_partial (h : Reach size c s) (hf : ∀ x ∈ s.writes, TakenAtOnce x) (hp : s.phase = .reading) (hin : s.sock.incoming = []) : s.sock.outgoing = sent s.sock.log := by
  have i := reach_inv h
  have hopen : .closeCalled ∉ s.sock.log := by
    have q := i.phase
    unfold PhaseOk at q
    rw [hp] at q
    exact q.1
  rw [(out_data h hf).2 hp, ← i.live.flow hopen, hin, List.append_nil]
  exact i.data

/-- C100 fails for clients that send more than the size of the read buffer: on one connection the server reads no more than that, whatever happens, and sends back no more. -/
theorem never_more_than_size (h : Reach size c s) : (delivered s.sock.log).length ≤ size ∧ ((∀ x ∈ s.writes, TakenAtOnce x) → s.sock.outgoing.length ≤ size) := by
  have i := reach_inv h
  have hle := i.le
  refine ⟨by rw [← i.data]; exact hle, fun hf => Nat.le_trans (out_data h hf).1.length_le hle⟩

/-- The server has given up: it will not do anything any more, and has not closed the connection. -/
def GivenUp (s : Sys) : Prop := .closeCalled ∉ s.sock.log ∧ ((∃ t e, e < 0 ∧ .readDone t e [] ∈ s.sock.log) ∨ ∃ x ∈ s.done, ¬ ToldSuccess x)

/-- C100: whenever control is back in the event loop the connection has not been handed to the server yet, or the server waits for the client, or for the socket to become writable, or has closed the
connection, or it was told that reading failed, or a write has failed. -/
theorem at_rest (h : Reach size c s) (hst : s.sock.stack = []) :
    s.phase = .start ∨ (s.phase = .reading ∧ s.sock.regIn = true ∧ s.sock.inLoop = true) ∨ (s.phase = .writing ∧ s.sock.regOut = true ∧ s.sock.inLoop = true) ∨ .closeCalled ∈ s.sock.log ∨ GivenUp s := by
  have i := reach_inv h
  have hp := i.phase
  unfold PhaseOk at hp
  rcases i.stack hst with g | g | g | ⟨g, g'⟩
  · exact Or.inl g
  · rw [g] at hp
    exact Or.inr (Or.inl ⟨g, hp.2.1, (i.live.opn hp.1).2.1⟩)
  · rw [g] at hp
    rcases hp.2 with q | ⟨q1, -, -, q2⟩ | ⟨q1, -, good, x, q2, -, -, -, q3⟩
    · exact Or.inr (Or.inr (Or.inr (Or.inl q.1)))
    · exact Or.inr (Or.inr (Or.inr (Or.inr ⟨q1, Or.inl q2⟩)))
    · exact Or.inr (Or.inr (Or.inr (Or.inr ⟨q1, Or.inr ⟨x, by rw [q2]; exact List.mem_append_right _ List.mem_cons_self, q3⟩⟩)))
  · rw [g] at hp
    exact Or.inr (Or.inr (Or.inl ⟨g, i.reg.trans g', (i.live.opn hp.1).2.1⟩))

/-- C100: the server closes the connection exactly if its read handler is told of the end of the stream (the call follows before control is back in the event loop), and it is told so only if the client has closed or has
sent more than fits into the read buffer; in all other cases the connection stays open. -/
theorem closes_partial (h : Reach size c s) :
    (.closeCalled ∈ s.sock.log → (∃ t, .readDone t EOF [] ∈ s.sock.log) ∧ (.peerClosed ∈ s.sock.log ∨ size < (sent s.sock.log).length)) ∧
      ((∃ t, .readDone t EOF [] ∈ s.sock.log) → s.sock.stack = [] → .closeCalled ∈ s.sock.log) := by
  have i := reach_inv h
  refine ⟨fun g => ?_, fun ⟨t, ht⟩ hst => ?_⟩
  · obtain ⟨t, ht⟩ := i.eof2 (Or.inr g)
    exact ⟨⟨t, ht⟩, (i.eof1 t ht).1⟩
  · rcases (i.eof1 t ht).2 with g | g
    · rcases i.stack hst with q | q | q | ⟨q, -⟩ <;> rw [q] at g <;> cases g
    · exact g

/-- C100: the server never uses the memory of the connection after it was released. -/
theorem memory_safe (h : Reach size c s) : s.sock.ub = false := (reach_inv h).live.ub

/-- C100 fails for clients that send more than fits: once the read buffer has been filled, the next byte from the client makes the server take the connection as closed by the client, and close it. -/
theorem full_buffer_is_end (h : Reach size c s) (hst : s.sock.stack = []) (hp : s.phase = .reading) (hfull : (delivered s.sock.log).length = size) (hin : s.sock.incoming ≠ []) (n : Nat) :
    ∃ s' t, Allowed s (.readable (.bytes n)) ∧ step size s (.readable (.bytes n)) = some s' ∧ .readDone t EOF [] ∈ s'.sock.log ∧ s'.phase = .toClose ∧
      ∀ os, ∃ s'', step size s' (.close os) = some s'' ∧ .closeCalled ∈ s''.sock.log := by
  have i := reach_inv h
  have hph := i.phase
  unfold PhaseOk at hph
  rw [hp] at hph
  obtain ⟨p1, p2, p3, ⟨t, p4⟩, p5, p6, p7⟩ := hph
  obtain ⟨l1, l2, l3⟩ := i.live.opn p1
  have hz : size - s.data.length = 0 := by rw [i.data]; omega
  rw [hz] at p4
  let k : St := { s.sock with regIn := false, pendRead := none, peerClosed := true, log := s.sock.log ++ [.readDone t EOF []], stack := .user :: s.sock.stack }
  have hk : Socket.step s.sock (.readable true (.bytes n)) = some k := by
    unfold Socket.step
    rw [if_neg (by rw [i.live.ub]; simp), hst]
    dsimp only
    rw [if_pos (by rw [l2, p2]; rfl), p3, p4]
    dsimp only
    unfold Socket.readCallback
    dsimp only
    rw [if_neg (by simp)]
    have hos : Socket.osRead { s.sock with regIn := false } 0 (.bytes n) = .bytes n := by
      unfold Socket.osRead
      dsimp only
      rw [if_neg (fun g => g.1 rfl)]
    rw [hos]
    dsimp only
    have ht : Socket.taken { s.sock with regIn := false } 0 n = [] := by
      unfold Socket.taken
      rw [Nat.zero_min]; rfl
    rw [if_pos (by rw [ht]; rfl)]
    rfl
  have hans : answer s.sock k = some (.readDone t EOF []) := by
    rw [StreamSocket.answer_eq (k := k) (l := [.readDone t EOF []]) rfl]; rfl
  refine ⟨{ s with sock := k, data := s.data ++ [], phase := .toClose }, t, ⟨Or.inl hin, (fun g => by cases g), (fun e g => by cases g)⟩, ?_, List.mem_append_right _ List.mem_cons_self, rfl, fun os => ?_⟩
  · unfold step
    dsimp only
    rw [hk, Option.bind_some, hans]
    dsimp only
    unfold handleRead
    dsimp only
    rw [if_pos rfl]
  · unfold step
    dsimp only
    rw [if_pos rfl]
    obtain ⟨k', hk'⟩ := StreamSocket.sock_close_possible (s := k) i.live.ub (st := s.sock.stack) rfl l1 os.shutOk os.armOk os.soon os.regOk
    rw [hk']
    refine ⟨_, rfl, ?_⟩
    show .closeCalled ∈ k'.log
    unfold Socket.step at hk'
    rw [if_neg (by show ¬ (s.sock.ub = true); rw [i.live.ub]; simp)] at hk'
    dsimp only [k] at hk'
    rw [if_pos l1] at hk'
    injection hk' with hk'
    rw [← hk']
    unfold Socket.close
    dsimp only
    rw [if_pos rfl, StreamSocket.closeSocket_eq (by exact l1)]
    simp [dead]

/-- C100 fails if reading or writing fails: the connection on which it did is never closed, and nothing ever happens on it again. -/
theorem failure_forgotten (h : Reach size c s) (hg : GivenUp s) {s' : Sys} (hl : Later size s s') :
    .closeCalled ∉ s'.sock.log ∧ s'.sock.alive = true ∧ s'.sock.outgoing = s.sock.outgoing ∧ delivered s'.sock.log = delivered s.sock.log := by
  have key : Reach size c s' ∧ GivenUp s' ∧ s'.phase = .stopped ∧ s'.sock.outgoing = s.sock.outgoing ∧ delivered s'.sock.log = delivered s.sock.log := by
    induction hl with
    | refl => exact ⟨h, hg, stopped h hg, rfl, rfl⟩
    | step hl ha hs ih =>
      obtain ⟨q1, q2, q3, q5, q6⟩ := ih
      have hr' := Reach.step q1 ha hs
      exact stay q1 q2 q3 q5 q6 hr' hs
  obtain ⟨k1, k2, k3, k5, k6⟩ := key
  exact ⟨k2.1, ((reach_inv k1).live.opn k2.1).1, k5, k6⟩
where
  stopped {s : Sys} (h : Reach size c s) (hg : GivenUp s) : s.phase = .stopped := by
    have i := reach_inv h
    obtain ⟨g1, ⟨t, e, he, ht⟩ | hx⟩ := hg
    · exact i.rf t e he ht
    · have hp := i.phase
      have nogood : ∀ d, Good s.done d → False := fun d q => by
        obtain ⟨x, hx, hn⟩ := hx
        exact hn (q.1 x hx)
      unfold PhaseOk at hp
      cases hph : s.phase <;> rw [hph] at hp <;> dsimp only at hp
      · obtain ⟨x, hx, -⟩ := hx
        rw [hp.2.2.2.1] at hx; cases hx
      · exact (nogood _ hp.2.2.2.2.2.1).elim
      · exact (nogood _ hp.2.2.2.1).elim
      · exact (nogood _ hp.2.2.1).elim
      · exact (nogood _ hp.2.2.2.1).elim
      · exact (nogood _ hp.2.2.2.1).elim
  stay {s0 t t' : Sys} {e : Ev} (q1 : Reach size c t) (q2 : GivenUp t) (q3 : t.phase = .stopped) (q5 : t.sock.outgoing = s0.sock.outgoing) (q6 : delivered t.sock.log = delivered s0.sock.log)
      (hr' : Reach size c t') (hs : step size t e = some t') : Reach size c t' ∧ GivenUp t' ∧ t'.phase = .stopped ∧ t'.sock.outgoing = s0.sock.outgoing ∧ delivered t'.sock.log = delivered s0.sock.log := by
    have i := reach_inv q1
    have hp := i.phase
    unfold PhaseOk at hp
    rw [q3] at hp
    obtain ⟨p1, p2⟩ := hp
    have hreg : t.sock.regIn = false := by
      rcases p2 with g | g | g
      · exact absurd g.1 q2.1
      · exact g.2.1
      · exact g.2.1
    have hout : t.sock.regOut = false := by
      rw [i.reg]
      cases hq : t.asked with
      | false => rfl
      | true => have := (i.cb hq).2; rw [q3] at this; cases this
    have htm := (i.live.opn q2.1).2.2
    have same : ∀ (k : St) (l : List Obs), t' = { t with sock := k } → k.log = t.sock.log ++ l → .closeCalled ∉ l → delivered l = [] → k.outgoing = t.sock.outgoing →
        Reach size c t' ∧ GivenUp t' ∧ t'.phase = .stopped ∧ t'.sock.outgoing = s0.sock.outgoing ∧ delivered t'.sock.log = delivered s0.sock.log := by
      intro k l e1 e2 l1 l2 e3
      refine ⟨hr', ?_, by rw [e1]; exact q3, by rw [e1]; exact e3.trans q5, ?_⟩
      · rw [e1]
        refine ⟨?_, ?_⟩
        · show _ ∉ k.log
          rw [e2, List.mem_append]; exact fun g => g.elim q2.1 l1
        · rcases q2.2 with ⟨u, e, g1, g2⟩ | g
          · exact Or.inl ⟨u, e, g1, by show _ ∈ k.log; rw [e2]; exact List.mem_append_left _ g2⟩
          · exact Or.inr g
      · rw [e1]
        show delivered k.log = _
        rw [e2, Socket.delivered_append, l2, List.append_nil]; exact q6
    cases e with
    | peerSends d =>
      unfold step at hs
      dsimp only at hs
      cases hk : Socket.step t.sock (.peerSends d) with
      | none => rw [hk] at hs; cases hs
      | some k =>
        rw [hk] at hs
        have ek := (StreamSocket.sock_peer hk).2
        exact same k [.peerSent d] (Option.some.inj hs).symm (by rw [ek]) (by simp) rfl (by rw [ek])
    | peerCloses =>
      unfold step at hs
      dsimp only at hs
      cases hk : Socket.step t.sock .peerCloses with
      | none => rw [hk] at hs; cases hs
      | some k =>
        rw [hk] at hs
        have ek := StreamSocket.sock_fin hk
        exact same k [.peerClosed] (Option.some.inj hs).symm (by rw [ek]) (by simp) rfl (by rw [ek])
    | enter =>
      unfold step at hs
      dsimp only at hs
      rw [if_neg (by rw [q3]; simp)] at hs; cases hs
    | leave =>
      unfold step at hs
      dsimp only at hs
      rw [if_pos (Or.inr (Or.inl q3))] at hs
      cases hk : Socket.step t.sock .leave with
      | none => rw [hk] at hs; cases hs
      | some k =>
        rw [hk] at hs
        obtain ⟨st, ek⟩ := StreamSocket.sock_leave hk
        exact same k [] (Option.some.inj hs).symm (by rw [ek]; exact (List.append_nil _).symm) (by simp) rfl (by rw [ek])
    | timeout =>
      unfold step at hs
      dsimp only at hs
      cases hk : Socket.step t.sock .timeout with
      | none => rw [hk] at hs; cases hs
      | some k =>
        have := (StreamSocket.sock_timeout (fun g => by rw [htm] at g; cases g) hk).1
        rw [htm] at this; cases this
    | read =>
      unfold step at hs
      dsimp only at hs
      rw [if_neg (by rw [q3]; simp)] at hs; cases hs
    | write =>
      unfold step at hs
      dsimp only at hs
      rw [if_neg (by rw [q3]; simp)] at hs; cases hs
    | close os =>
      unfold step at hs
      dsimp only at hs
      rw [if_neg (by rw [q3]; simp)] at hs; cases hs
    | readable r =>
      unfold step at hs
      dsimp only at hs
      cases hk : Socket.step t.sock (.readable true r) with
      | none => rw [hk] at hs; cases hs
      | some k =>
        have := (StreamSocket.sock_readable_reg hk).2
        rw [hreg] at this; cases this
    | send r =>
      unfold step at hs
      dsimp only at hs
      rw [p1] at hs; cases hs
    | writable err =>
      unfold step at hs
      dsimp only at hs
      cases hk : Socket.step t.sock (.writable err) with
      | none => rw [hk] at hs; cases hs
      | some k =>
        have := (StreamSocket.sock_writable (fun g => by rw [hout] at g; cases g) hk).2.1
        rw [hout] at this; cases this

end Cio.PlainEcho
