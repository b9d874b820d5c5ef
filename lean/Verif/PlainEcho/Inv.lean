import Verif.PlainEcho.Model
import Verif.StreamSocket.Props
/-
The invariant of the echo server of examples/socket_echo.c.
-/
namespace Cio.PlainEcho
open BufferedWrite (Elem Resp flat)
open StreamSocket (Write Os answer respOf dead wires optWire sock_stack)
open Socket (St Obs sent delivered)

/-- The server's write handler was told of success. -/
def ToldSuccess (x : Write) : Prop := ∃ ch, x.world.calls.getLast? = some (SUCCESS, ch)

/-- These writes were successful, and these are the bytes they had to write. -/
def Good (l : List Write) (d : List UInt8) : Prop := (∀ x ∈ l, ToldSuccess x) ∧ l.flatMap Write.asked = d

/-- What holds of the socket. -/
structure Live (k : St) : Prop where
  ub : k.ub = false
  gone : k.alive = false → k.timerArmed = false ∧ k.inLoop = false
  opn : .closeCalled ∉ k.log → k.alive = true ∧ k.inLoop = true ∧ k.timerArmed = false
  cls : .closeCalled ∈ k.log → k.alive = true → k.readCb = .drain
  fin : k.incomingEnd = true → .peerClosed ∈ k.log
  flow : .closeCalled ∉ k.log → delivered k.log ++ k.incoming = sent k.log
  pre : delivered k.log <+: sent k.log

def PhaseOk (size : Nat) (s : Sys) : Prop :=
  match s.phase with
  | .start => .closeCalled ∉ s.sock.log ∧ s.sock.regIn = false ∧ s.cur = none ∧ s.done = [] ∧ s.data = [] ∧ s.fetch = 0
  | .reading => .closeCalled ∉ s.sock.log ∧ s.sock.regIn = true ∧ s.sock.readCb = .read ∧ (∃ t, s.sock.pendRead = some (t, size - s.data.length)) ∧ s.cur = none ∧ Good s.done s.data ∧ s.fetch = s.data.length
  | .toRead => .closeCalled ∉ s.sock.log ∧ s.sock.regIn = false ∧ s.cur = none ∧ Good s.done s.data ∧ s.fetch = s.data.length
  | .toClose => .closeCalled ∉ s.sock.log ∧ s.sock.regIn = false ∧ s.cur = none ∧ Good s.done s.data ∧ s.fetch = s.data.length
  | .toWrite => .closeCalled ∉ s.sock.log ∧ s.sock.regIn = false ∧ s.cur = none ∧ Good s.done (s.data.take s.fetch) ∧ s.fetch ≤ s.data.length
  | .writing => .closeCalled ∉ s.sock.log ∧ s.sock.regIn = false ∧ Good s.done (s.data.take s.fetch) ∧ s.fetch ≤ s.data.length ∧ s.num = (unread s).length ∧ ∃ x, s.cur = some x ∧ x.chain = [⟨elem, unread s⟩]
  | .stopped => s.cur = none ∧ ((.closeCalled ∈ s.sock.log ∧ Good s.done s.data) ∨
      (.closeCalled ∉ s.sock.log ∧ s.sock.regIn = false ∧ Good s.done s.data ∧ ∃ t e, e < 0 ∧ .readDone t e [] ∈ s.sock.log) ∨
      (.closeCalled ∉ s.sock.log ∧ s.sock.regIn = false ∧ ∃ good x, s.done = good ++ [x] ∧ Good good (s.data.take s.fetch) ∧ s.fetch ≤ s.data.length ∧ x.chain = [⟨elem, unread s⟩] ∧ ¬ ToldSuccess x))

structure Inv (size : Nat) (c : Bool) (s : Sys) : Prop where
  live : Live s.sock
  timeout : s.sock.closeTimeout = c
  data : s.data = delivered s.sock.log
  le : s.data.length ≤ size
  reg : s.sock.regOut = s.asked
  cb : s.asked = true → s.sock.writeCb = .write ∧ s.phase = .writing
  out : s.sock.outgoing = wires s.done ++ optWire s.cur
  done : ∀ x ∈ s.done, x.Ok ∧ x.world.phase = .idle
  cur : ∀ x, s.cur = some x → x.Ok ∧ x.world.phase ≠ .idle
  phase : PhaseOk size s
  stack : s.sock.stack = [] → s.phase = .start ∨ s.phase = .reading ∨ s.phase = .stopped ∨ (s.phase = .writing ∧ s.asked = true)
  eof1 : ∀ t, .readDone t EOF [] ∈ s.sock.log → (.peerClosed ∈ s.sock.log ∨ size < (sent s.sock.log).length) ∧ (s.phase = .toClose ∨ .closeCalled ∈ s.sock.log)
  eof2 : s.phase = .toClose ∨ .closeCalled ∈ s.sock.log → ∃ t, .readDone t EOF [] ∈ s.sock.log
  rf : ∀ t e, e < 0 → .readDone t e [] ∈ s.sock.log → s.phase = .stopped

theorem init_inv (size : Nat) (c : Bool) : Inv size c (initial c) := by
  refine { live := ⟨rfl, (fun h => by cases h), fun _ => ⟨rfl, rfl, rfl⟩, (fun h => by cases h), (fun h => by cases h), fun _ => rfl, List.prefix_rfl⟩, timeout := rfl, data := rfl, le := Nat.zero_le _, reg := rfl, cb := (fun h => by cases h), out := rfl, done := (fun x h => by cases h), cur := (fun x h => by cases h), phase := ⟨(fun h => by cases h), rfl, rfl, rfl, rfl, rfl⟩, stack := fun _ => Or.inl rfl, eof1 := (fun t h => by cases h), eof2 := ?_, rf := (fun t e _ h => by cases h) }
  rintro (h | h) <;> cases h

theorem prefix_add {a b c : List UInt8} (h : a <+: b) : a <+: b ++ c := h.trans (List.prefix_append b c)

/-- Only the socket moves, in a way that does not concern the server. -/
theorem Inv.sockOnly {size : Nat} {c : Bool} {s : Sys} (h : Inv size c s) {k : St} (l : List Obs) (hk : Live k) (e1 : k.log = s.sock.log ++ l) (e2 : k.closeTimeout = s.sock.closeTimeout)
    (e3 : .closeCalled ∉ s.sock.log → k.pendRead = s.sock.pendRead ∧ k.regIn = s.sock.regIn ∧ k.readCb = s.sock.readCb)
    (e4 : k.regOut = s.sock.regOut) (e5 : k.writeCb = s.sock.writeCb) (e6 : k.outgoing = s.sock.outgoing)
    (l1 : .closeCalled ∉ l) (l2 : delivered l = []) (l3 : ∀ t e, .readDone t e [] ∉ l)
    (hst : k.stack = [] → s.sock.stack = [] ∨ s.phase = .start ∨ s.phase = .reading ∨ s.phase = .stopped ∨ (s.phase = .writing ∧ s.asked = true)) : Inv size c { s with sock := k } := by
  have hcl : .closeCalled ∈ k.log ↔ .closeCalled ∈ s.sock.log := by
    rw [e1, List.mem_append]; exact ⟨fun g => g.elim id (fun g => absurd g l1), Or.inl⟩
  have hmem : ∀ o, o ∈ s.sock.log → o ∈ k.log := fun o ho => by rw [e1]; exact List.mem_append_left _ ho
  refine { live := hk, timeout := e2.trans h.timeout, data := ?_, le := h.le, reg := e4.trans h.reg, cb := fun g => ⟨e5.trans (h.cb g).1, (h.cb g).2⟩, out := e6.trans h.out, done := h.done, cur := h.cur, phase := ?_, stack := fun g => ?_, eof1 := fun t ht => ?_, eof2 := fun g => ?_, rf := fun t e he ht => ?_ }
  · show s.data = delivered k.log
    rw [e1, Socket.delivered_append, l2, List.append_nil]; exact h.data
  · have hp := h.phase
    unfold PhaseOk at hp ⊢
    show match s.phase with | _ => _
    cases hph : s.phase <;> rw [hph] at hp <;> dsimp only at hp ⊢
    · exact ⟨fun g => hp.1 (hcl.1 g), (e3 hp.1).2.1.trans hp.2.1, hp.2.2⟩
    · obtain ⟨a, b, c⟩ := e3 hp.1
      exact ⟨fun g => hp.1 (hcl.1 g), b.trans hp.2.1, c.trans hp.2.2.1, by rw [a]; exact hp.2.2.2.1, hp.2.2.2.2⟩
    · exact ⟨fun g => hp.1 (hcl.1 g), (e3 hp.1).2.1.trans hp.2.1, hp.2.2⟩
    · exact ⟨fun g => hp.1 (hcl.1 g), (e3 hp.1).2.1.trans hp.2.1, hp.2.2⟩
    · exact ⟨fun g => hp.1 (hcl.1 g), (e3 hp.1).2.1.trans hp.2.1, hp.2.2⟩
    · exact ⟨fun g => hp.1 (hcl.1 g), (e3 hp.1).2.1.trans hp.2.1, hp.2.2⟩
    · refine ⟨hp.1, ?_⟩
      rcases hp.2 with g | ⟨g1, g2, g3, t, e, g4, g5⟩ | ⟨g1, g2, g3⟩
      · exact Or.inl ⟨hcl.2 g.1, g.2⟩
      · exact Or.inr (Or.inl ⟨fun q => g1 (hcl.1 q), (e3 g1).2.1.trans g2, g3, t, e, g4, hmem _ g5⟩)
      · exact Or.inr (Or.inr ⟨fun q => g1 (hcl.1 q), (e3 g1).2.1.trans g2, g3⟩)
  · rcases hst g with g | g
    · exact h.stack g
    · exact g
  · have ht : .readDone t EOF [] ∈ k.log := ht
    rw [e1, List.mem_append] at ht
    obtain ⟨g1, g2⟩ := h.eof1 t (ht.resolve_right (l3 t EOF))
    refine ⟨?_, g2.imp id hcl.2⟩
    rcases g1 with g1 | g1
    · exact Or.inl (hmem _ g1)
    · right
      show size < (sent k.log).length
      rw [e1, Socket.sent_append, List.length_append]; omega
  · obtain ⟨t, ht⟩ := h.eof2 (g.imp id hcl.1)
    exact ⟨t, hmem _ ht⟩
  · have ht : .readDone t e [] ∈ k.log := ht
    rw [e1, List.mem_append] at ht
    exact h.rf t e he (ht.resolve_right (l3 t e))

/-- The socket's log grows by something that the sender and the reader do not see. -/
theorem Live.quiet {s k : St} (h : Live s) (l : List Obs) (e1 : k.log = s.log ++ l) (l1 : .closeCalled ∉ l) (l2 : delivered l = []) (l3 : sent l = []) (e2 : k.ub = s.ub) (e3 : k.alive = s.alive)
    (e4 : k.timerArmed = s.timerArmed) (e5 : k.inLoop = s.inLoop) (e6 : .closeCalled ∈ s.log → k.readCb = s.readCb) (e7 : k.incomingEnd = s.incomingEnd) (e8 : k.incoming = s.incoming) : Live k := by
  have hcl : .closeCalled ∈ k.log ↔ .closeCalled ∈ s.log := by
    rw [e1, List.mem_append]; exact ⟨fun g => g.elim id (fun g => absurd g l1), Or.inl⟩
  have hd : delivered k.log = delivered s.log := by rw [e1, Socket.delivered_append, l2, List.append_nil]
  have hs : sent k.log = sent s.log := by rw [e1, Socket.sent_append, l3, List.append_nil]
  refine ⟨e2.trans h.ub, fun g => ?_, fun g => ?_, fun g g' => ?_, fun g => ?_, fun g => ?_, ?_⟩
  · obtain ⟨a, b⟩ := h.gone (e3.symm.trans g)
    exact ⟨e4.trans a, e5.trans b⟩
  · obtain ⟨a, b, c⟩ := h.opn (fun q => g (hcl.2 q))
    exact ⟨e3.trans a, e5.trans b, e4.trans c⟩
  · exact (e6 (hcl.1 g)).trans (h.cls (hcl.1 g) (e3.symm.trans g'))
  · rw [e1]; exact List.mem_append_left _ (h.fin (e7.symm.trans g))
  · rw [hd, hs, e8]; exact h.flow (fun q => g (hcl.2 q))
  · rw [hd, hs]; exact h.pre

/-- The socket has been closed and released. -/
theorem Live.dead {s : St} (h : Live s) (hc : .closeCalled ∈ s.log) : Live (dead s) := by
  have hm : .closeCalled ∈ (StreamSocket.dead s).log := List.mem_append_left _ hc
  have hd : delivered (StreamSocket.dead s).log = delivered s.log := by
    show delivered (s.log ++ [.fdClosed, .hook]) = _
    rw [Socket.delivered_append]; exact List.append_nil _
  have hs : sent (StreamSocket.dead s).log = sent s.log := by
    show sent (s.log ++ [.fdClosed, .hook]) = _
    rw [Socket.sent_append]; exact List.append_nil _
  exact ⟨h.ub, fun _ => ⟨rfl, rfl⟩, fun g => absurd hm g, (fun _ g => by cases g), fun g => List.mem_append_left _ (h.fin g), fun g => absurd hm g, by rw [hd, hs]; exact h.pre⟩

/-- A write is answered: the socket has become `k`. -/
theorem settle_inv {size : Nat} {c : Bool} {s s' : Sys} (h : Inv size c s) {x : Write} (hx : s.cur = some x) {r : Resp} {k : St} {l : List Obs} (hk : Live k)
    (e1 : k.log = s.sock.log ++ l) (e2 : k.closeTimeout = s.sock.closeTimeout) (e3 : k.regIn = s.sock.regIn) (e4 : k.regOut = false)
    (e6 : k.outgoing = s.sock.outgoing ++ (match r with | .ok n => x.data.take n | _ => [])) (e7 : k.stack ≠ [])
    (l0 : sent l = []) (l1 : .closeCalled ∉ l) (l2 : delivered l = []) (l3 : ∀ t e, .readDone t e [] ∉ l) (hr : BufferedWrite.Proper r)
    (hs : settle { s with sock := k } x r = some s') : Inv size c s' := by
  have hp := h.phase
  have hph : s.phase = .writing := by
    unfold PhaseOk at hp
    cases hph : s.phase <;> rw [hph] at hp <;> dsimp only at hp
    · rw [hx] at hp; cases hp.2.2.1
    · rw [hx] at hp; cases hp.2.2.2.2.1
    · rw [hx] at hp; cases hp.2.2.1
    · rw [hx] at hp; cases hp.2.2.1
    · rw [hx] at hp; cases hp.2.2.1
    · rw [hx] at hp; cases hp.1
  unfold PhaseOk at hp
  rw [hph] at hp
  obtain ⟨p1, p2, p3, p4, p5, x', px, p6⟩ := hp
  rw [hx] at px
  injection px with px
  subst px
  unfold settle at hs
  cases hw : BufferedWrite.respond x.world r with
  | none => rw [hw] at hs; cases hs
  | some w =>
    rw [hw] at hs
    simp only [Option.map_some, Option.some.injEq] at hs
    obtain ⟨⟨ok1, ok2, ok3⟩, -⟩ := h.cur x hx
    have hok : Write.Ok { x with answers := x.answers ++ [r], world := w } := by
      refine ⟨StreamSocket.bw_run_append _ _ _ _ _ ok1 hw, ?_, ok3⟩
      intro q hq
      rcases List.mem_append.1 hq with g | g
      · exact ok2 q g
      · rw [List.mem_singleton.1 g]; exact hr
    have hwire := StreamSocket.respond_wire hw
    have hopen : .closeCalled ∉ k.log := by
      rw [e1, List.mem_append]; exact fun g => g.elim p1 l1
    have hdel : s.data = delivered k.log := by rw [e1, Socket.delivered_append, l2, List.append_nil]; exact h.data
    have hout : s.sock.outgoing = wires s.done ++ x.world.wire := by
      have := h.out
      rw [hx] at this; exact this
    have heof : ∀ t, .readDone t EOF [] ∉ k.log := fun t ht => by
      rw [e1, List.mem_append] at ht
      rcases (h.eof1 t (ht.resolve_right (l3 t EOF))).2 with g | g
      · rw [hph] at g; cases g
      · exact p1 g
    have hrf : ∀ t e, e < 0 → .readDone t e [] ∉ k.log := fun t e he ht => by
      rw [e1, List.mem_append] at ht
      have := h.rf t e he (ht.resolve_right (l3 t e))
      rw [hph] at this; cases this
    by_cases hi : w.phase = .idle
    · rw [if_pos hi] at hs
      generalize hx' : ({ x with answers := x.answers ++ [r], world := w } : Write) = x' at hs
      have hxw : x'.world = w := by rw [← hx']
      have hxc : x'.chain = x.chain := by rw [← hx']
      have hok' : x'.Ok := by rw [← hx']; exact hok
      have hout' : k.outgoing = wires (s.done ++ [x']) := by
        rw [e6, hout]
        unfold wires
        rw [List.flatMap_append]
        show _ = _ ++ (x'.world.wire ++ [])
        rw [List.append_nil, hxw, hwire, List.append_assoc]
        cases r <;> rfl
      have hdone' : ∀ y ∈ s.done ++ [x'], y.Ok ∧ y.world.phase = .idle := by
        intro y hy
        rcases List.mem_append.1 hy with g | g
        · exact h.done y g
        · rw [List.mem_singleton.1 g]; exact ⟨hok', by rw [hxw]; exact hi⟩
      have failed : (¬ ToldSuccess x') → Inv size c { s with sock := k, cur := none, asked := false, done := s.done ++ [x'], phase := .stopped } := by
        intro hnt
        refine { live := hk, timeout := e2.trans h.timeout, data := hdel, le := h.le, reg := e4, cb := (fun g => by cases g), out := ?_, done := hdone', cur := (fun y g => by cases g), phase := ?_, stack := fun g => absurd g e7, eof1 := fun t ht => absurd ht (heof t), eof2 := ?_, rf := fun t e he ht => absurd ht (hrf t e he) }
        · rw [hout']; exact (List.append_nil _).symm
        · exact ⟨rfl, Or.inr (Or.inr ⟨hopen, e3.trans p2, s.done, x', rfl, p3, p4, hxc.trans p6, hnt⟩)⟩
        · rintro (g | g)
          · cases g
          · exact absurd g hopen
      unfold written at hs
      dsimp only at hs
      cases hcalls : x'.world.calls.getLast? with
      | none =>
        rw [hcalls] at hs
        dsimp only at hs
        subst hs
        exact failed (fun ⟨ch, q⟩ => by rw [hcalls] at q; cases q)
      | some q =>
        obtain ⟨e, ch⟩ := q
        rw [hcalls] at hs
        dsimp only at hs
        unfold handleWrite at hs
        by_cases he : e = SUCCESS
        · rw [if_neg (fun q => q he)] at hs
          subst he
          subst hs
          have hlen : s.fetch + s.num = s.data.length := by
            rw [p5]; unfold unread; rw [List.length_drop]; omega
          have hgood : Good (s.done ++ [x']) s.data := by
            refine ⟨fun y hy => ?_, ?_⟩
            · rcases List.mem_append.1 hy with g | g
              · exact p3.1 y g
              · rw [List.mem_singleton.1 g]; exact ⟨ch, hcalls⟩
            · rw [List.flatMap_append, p3.2]
              show _ ++ (flat x'.chain ++ []) = _
              rw [List.append_nil, hxc, p6]
              show _ ++ (unread s ++ []) = _
              rw [List.append_nil]; exact List.take_append_drop _ _
          refine { live := hk, timeout := e2.trans h.timeout, data := hdel, le := h.le, reg := e4, cb := (fun g => by cases g), out := ?_, done := hdone', cur := (fun y g => by cases g), phase := ?_, stack := fun g => absurd g e7, eof1 := fun t ht => absurd ht (heof t), eof2 := ?_, rf := fun t e he ht => absurd ht (hrf t e he) }
          · show k.outgoing = _
            rw [hout']; exact (List.append_nil _).symm
          · exact ⟨hopen, e3.trans p2, rfl, hgood, hlen⟩
          · rintro (g | g)
            · cases g
            · exact absurd g hopen
        · rw [if_pos he] at hs
          subst hs
          exact failed (fun ⟨ch', q⟩ => by rw [hcalls] at q; injection q with q; injection q with q; exact he q)
    · rw [if_neg hi] at hs
      subst hs
      refine { live := hk, timeout := e2.trans h.timeout, data := hdel, le := h.le, reg := e4, cb := (fun g => by cases g), out := ?_, done := h.done, cur := fun y g => ?_, phase := ?_, stack := fun g => absurd g e7, eof1 := fun t ht => absurd ht (heof t), eof2 := ?_, rf := fun t e he ht => absurd ht (hrf t e he) }
      · show k.outgoing = wires s.done ++ w.wire
        rw [e6, hout, hwire, List.append_assoc]
        cases r <;> rfl
      · injection g with g
        subst g
        exact ⟨hok, hi⟩
      · unfold PhaseOk
        show match s.phase with | _ => _
        rw [hph]
        exact ⟨hopen, e3.trans p2, p3, p4, p5, _, rfl, p6⟩
      · rintro (g | g)
        · change s.phase = _ at g
          rw [hph] at g; cases g
        · exact absurd g hopen

end Cio.PlainEcho
