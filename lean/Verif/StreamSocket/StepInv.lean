import Verif.StreamSocket.Inv
/-
Every event keeps the invariant.
-/
namespace Cio.StreamSocket
open BufferedRead (UAct Handler World)
open BufferedWrite (Elem Resp flat)
open Socket (St Obs)

theorem br_run_append (H : Handler) (es : List BufferedRead.Ev) (e : BufferedRead.Ev) (w w' w'' : World) (h : BufferedRead.run H w es = some w')
    (hs : BufferedRead.step H w' e = some w'') : BufferedRead.run H w (es ++ [e]) = some w'' := by
  induction es generalizing w with
  | nil =>
    injection h with h
    subst h
    show (BufferedRead.step H w e >>= fun w => BufferedRead.run H w []) = some w''
    rw [hs]; rfl
  | cons x es ih =>
    rw [List.cons_append]
    unfold BufferedRead.run at h ⊢
    cases hx : BufferedRead.step H w x with
    | none => rw [hx] at h; cases h
    | some v => rw [hx] at h; exact ih v h

theorem br_reach_step {H : Handler} {mem : List UInt8} {w w' : World} {e : BufferedRead.Ev} (h : BufferedRead.Reach H mem w) (hs : BufferedRead.step H w e = some w') :
    BufferedRead.Reach H mem w' := by
  obtain ⟨es, h⟩ := h
  exact ⟨es ++ [e], br_run_append H es e _ w w' h hs⟩

theorem bw_run_append (rs : List Resp) (r : Resp) (w w' w'' : BufferedWrite.World) (h : BufferedWrite.run w rs = some w')
    (hs : BufferedWrite.respond w' r = some w'') : BufferedWrite.run w (rs ++ [r]) = some w'' := by
  induction rs generalizing w with
  | nil =>
    injection h with h
    subst h
    show (BufferedWrite.respond w r >>= fun w => BufferedWrite.run w []) = some w''
    rw [hs]; rfl
  | cons x es ih =>
    rw [List.cons_append]
    unfold BufferedWrite.run at h ⊢
    cases hx : BufferedWrite.respond w x with
    | none => rw [hx] at h; cases h
    | some v => rw [hx] at h; exact ih v h

theorem partial_wire {w w' : BufferedWrite.World} {n : Nat} (h : BufferedWrite.handlePartialWrites w n = some w') : w'.wire = w.wire := by
  unfold BufferedWrite.handlePartialWrites at h
  cases hf : BufferedWrite.findPartial n w.chain with
  | none => rw [hf] at h; cases h
  | some q =>
    obtain ⟨pre, e, m, post⟩ := q
    rw [hf] at h
    dsimp only [bind, Option.bind] at h
    cases post <;> cases h <;> rfl

theorem handleWrite_wire (w : BufferedWrite.World) (n : Nat) : (BufferedWrite.handleWrite w n).wire = w.wire := by
  unfold BufferedWrite.handleWrite
  dsimp only
  split <;> rfl

/-- What an answer to `write_some` puts on the wire. -/
theorem respond_wire {x : Write} {r : Resp} {w : BufferedWrite.World} (h : BufferedWrite.respond x.world r = some w) :
    w.wire = x.world.wire ++ (match r with | .ok n => x.data.take n | _ => []) := by
  cases r with
  | ok n =>
    unfold BufferedWrite.respond at h
    dsimp only at h ⊢
    unfold Write.data
    cases hp : x.world.phase with
    | first =>
      rw [hp] at h
      dsimp only at h
      rw [if_pos rfl]
      split at h
      · unfold BufferedWrite.handleFirstWrite at h
        split at h
        · cases h; rfl
        · exact partial_wire h
      · cases h
    | more =>
      rw [hp] at h
      dsimp only at h
      rw [if_neg (fun h => nomatch h)]
      split at h
      · cases h
        exact handleWrite_wire _ _
      · cases h
    | idle => rw [hp] at h; cases h
  | err e =>
    unfold BufferedWrite.respond at h
    dsimp only at h ⊢
    rw [List.append_nil]
    cases hp : x.world.phase with
    | first => rw [hp] at h; cases h; rfl
    | more => rw [hp] at h; cases h; rfl
    | idle => rw [hp] at h; cases h
  | sync e =>
    unfold BufferedWrite.respond at h
    dsimp only at h ⊢
    rw [List.append_nil]
    cases hp : x.world.phase with
    | first => rw [hp] at h; cases h; rfl
    | more => rw [hp] at h; cases h; rfl
    | idle => rw [hp] at h; cases h

/-- The stream is ready for every answer the socket can give. -/
theorem respond_possible {x : Write} {r : Resp} (hp : x.world.phase ≠ .idle) (hr : ∀ n, r = .ok n → n ≤ x.data.length) : ∃ w, BufferedWrite.respond x.world r = some w := by
  cases r with
  | ok n =>
    have hn := hr n rfl
    unfold Write.data at hn
    unfold BufferedWrite.respond
    dsimp only
    cases hq : x.world.phase with
    | first =>
      rw [hq, if_pos rfl] at hn
      dsimp only
      rw [if_pos hn]
      unfold BufferedWrite.handleFirstWrite
      dsimp only
      split
      · exact ⟨_, rfl⟩
      · next hne =>
        obtain ⟨pre, e, m, post, f1, -⟩ := BufferedWrite.findPartial_spec n x.world.chain (by omega)
        unfold BufferedWrite.handlePartialWrites
        dsimp only
        rw [f1]
        dsimp only [bind, Option.bind]
        cases post <;> exact ⟨_, rfl⟩
    | more =>
      rw [hq, if_neg (fun h => nomatch h)] at hn
      dsimp only
      rw [if_pos hn]
      exact ⟨_, rfl⟩
    | idle => exact absurd hq hp
  | err e =>
    unfold BufferedWrite.respond
    dsimp only
    cases hq : x.world.phase with
    | first => exact ⟨_, rfl⟩
    | more => exact ⟨_, rfl⟩
    | idle => exact absurd hq hp
  | sync e =>
    unfold BufferedWrite.respond
    dsimp only
    cases hq : x.world.phase with
    | first => exact ⟨_, rfl⟩
    | more => exact ⟨_, rfl⟩
    | idle => exact absurd hq hp

/-- `write_some` is answered: the socket has become `k`. -/
theorem settle_inv {quiet : Bool} {H : Handler} {c : Bool} {mem : List UInt8} {s s' : Sys} (h : Inv quiet H c mem s) {x : Write} (hx : s.cur = some x) {r : Resp} {k : St} {l : List Obs}
    (hk : Socket.Reach (SockRules quiet) c k) (hcl : s.br.closed = false)
    (e1 : k.log = s.sock.log ++ l) (e2 : k.closeTimeout = s.sock.closeTimeout) (e3 : k.pendRead = s.sock.pendRead) (e4 : k.regOut = false)
    (e6 : k.outgoing = s.sock.outgoing ++ (match r with | .ok n => x.data.take n | _ => []))
    (e8 : k.incomingEnd = s.sock.incomingEnd) (l0 : Socket.sent l = []) (l1 : .closeCalled ∉ l) (l2 : Socket.delivered l = []) (hr : BufferedWrite.Proper r)
    (hs : settle { s with sock := k } x r = some s') : Inv quiet H c mem s' := by
  unfold settle at hs
  cases hw : BufferedWrite.respond x.world r with
  | none => rw [hw] at hs; cases hs
  | some w =>
    rw [hw] at hs
    simp only [Option.map_some, Option.some.injEq] at hs
    obtain ⟨⟨ok1, ok2, ok3⟩, hph⟩ := h.cur x hx
    have hok : Write.Ok { x with answers := x.answers ++ [r], world := w } := by
      refine ⟨bw_run_append _ _ _ _ _ ok1 hw, ?_, ok3⟩
      intro q hq
      rcases List.mem_append.1 hq with g | g
      · exact ok2 q g
      · rw [List.mem_singleton.1 g]; exact hr
    have hwire := respond_wire hw
    have hclk : .closeCalled ∈ k.log ↔ .closeCalled ∈ s.sock.log := by
      rw [e1, List.mem_append]; exact ⟨fun g => g.elim id (fun g => absurd g l1), Or.inl⟩
    have hdel : Socket.delivered k.log = Socket.delivered s.sock.log := by rw [e1, Socket.delivered_append, l2, List.append_nil]
    have hsent : Socket.sent k.log = Socket.sent s.sock.log := by rw [e1, Socket.sent_append, l0, List.append_nil]
    have hmem : ∀ o, o ∈ s.sock.log → o ∈ k.log := fun o ho => by rw [e1]; exact List.mem_append_left _ ho
    have hout : s.sock.outgoing = wires s.done ++ x.world.wire := by
      have := h.out
      rw [hx] at this; exact this
    have common : ∀ (cur : Option Write) (done : List Write), (∀ y ∈ done, y.Ok ∧ y.world.phase = .idle) → (∀ y, cur = some y → y.Ok ∧ y.world.phase ≠ .idle) →
        k.outgoing = wires done ++ optWire cur → Inv quiet H c mem { s with sock := k, cur := cur, asked := false, done := done } := by
      intro cur done hd hc ho
      refine { sock := hk, br := h.br, brReach := h.brReach, timeout := e2.trans h.timeout, closed := h.closed.trans hclk.symm, loopOpen := h.loopOpen, wait := fun g1 g2 => ?_, idle := fun g1 g2 => e3.trans (h.idle g1 g2), received := h.received.trans hdel.symm, asked := (fun g => nomatch g), reg := e4, cb := (fun g => nomatch g), closedCur := fun g => ?_, out := ho, done := hd, cur := hc, errs := fun e he => ?_, eof := fun he => ?_, eofCalls := fun y hy he => ?_ }
      · obtain ⟨t, ht⟩ := h.wait g1 g2
        exact ⟨t, e3.trans ht⟩
      · have g : s.br.closed = true := g
        rw [hcl] at g; cases g
      · obtain ⟨t, ht⟩ := h.errs e he
        exact ⟨t, hmem _ ht⟩
      · obtain ⟨g1, g2⟩ := h.eof he
        exact ⟨e8.trans g1, g2.trans hsent.symm⟩
      · obtain ⟨g1, g2⟩ := h.eofCalls y hy he
        exact ⟨hmem _ g1, g2.trans hsent.symm⟩
    by_cases hi : w.phase = .idle
    · rw [if_pos hi] at hs
      subst hs
      refine common none _ ?_ (fun y g => nomatch g) ?_
      · intro y hy
        rcases List.mem_append.1 hy with g | g
        · exact h.done y g
        · rw [List.mem_singleton.1 g]; exact ⟨hok, hi⟩
      · rw [e6, hout]
        unfold wires
        rw [List.flatMap_append]
        show _ = (_ ++ (w.wire ++ [])) ++ []
        rw [List.append_nil, List.append_nil, hwire, List.append_assoc]
        cases r <;> rfl
    · rw [if_neg hi] at hs
      subst hs
      refine common (some _) s.done h.done ?_ ?_
      · intro y g
        injection g with g
        subst g
        exact ⟨hok, hi⟩
      · rw [e6, hout]
        show _ = wires s.done ++ w.wire
        rw [hwire, List.append_assoc]
        cases r <;> rfl

theorem sock_readable_reg {s k : St} {u : Bool} {r : Socket.ReadRes} (h : Socket.step s (.readable u r) = some k) : s.inLoop = true ∧ s.regIn = true := by
  have hst := (sock_stack h).1 (Or.inr (Or.inr (Or.inl ⟨_, _, rfl⟩)))
  have hu := sock_ub h
  unfold Socket.step at h
  rw [if_neg (by rw [hu]; simp), hst] at h
  dsimp only at h
  split at h
  · next hg => simpa using hg
  · cases h

theorem answer_eq {s k : St} {l : List Obs} (h : k.log = s.log ++ l) : answer s k = l.getLast? := by
  unfold answer
  rw [h, List.drop_left]

/-- The read callback while the stream is open. -/
theorem open_readable {quiet : Bool} {H : Handler} {c : Bool} {mem : List UInt8} {s : Sys} (h : Inv quiet H c mem s) (hcl : s.br.closed = false) {r : Socket.ReadRes} {k : St}
    (hk : Socket.step s.sock (.readable true r) = some k) : Got s.sock r k ∧ s.br.waiting = true ∧ s.br.looping = false ∧ ∃ t, s.sock.pendRead = some (t, s.br.rb.spaceAvailable) ∧ 0 < s.br.rb.spaceAvailable := by
  obtain ⟨hopen, halive, -⟩ := h.open_alive hcl
  obtain ⟨hb, -, hrd, -⟩ := Socket.reach_inv (sockReach h.sock)
  obtain ⟨-, hreg⟩ := sock_readable_reg hk
  obtain ⟨b1, b2⟩ := hb.regIn halive hreg
  have hcb : s.sock.readCb = .read := by
    cases hc : s.sock.readCb with
    | read => rfl
    | none => exact absurd hc b1
    | drain => exact absurd ((hb.drain halive).2 hc) hopen
  have hp := b2 hcb
  have hw : s.br.waiting = true := by
    cases hw : s.br.waiting with
    | true => rfl
    | false =>
      obtain ⟨x, hx⟩ := hp
      rw [h.idle hcl hw] at hx; cases hx
  obtain ⟨t, ht⟩ := h.wait hcl hw
  exact ⟨sock_readable hcb (fun _ => hp) hk, hw, (h.br.wait hw).1, t, ht, (h.br.wait hw).2.1⟩

theorem step_inv {quiet : Bool} {H : Handler} {c : Bool} {mem : List UInt8} (hpos : 0 < mem.length) {s s' : Sys} {e : Ev} (h : Inv quiet H c mem s) (ha : Allowed quiet s e)
    (hs : step H s e = some s') (hm : s'.br.misuse = false) (hc : s'.br.closed = true → s.br.closed = false → s'.cur = none ∨ c = false) : Inv quiet H c mem s' := by
  obtain ⟨hb, -, hrd, hwr⟩ := Socket.reach_inv (sockReach h.sock)
  cases e with
  | peerSends d =>
    unfold step at hs
    dsimp only at hs
    cases hk : Socket.step s.sock (.peerSends d) with
    | none => rw [hk] at hs; cases hs
    | some k =>
      rw [hk] at hs; cases hs
      have hreach : Socket.Reach (SockRules quiet) c k := .step h.sock (SockRules.other (m := .peerSends d) trivial (fun u r e => nomatch e)) hk
      obtain ⟨e0, ek⟩ := sock_peer hk
      subst ek
      exact h.sockOnly [.peerSent d] hreach rfl rfl (Or.inl rfl) rfl rfl rfl id (fun g => by rw [e0] at g; cases g) (by simp) rfl
  | peerCloses =>
    unfold step at hs
    dsimp only at hs
    cases hk : Socket.step s.sock .peerCloses with
    | none => rw [hk] at hs; cases hs
    | some k =>
      rw [hk] at hs; cases hs
      have hreach : Socket.Reach (SockRules quiet) c k := .step h.sock (SockRules.other (m := .peerCloses) trivial (fun u r e => nomatch e)) hk
      have ek := sock_fin hk
      subst ek
      exact h.sockOnly [.peerClosed] hreach rfl rfl (Or.inl rfl) rfl rfl rfl id (fun _ => ⟨rfl, rfl⟩) (by simp) rfl
  | enter =>
    unfold step at hs
    dsimp only at hs
    cases hk : Socket.step s.sock .enter with
    | none => rw [hk] at hs; cases hs
    | some k =>
      rw [hk] at hs; cases hs
      have hreach : Socket.Reach (SockRules quiet) c k := .step h.sock (SockRules.other (m := .enter) trivial (fun u r e => nomatch e)) hk
      have ek := sock_enter hk
      subst ek
      exact h.sockOnly [] hreach (by simp) rfl (Or.inl rfl) rfl rfl rfl id (fun g => ⟨g, rfl⟩) (by simp) rfl
  | leave =>
    unfold step at hs
    dsimp only at hs
    split at hs
    · cases hs
    · cases hk : Socket.step s.sock .leave with
      | none => rw [hk] at hs; cases hs
      | some k =>
        rw [hk] at hs; cases hs
        have hreach : Socket.Reach (SockRules quiet) c k := .step h.sock (SockRules.other (m := .leave) trivial (fun u r e => nomatch e)) hk
        obtain ⟨st, ek⟩ := sock_leave hk
        subst ek
        exact h.sockOnly [] hreach (by simp) rfl (Or.inl rfl) rfl rfl rfl id (fun g => ⟨g, rfl⟩) (by simp) rfl
  | timeout =>
    unfold step at hs
    dsimp only at hs
    cases hk : Socket.step s.sock .timeout with
    | none => rw [hk] at hs; cases hs
    | some k =>
      rw [hk] at hs; cases hs
      have hreach : Socket.Reach (SockRules quiet) c k := .step h.sock (SockRules.other (m := .timeout) trivial (fun u r e => nomatch e)) hk
      have hal : s.sock.timerArmed = true → s.sock.alive = true := by
        intro g
        cases hal : s.sock.alive with
        | true => rfl
        | false => rw [(hb.dead hal).2.1] at g; cases g
      obtain ⟨e0, ek⟩ := sock_timeout hal hk
      have hcld : s.br.closed = true := h.closed.2 ((hb.drain (hal e0)).2 ((hb.drainTimer (hal e0)).2 e0))
      subst ek
      exact h.sockOnly [.fdClosed, .hook] hreach rfl rfl (Or.inr hcld) rfl rfl rfl (fun _ => rfl) (fun g => ⟨g, rfl⟩) (by simp) rfl
  | user a os =>
    unfold step at hs
    dsimp only at hs
    split at hs
    · cases hs
    · next hg =>
      simp only [Bool.or_eq_true, not_or, Bool.not_eq_true, Bool.not_eq_false'] at hg
      cases hbr : BufferedRead.step H s.br (.user a) with
      | none => rw [hbr] at hs; cases hs
      | some br =>
        rw [hbr, Option.bind_some] at hs
        obtain ⟨u1, u2, u3, u4, u5, u6, u7, u8⟩ := user_facts H s.br br a hbr
        have hs' : s'.br = br := by
          unfold follow at hs
          cases h1 : asks s br with
          | none => rw [h1] at hs; cases hs
          | some k =>
            rw [h1, Option.bind_some] at hs
            cases h2 : closes s br os k with
            | none => rw [h2] at hs; cases hs
            | some k2 => rw [h2] at hs; cases hs; rfl
        refine follow_inv h (BufferedRead.step_inv mem.length hpos H s.br br _ h.br hbr (by rw [← hs']; exact hm)) (br_reach_step h.brReach hbr) ha (by simpa using hg.1) u2 hs u4 u5 ?_ ?_ ?_ ?_ ?_
        · intro g; exact Or.inl ⟨u3 ▸ g, u8⟩
        · intro g; exact u3 ▸ g
        · intro g
          cases hcl : br.closed with
          | false => rfl
          | true => rw [u7 hcl] at g; cases g
        · intro x hx; rw [u6] at hx; exact Or.inl hx
        · intro g; exact hc (by rw [hs']; exact g) u2
  | loop os =>
    unfold step at hs
    dsimp only at hs
    split at hs
    · cases hs
    · next hg =>
      simp only [Bool.or_eq_true, not_or, Bool.not_eq_true, Bool.not_eq_false'] at hg
      cases hbr : BufferedRead.step H s.br (.loop SUCCESS) with
      | none => rw [hbr] at hs; cases hs
      | some br =>
        rw [hbr, Option.bind_some] at hs
        have hs' : s'.br = br := by
          unfold follow at hs
          cases h1 : asks s br with
          | none => rw [h1] at hs; cases hs
          | some k =>
            rw [h1, Option.bind_some] at hs
            cases h2 : closes s br os k with
            | none => rw [h2] at hs; cases hs
            | some k2 => rw [h2] at hs; cases hs; rfl
        have hmb : br.misuse = false := by rw [← hs']; exact hm
        have hbi := BufferedRead.step_inv mem.length hpos H s.br br _ h.br hbr hmb
        obtain ⟨u1, u2, u3, u4, u5, u6, u7, u8⟩ := loop_facts mem.length hpos H s.br br h.br hbr hmb
        have hcl := h.loopOpen u1
        refine follow_inv h hbi (br_reach_step h.brReach hbr) ha (by simpa using hg.1) hcl hs u3 u4 ?_ ?_ ?_ ?_ ?_
        · intro g; exact Or.inr ⟨u2, (u6 g).1.trans hcl⟩
        · intro _; exact u2
        · intro g; exact (u7 g).trans hcl
        · intro x hx
          rcases u8 with ⟨y, y1, y2, y3⟩ | y1
          · have hx' := hx
            rw [y1] at hx
            rcases List.mem_append.1 hx with g | g
            · exact Or.inl g
            · rw [List.mem_singleton.1 g]
              refine Or.inr ⟨y3.trans u3.symm, fun he => ?_⟩
              have hg := (hbi.core.calls x hx').1.2.2
              rw [List.mem_singleton.1 g, he, if_neg (by decide)] at hg
              rcases hg.2 with g2 | ⟨g2, -⟩
              · exact g2
              · exact absurd g2 (by decide)
          · rw [y1] at hx; exact Or.inl hx
        · intro g; exact hc (by rw [hs']; exact g) hcl
  | readable r =>
    obtain ⟨ha1, ha2⟩ := ha
    unfold step at hs
    dsimp only at hs
    cases hk : Socket.step s.sock (.readable true r) with
    | none => rw [hk] at hs; cases hs
    | some k =>
      rw [hk, Option.bind_some] at hs
      have hrule : SockRules quiet s.sock (.readable true r) := by
        have hr : Socket.Rules s.sock (.readable true r) := by
          cases r with
          | error e => exact ha1 e rfl
          | bytes n => exact trivial
          | again => exact trivial
        unfold SockRules
        split
        · next hq =>
          refine ⟨hr, fun u r' e t n hp => ?_⟩
          injection e with e1 e2
          subst e2
          exact ha2 hq t n hp
        · exact hr
      have hreach : Socket.Reach (SockRules quiet) c k := .step h.sock hrule hk
      by_cases hcl : s.br.closed = true
      · -- the stream is closed: the socket waits for the peer's end
        have hlive : s.sock.inLoop = true → s.sock.alive = true := by
          intro g
          cases hal : s.sock.alive with
          | true => rfl
          | false => rw [(hb.dead hal).1] at g; cases g
        obtain ⟨q1, q2⟩ := sock_readable_reg hk
        have hcb : s.sock.readCb = .drain := (hb.drain (hlive q1)).1 (h.closed.1 hcl)
        obtain ⟨-, hd⟩ := sock_drain hcb (fun _ g => hlive g) hk
        rcases hd with ⟨d, rest, hin, ek⟩ | ek
        · have hans : answer s.sock k = none := by rw [answer_eq (l := []) (by rw [ek]; simp)]; rfl
          rw [hans] at hs
          cases hs
          subst ek
          exact h.sockOnly [] hreach (by simp) rfl (Or.inl rfl) rfl rfl rfl id (fun g => ⟨g, rfl⟩) (by simp) rfl
        · have hans : answer s.sock k = some .hook := by rw [answer_eq (l := [.fdClosed, .hook]) (by rw [ek]; rfl)]; rfl
          rw [hans] at hs
          cases hs
          subst ek
          exact h.sockOnly [.fdClosed, .hook] hreach rfl rfl (Or.inl rfl) rfl rfl rfl (fun _ => rfl) (fun g => ⟨g, rfl⟩) (by simp) rfl
      · have hcl : s.br.closed = false := by simpa using hcl
        obtain ⟨hopen, halive, hloop⟩ := h.open_alive hcl
        obtain ⟨hgot, hw, hlp, t0, hp0, hsp⟩ := open_readable h hcl hk
        have hfail : ∀ (t : Nat) (e : Err) (br : World), k.log = s.sock.log ++ [.readDone t e []] → k.closeTimeout = s.sock.closeTimeout → k.pendRead = none → k.regOut = s.sock.regOut → k.writeCb = s.sock.writeCb →
            k.outgoing = s.sock.outgoing → k.incomingEnd = s.sock.incomingEnd → (e = EOF → s.sock.incomingEnd = true ∧ s.sock.incoming = []) →
            BufferedRead.step H s.br (.fail e) = some br → br.misuse = false → Inv quiet H c mem { s with sock := k, br := br } := by
          intro t e br f1 f2 f3 f4 f5 f6 f7 f8 hbr hmb
          have hbi := BufferedRead.step_inv mem.length hpos H s.br br _ h.br hbr hmb
          have hre := br_reach_step h.brReach hbr
          unfold BufferedRead.step at hbr
          dsimp only at hbr
          split at hbr
          case isFalse => cases hbr
          cases hbr
          have hdel : Socket.delivered k.log = Socket.delivered s.sock.log := by rw [f1, Socket.delivered_append]; exact List.append_nil _
          have hsent : Socket.sent k.log = Socket.sent s.sock.log := by rw [f1, Socket.sent_append]; exact List.append_nil _
          refine { sock := hreach, br := hbi, brReach := hre, timeout := f2.trans h.timeout, closed := ?_, loopOpen := fun _ => hcl, wait := (fun _ g => nomatch g), idle := fun _ _ => f3, received := h.received.trans hdel.symm, asked := h.asked, reg := f4.trans h.reg, cb := fun g => f5.trans (h.cb g), closedCur := fun g => ?_, out := f6.trans h.out, done := h.done, cur := h.cur, errs := ?_, eof := ?_, eofCalls := ?_ }
          · show s.br.closed = true ↔ .closeCalled ∈ k.log
            rw [hcl, f1]; simp [hopen]
          · have g : s.br.closed = true := g
            rw [hcl] at g; cases g
          · intro e' he
            rcases List.mem_append.1 he with g | g
            · obtain ⟨t', ht'⟩ := h.errs e' g
              exact ⟨t', by show _ ∈ k.log; rw [f1]; exact List.mem_append_left _ ht'⟩
            · rw [List.mem_singleton.1 g]
              exact ⟨t, by show _ ∈ k.log; rw [f1]; exact List.mem_append_right _ (List.mem_singleton.2 rfl)⟩
          · intro he
            rcases List.mem_append.1 he with g | g
            · obtain ⟨g1, g2⟩ := h.eof g
              exact ⟨f7.trans g1, g2.trans hsent.symm⟩
            · obtain ⟨g1, g2⟩ := f8 (List.mem_singleton.1 g).symm
              refine ⟨f7.trans g1, ?_⟩
              show s.br.received = Socket.sent k.log
              rw [hsent, h.received, ← hrd.open_ hopen, g2, List.append_nil]
          · intro y hy he
            obtain ⟨g1, g2⟩ := h.eofCalls y hy he
            exact ⟨by show _ ∈ k.log; rw [f1]; exact List.mem_append_left _ g1, g2.trans hsent.symm⟩
        cases hgot with
        | again r t n hp hr =>
          have hans : answer s.sock { s.sock with regIn := false } = none := by rw [answer_eq (l := []) (by simp)]; rfl
          rw [hans] at hs
          cases hs
          exact h.sockOnly [] hreach (by simp) rfl (Or.inl rfl) rfl rfl rfl id (fun g => ⟨g, rfl⟩) (by simp) rfl
        | error t n e hp =>
          have he := ha1 e rfl
          have hne : e ≠ SUCCESS := fun g => by rw [g] at he; exact absurd he (by decide)
          rw [answer_eq (l := [.readDone t e []]) rfl] at hs
          dsimp only [List.getLast?_singleton] at hs
          rw [if_neg hne] at hs
          cases hbr : BufferedRead.step H s.br (.fail e) with
          | none => rw [hbr] at hs; cases hs
          | some br =>
            rw [hbr] at hs; cases hs
            exact hfail t e br rfl rfl rfl rfl rfl rfl rfl (fun g => by rw [g] at he; exact absurd he (by decide)) hbr hm
        | eof t n m hp he =>
          rw [answer_eq (l := [.readDone t EOF []]) rfl] at hs
          dsimp only [List.getLast?_singleton] at hs
          rw [if_neg (by decide)] at hs
          cases hbr : BufferedRead.step H s.br (.fail EOF) with
          | none => rw [hbr] at hs; cases hs
          | some br =>
            rw [hbr] at hs; cases hs
            refine hfail t EOF br rfl rfl rfl rfl rfl rfl rfl (fun _ => ?_) hbr hm
            rw [hp0] at hp; cases hp
            exact ⟨(he hsp).2, (he hsp).1⟩
        | data t n m d rest hp hd h1 h2 =>
          rw [answer_eq (l := [.readDone t SUCCESS d]) rfl] at hs
          dsimp only [List.getLast?_singleton] at hs
          rw [if_pos rfl] at hs
          cases hbr : BufferedRead.step H s.br (.deliver d) with
          | none => rw [hbr] at hs; cases hs
          | some br =>
            rw [hbr] at hs; cases hs
            have hbi := BufferedRead.step_inv mem.length hpos H s.br br _ h.br hbr hm
            have hre := br_reach_step h.brReach hbr
            unfold BufferedRead.step at hbr
            dsimp only at hbr
            split at hbr
            case isFalse => cases hbr
            cases hbr
            have hnoeof : EOF ∉ s.br.transportErrs := by
              intro g
              obtain ⟨g1, g2⟩ := h.eof g
              have := hrd.open_ hopen
              rw [← g2, h.received, hd] at this
              have := congrArg List.length this
              simp only [List.length_append] at this
              have : 0 < d.length := List.length_pos_iff.2 h1
              omega
            refine { sock := hreach, br := hbi, brReach := hre, timeout := h.timeout, closed := ?_, loopOpen := fun _ => hcl, wait := (fun _ g => nomatch g), idle := fun _ _ => rfl, received := ?_, asked := h.asked, reg := h.reg, cb := h.cb, closedCur := fun g => ?_, out := h.out, done := h.done, cur := h.cur, errs := ?_, eof := ?_, eofCalls := ?_ }
            · show s.br.closed = true ↔ .closeCalled ∈ s.sock.log ++ [_]
              rw [hcl]; simp [hopen]
            · show s.br.received ++ d = Socket.delivered (s.sock.log ++ [.readDone t SUCCESS d])
              rw [Socket.delivered_append, h.received]
              show _ = _ ++ (d ++ [])
              rw [List.append_nil]
            · have g : s.br.closed = true := g
              rw [hcl] at g; cases g
            · intro e' he
              obtain ⟨t', ht'⟩ := h.errs e' he
              exact ⟨t', List.mem_append_left _ ht'⟩
            · intro he; exact absurd he hnoeof
            · intro y hy he
              obtain ⟨g1, g2⟩ := h.eofCalls y hy he
              refine ⟨List.mem_append_left _ g1, g2.trans ?_⟩
              show Socket.sent s.sock.log = Socket.sent (s.sock.log ++ [.readDone t SUCCESS d])
              rw [Socket.sent_append]; exact (List.append_nil _).symm
  | write chain =>
    unfold step at hs
    dsimp only at hs
    split at hs
    · cases hs
    · next hg =>
      simp only [Bool.or_eq_true, not_or, Bool.not_eq_true, Bool.not_eq_false'] at hg
      obtain ⟨⟨g1, g2⟩, g3⟩ := hg
      cases hs
      have hcn : s.cur = none := by
        cases hcu : s.cur with
        | none => rfl
        | some x => rw [hcu] at g1; cases g1
      have hask : s.asked = false := by
        cases hq : s.asked with
        | false => rfl
        | true => have := h.asked hq; rw [g1] at this; cases this
      refine { sock := h.sock, br := h.br, brReach := h.brReach, timeout := h.timeout, closed := h.closed, loopOpen := h.loopOpen, wait := h.wait, idle := h.idle, received := h.received, asked := (fun g => nomatch g), reg := h.reg.trans hask, cb := (fun g => nomatch g), closedCur := fun g => ?_, out := ?_, done := h.done, cur := fun x hx => ?_, errs := h.errs, eof := h.eof, eofCalls := h.eofCalls }
      · have g : s.br.closed = true := g
        rw [g3] at g; cases g
      · have := h.out
        rw [hcn] at this
        exact this
      · injection hx with hx
        subst hx
        exact ⟨⟨rfl, fun r hr => (by cases hr), ha⟩, (fun g => nomatch g)⟩
  | send r =>
    unfold step at hs
    dsimp only at hs
    cases hcu : s.cur with
    | none => rw [hcu] at hs; cases hs
    | some x =>
      rw [hcu] at hs
      dsimp only at hs
      split at hs
      · cases hs
      · next hg =>
        have hask : s.asked = false := by simpa using hg
        have hcl : s.br.closed = false := by
          cases hq : s.br.closed with
          | false => rfl
          | true =>
            rcases h.closedCur hq with g | ⟨g, -⟩
            · rw [hcu] at g; cases g
            · rw [hask] at g; cases g
        obtain ⟨hopen, halive, hloop⟩ := h.open_alive hcl
        obtain ⟨w1, w2⟩ := h.writesDone hask
        cases hk : Socket.step s.sock (.write x.data r true) with
        | none => rw [hk] at hs; cases hs
        | some k =>
          rw [hk, Option.bind_some] at hs
          have hreach : Socket.Reach (SockRules quiet) c k := .step h.sock (SockRules.other (m := .write x.data r true) ⟨hopen, w1, w2, rfl⟩ (fun u r e => nomatch e)) hk
          have hreg : s.sock.regOut = false := h.reg.trans hask
          obtain ⟨-, hsent⟩ := sock_write hk
          cases hsent with
          | now n m hmle =>
            rw [answer_eq (l := [.writeStarted s.sock.nextWrite x.data, .writeDone s.sock.nextWrite SUCCESS m]) (by simp)] at hs
            change settle _ x (respOf SUCCESS m) = some s' at hs
            have hro : respOf SUCCESS m = .ok m := by unfold respOf; rw [if_pos rfl]
            rw [hro] at hs
            exact settle_inv (r := .ok m) (l := [.writeStarted s.sock.nextWrite x.data, .writeDone s.sock.nextWrite SUCCESS m]) h hcu hreach hcl (by simp) rfl rfl hreg rfl rfl rfl (by simp) rfl trivial hs
          | later =>
            rw [answer_eq (l := [.writeStarted s.sock.nextWrite x.data]) rfl] at hs
            dsimp only [List.getLast?_singleton] at hs
            cases hs
            have hmem : ∀ o, o ∈ s.sock.log → o ∈ s.sock.log ++ [.writeStarted s.sock.nextWrite x.data] := fun o ho => List.mem_append_left _ ho
            have hdel : Socket.delivered (s.sock.log ++ [.writeStarted s.sock.nextWrite x.data]) = Socket.delivered s.sock.log := by rw [Socket.delivered_append]; exact List.append_nil _
            have hst : Socket.sent (s.sock.log ++ [.writeStarted s.sock.nextWrite x.data]) = Socket.sent s.sock.log := by rw [Socket.sent_append]; exact List.append_nil _
            refine { sock := hreach, br := h.br, brReach := h.brReach, timeout := h.timeout, closed := ?_, loopOpen := h.loopOpen, wait := h.wait, idle := h.idle, received := h.received.trans hdel.symm, asked := fun _ => rfl, reg := rfl, cb := fun _ => rfl, closedCur := fun g => ?_, out := (by have := h.out; rw [hcu] at this; exact this), done := h.done, cur := fun y hy => h.cur y (hcu.trans hy), errs := fun e he => ?_, eof := fun he => ?_, eofCalls := fun y hy he => ?_ }
            · show s.br.closed = true ↔ _ ∈ s.sock.log ++ [_]
              rw [hcl]; simp [hopen]
            · have g : s.br.closed = true := g
              rw [hcl] at g; cases g
            · obtain ⟨t, ht⟩ := h.errs e he
              exact ⟨t, hmem _ ht⟩
            · obtain ⟨g1, g2⟩ := h.eof he
              exact ⟨g1, g2.trans hst.symm⟩
            · obtain ⟨g1, g2⟩ := h.eofCalls y hy he
              exact ⟨hmem _ g1, g2.trans hst.symm⟩
          | fails e =>
            rw [answer_eq (l := [.writeRefused s.sock.nextWrite e]) rfl] at hs
            dsimp only [List.getLast?_singleton] at hs
            have he := ha e rfl
            exact settle_inv (l := [.writeRefused s.sock.nextWrite e]) (r := .sync e) h hcu hreach hcl rfl rfl rfl hreg (List.append_nil _).symm rfl rfl (by simp) rfl (fun g => by rw [g] at he; exact absurd he (by decide)) hs
  | writable err =>
    unfold step at hs
    dsimp only at hs
    cases hk : Socket.step s.sock (.writable err) with
    | none => rw [hk] at hs; cases hs
    | some k =>
      rw [hk, Option.bind_some] at hs
      have hreach : Socket.Reach (SockRules quiet) c k := .step h.sock (SockRules.other (m := .writable err) trivial (fun u r e => nomatch e)) hk
      obtain ⟨q1, q2, ek⟩ := sock_writable (fun g => h.cb (h.reg.symm.trans g)) hk
      have hask : s.asked = true := h.reg.symm.trans q2
      cases hcu : s.cur with
      | none => rw [hcu] at hs; cases hs
      | some x =>
        have hcl : s.br.closed = false := by
          cases hq : s.br.closed with
          | false => rfl
          | true =>
            rcases h.closedCur hq with g | ⟨-, g⟩
            · rw [hcu] at g; cases g
            · rw [q1] at g; cases g
        subst ek
        rw [hcu, answer_eq (l := [.writeDone s.sock.pendWrite (err.getD SUCCESS) 0]) rfl] at hs
        dsimp only [List.getLast?_singleton] at hs
        have hw : (match respOf (err.getD SUCCESS) 0 with | .ok n => x.data.take n | _ => []) = [] := by
          unfold respOf
          by_cases hz : err.getD SUCCESS = SUCCESS
          · rw [if_pos hz]; exact List.take_zero
          · rw [if_neg hz]
        refine settle_inv (l := [.writeDone s.sock.pendWrite (err.getD SUCCESS) 0]) (r := respOf (err.getD SUCCESS) 0) h hcu hreach hcl rfl rfl rfl rfl ?_ rfl rfl (by simp) rfl ?_ hs
        · rw [hw]; exact (List.append_nil _).symm
        · unfold respOf
          split
          · exact trivial
          · next hne => exact hne

theorem reach_inv {quiet : Bool} {H : Handler} {c : Bool} {mem : List UInt8} (hmem : mem ≠ []) {s : Sys} (h : Reach quiet H c mem s) : Inv quiet H c mem s := by
  induction h with
  | init => exact init_inv quiet H c mem
  | step h ha hs hm hc ih => exact step_inv (List.length_pos_iff.2 hmem) ih ha hs hm hc

theorem reach_misuse {quiet : Bool} {H : Handler} {c : Bool} {mem : List UInt8} {s : Sys} (h : Reach quiet H c mem s) : s.br.misuse = false := by
  cases h with
  | init => rfl
  | step h ha hs hm hc => exact hm

end Cio.StreamSocket
