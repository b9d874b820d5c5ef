import Verif.PlainEcho.Inv
namespace Cio.PlainEcho
open BufferedWrite (Elem Resp flat)
open StreamSocket (Write Os answer respOf dead wires optWire sock_stack)
open Socket (St Obs sent delivered)

theorem not_eof_lt {e : Err} (h : e < 0) : e ≠ EOF ∧ e ≠ SUCCESS := by
  constructor <;> intro g <;> rw [g] at h <;> exact absurd h (by decide)

theorem step_inv {size : Nat} {c : Bool} {s s' : Sys} {e : Ev} (h : Inv size c s) (ha : Allowed s e) (hs : step size s e = some s') : Inv size c s' := by
  have hp := h.phase
  have hL := h.live
  cases e with
  | peerSends d =>
    unfold step at hs
    dsimp only at hs
    cases hk : Socket.step s.sock (.peerSends d) with
    | none => rw [hk] at hs; cases hs
    | some k =>
      rw [hk] at hs
      cases hs
      obtain ⟨q, ek⟩ := StreamSocket.sock_peer hk
      subst ek
      have hcl : ∀ o : Obs, (∀ d, o ≠ .peerSent d) → (o ∈ s.sock.log ++ [.peerSent d] ↔ o ∈ s.sock.log) := fun o ho => by
        rw [List.mem_append, List.mem_singleton]; exact ⟨fun g => g.elim id (fun g => absurd g (ho d)), Or.inl⟩
      refine h.sockOnly [.peerSent d] ?_ rfl rfl (fun _ => ⟨rfl, rfl, rfl⟩) rfl rfl rfl (by simp) rfl (by simp) (fun g => Or.inl g)
      have hd : delivered (s.sock.log ++ [.peerSent d]) = delivered s.sock.log := by rw [Socket.delivered_append]; exact List.append_nil _
      have hsn : sent (s.sock.log ++ [.peerSent d]) = sent s.sock.log ++ d := by
        rw [Socket.sent_append]; show _ ++ (d ++ []) = _; rw [List.append_nil]
      refine ⟨hL.ub, hL.gone, fun g => hL.opn (fun q => g (List.mem_append_left _ q)), fun g => hL.cls ((hcl _ (fun d q => by cases q)).1 g), fun g => List.mem_append_left _ (hL.fin g), fun g => ?_, ?_⟩
      · show delivered (s.sock.log ++ [.peerSent d]) ++ (s.sock.incoming ++ d) = sent (s.sock.log ++ [.peerSent d])
        rw [hd, hsn, ← List.append_assoc, hL.flow (fun q => g (List.mem_append_left _ q))]
      · show delivered (s.sock.log ++ [.peerSent d]) <+: sent (s.sock.log ++ [.peerSent d])
        rw [hd, hsn]; exact prefix_add hL.pre
  | peerCloses =>
    unfold step at hs
    dsimp only at hs
    cases hk : Socket.step s.sock .peerCloses with
    | none => rw [hk] at hs; cases hs
    | some k =>
      rw [hk] at hs
      cases hs
      have ek := StreamSocket.sock_fin hk
      subst ek
      have hcl : .closeCalled ∈ s.sock.log ++ [.peerClosed] ↔ .closeCalled ∈ s.sock.log := by simp
      refine h.sockOnly [.peerClosed] ?_ rfl rfl (fun _ => ⟨rfl, rfl, rfl⟩) rfl rfl rfl (by simp) rfl (by simp) (fun g => Or.inl g)
      have hd : delivered (s.sock.log ++ [.peerClosed]) = delivered s.sock.log := by rw [Socket.delivered_append]; exact List.append_nil _
      have hsn : sent (s.sock.log ++ [.peerClosed]) = sent s.sock.log := by rw [Socket.sent_append]; exact List.append_nil _
      refine ⟨hL.ub, hL.gone, fun g => hL.opn (fun q => g (hcl.2 q)), fun g => hL.cls (hcl.1 g), fun _ => List.mem_append_right _ List.mem_cons_self, fun g => ?_, ?_⟩
      · show delivered (s.sock.log ++ [.peerClosed]) ++ s.sock.incoming = sent (s.sock.log ++ [.peerClosed])
        rw [hd, hsn]; exact hL.flow (fun q => g (hcl.2 q))
      · show delivered (s.sock.log ++ [.peerClosed]) <+: sent (s.sock.log ++ [.peerClosed])
        rw [hd, hsn]; exact hL.pre
  | enter =>
    unfold step at hs
    dsimp only at hs
    split at hs
    case isFalse => cases hs
    next hph =>
    cases hk : Socket.step s.sock .enter with
    | none => rw [hk] at hs; cases hs
    | some k =>
      rw [hk] at hs
      cases hs
      have ek := StreamSocket.sock_enter hk
      subst ek
      exact h.sockOnly [] (hL.quiet [] (List.append_nil _).symm (by simp) rfl rfl rfl rfl rfl rfl (fun _ => rfl) rfl rfl) (List.append_nil _).symm rfl (fun _ => ⟨rfl, rfl, rfl⟩) rfl rfl rfl (by simp) rfl (by simp) (fun g => by cases g)
  | leave =>
    unfold step at hs
    dsimp only at hs
    split at hs
    case isFalse => cases hs
    next hph =>
    cases hk : Socket.step s.sock .leave with
    | none => rw [hk] at hs; cases hs
    | some k =>
      rw [hk] at hs
      cases hs
      obtain ⟨st, ek⟩ := StreamSocket.sock_leave hk
      subst ek
      exact h.sockOnly [] (hL.quiet [] (List.append_nil _).symm (by simp) rfl rfl rfl rfl rfl rfl (fun _ => rfl) rfl rfl) (List.append_nil _).symm rfl (fun _ => ⟨rfl, rfl, rfl⟩) rfl rfl rfl (by simp) rfl (by simp) (fun _ => Or.inr (Or.inr hph))
  | timeout =>
    unfold step at hs
    dsimp only at hs
    cases hk : Socket.step s.sock .timeout with
    | none => rw [hk] at hs; cases hs
    | some k =>
      rw [hk] at hs
      cases hs
      obtain ⟨q, ek⟩ := StreamSocket.sock_timeout (fun g => by
        cases hal : s.sock.alive with
        | true => rfl
        | false => rw [(hL.gone hal).1] at g; cases g) hk
      have hcl : .closeCalled ∈ s.sock.log := Classical.byContradiction fun g => by rw [(hL.opn g).2.2] at q; cases q
      subst ek
      exact h.sockOnly [.fdClosed, .hook] (hL.dead hcl) rfl rfl (fun g => absurd hcl g) rfl rfl rfl (by simp) rfl (by simp) (fun g => by cases g)
  | read =>
    unfold step at hs
    dsimp only at hs
    split at hs
    case isFalse => cases hs
    next hph =>
    cases hk : Socket.step s.sock (.read (space size s) true) with
    | none => rw [hk] at hs; cases hs
    | some k =>
      rw [hk] at hs
      cases hs
      obtain ⟨-, ek⟩ := StreamSocket.sock_read hk
      have pre : .closeCalled ∉ s.sock.log ∧ s.cur = none ∧ Good s.done s.data ∧ s.fetch = s.data.length := by
        unfold PhaseOk at hp
        rcases hph with g | g <;> rw [g] at hp <;> dsimp only at hp
        · obtain ⟨p1, p2, p3, p4, p5, p6⟩ := hp
          exact ⟨p1, p3, by rw [p4, p5]; exact ⟨fun x hx => (by cases hx), rfl⟩, by rw [p5, p6]; rfl⟩
        · exact ⟨hp.1, hp.2.2.1, hp.2.2.2.1, hp.2.2.2.2⟩
      obtain ⟨p1, p2, p3, p4⟩ := pre
      have hask : s.asked = false := by
        cases hq : s.asked with
        | false => rfl
        | true => rcases hph with g | g <;> rw [(h.cb hq).2] at g <;> cases g
      subst ek
      have hopen : .closeCalled ∉ s.sock.log ++ [.readStarted s.sock.nextRead] := by simp [p1]
      refine { live := ?_, timeout := h.timeout, data := ?_, le := h.le, reg := h.reg, cb := fun g => ?_, out := h.out, done := h.done, cur := h.cur, phase := ?_, stack := fun _ => Or.inr (Or.inl rfl), eof1 := fun t ht => ?_, eof2 := ?_, rf := fun t e he ht => ?_ }
      · exact hL.quiet [.readStarted s.sock.nextRead] rfl (by simp) rfl rfl rfl rfl rfl rfl (fun g => absurd g p1) rfl rfl
      · show s.data = delivered (s.sock.log ++ [.readStarted s.sock.nextRead])
        rw [Socket.delivered_append]; exact h.data.trans (List.append_nil _).symm
      · change s.asked = true at g
        rw [hask] at g; cases g
      · exact ⟨hopen, rfl, rfl, ⟨_, rfl⟩, p2, p3, p4⟩
      · have ht : .readDone t EOF [] ∈ s.sock.log ++ [.readStarted s.sock.nextRead] := ht
        rw [List.mem_append, List.mem_singleton] at ht
        rcases ht with ht | ht
        · exfalso
          rcases (h.eof1 t ht).2 with g | g
          · rcases hph with q | q <;> rw [q] at g <;> cases g
          · exact p1 g
        · cases ht
      · rintro (g | g)
        · cases g
        · exact absurd g hopen
      · have ht : .readDone t e [] ∈ s.sock.log ++ [.readStarted s.sock.nextRead] := ht
        rw [List.mem_append, List.mem_singleton] at ht
        rcases ht with ht | ht
        · have := h.rf t e he ht
          rcases hph with q | q <;> rw [q] at this <;> cases this
        · cases ht
  | write =>
    unfold step at hs
    dsimp only at hs
    split at hs
    case isFalse => cases hs
    next hph =>
    cases hs
    unfold PhaseOk at hp
    rw [hph] at hp
    obtain ⟨p1, p2, p3, p4, p5⟩ := hp
    have hask : s.asked = false := by
      cases hq : s.asked with
      | false => rfl
      | true => rw [(h.cb hq).2] at hph; cases hph
    refine { live := hL, timeout := h.timeout, data := h.data, le := h.le, reg := h.reg.trans hask, cb := (fun g => by cases g), out := ?_, done := h.done, cur := fun y g => ?_, phase := ?_, stack := fun g => ?_, eof1 := fun t ht => ?_, eof2 := ?_, rf := fun t e he ht => ?_ }
    · have := h.out
      rw [p3] at this
      exact this
    · injection g with g
      subst g
      refine ⟨⟨rfl, fun r hr => (by cases hr), fun e he => ?_⟩, (fun g => by cases g)⟩
      rw [List.mem_singleton.1 he]; show elem ≠ BufferedWrite.temp; decide
    · exact ⟨p1, p2, p4, p5, rfl, _, rfl, rfl⟩
    · rcases h.stack g with q | q | q | q
      · rw [hph] at q; cases q
      · rw [hph] at q; cases q
      · rw [hph] at q; cases q
      · rw [hph] at q; cases q.1
    · exfalso
      rcases (h.eof1 t ht).2 with g | g
      · rw [hph] at g; cases g
      · exact p1 g
    · rintro (g | g)
      · cases g
      · exact absurd g p1
    · have := h.rf t e he ht
      rw [hph] at this; cases this
  | close os =>
    unfold step at hs
    dsimp only at hs
    split at hs
    case isFalse => cases hs
    next hph =>
    have hos : os.soon = false := ha
    rw [hos] at hs
    cases hk : Socket.step s.sock (.close os.shutOk os.armOk false os.regOk) with
    | none => rw [hk] at hs; cases hs
    | some k =>
      rw [hk] at hs
      cases hs
      unfold PhaseOk at hp
      rw [hph] at hp
      obtain ⟨p1, p2, p3, p4, p5⟩ := hp
      obtain ⟨t0, ht0⟩ := h.eof2 (Or.inl hph)
      have hask : s.asked = false := by
        cases hq : s.asked with
        | false => rfl
        | true => rw [(h.cb hq).2] at hph; cases hph
      obtain ⟨hal, hk⟩ := StreamSocket.sock_close hk
      have facts : ∃ l, k.log = s.sock.log ++ l ∧ .closeCalled ∈ l ∧ delivered l = [] ∧ sent l = [] ∧ (∀ t, .readDone t EOF [] ∉ l) ∧ k.closeTimeout = s.sock.closeTimeout ∧ k.regOut = s.sock.regOut ∧
          k.outgoing = s.sock.outgoing ∧ k.incomingEnd = s.sock.incomingEnd ∧ k.ub = s.sock.ub ∧ (k.alive = false → k.timerArmed = false ∧ k.inLoop = false) ∧ (k.alive = true → k.readCb = .drain) := by
        rcases hk with ⟨hct, hk⟩ | ⟨cb, hk⟩
        · subst hk
          exact ⟨[.closeCalled], rfl, by simp, rfl, rfl, by simp, rfl, rfl, rfl, rfl, rfl, (fun g => by change s.sock.alive = false at g; rw [hal] at g; cases g), fun _ => rfl⟩
        · subst hk
          exact ⟨[.closeCalled] ++ [.fdClosed, .hook], by simp [dead], by simp, rfl, rfl, by simp, rfl, rfl, rfl, rfl, rfl, fun _ => ⟨rfl, rfl⟩, (fun g => by cases g)⟩
      obtain ⟨l, f1, f2, f3, f4, f4', f5, f6, f7, f8, f9, f10, f11⟩ := facts
      have hcl : .closeCalled ∈ k.log := by rw [f1]; exact List.mem_append_right _ f2
      have hd : delivered k.log = delivered s.sock.log := by rw [f1, Socket.delivered_append, f3, List.append_nil]
      have hsn : sent k.log = sent s.sock.log := by rw [f1, Socket.sent_append, f4, List.append_nil]
      refine { live := ?_, timeout := f5.trans h.timeout, data := h.data.trans hd.symm, le := h.le, reg := f6.trans h.reg, cb := fun g => ?_, out := f7.trans h.out, done := h.done, cur := h.cur, phase := ⟨p3, Or.inl ⟨hcl, p4⟩⟩, stack := fun _ => Or.inr (Or.inr (Or.inl rfl)), eof1 := fun t ht => ?_, eof2 := fun _ => ⟨t0, ?_⟩, rf := fun _ _ _ _ => rfl }
      · exact ⟨f9.trans hL.ub, f10, fun g => absurd hcl g, fun _ g => f11 g, fun g => (by rw [f1]; exact List.mem_append_left _ (hL.fin (f8.symm.trans g))), fun g => absurd hcl g, by rw [hd, hsn]; exact hL.pre⟩
      · change s.asked = true at g
        rw [hask] at g; cases g
      · refine ⟨?_, Or.inr hcl⟩
        rcases (h.eof1 t0 ht0).1 with g | g
        · left; show _ ∈ k.log; rw [f1]; exact List.mem_append_left _ g
        · right; show size < (sent k.log).length; rw [hsn]; exact g
      · show _ ∈ k.log
        rw [f1]; exact List.mem_append_left _ ht0
  | readable r =>
    unfold step at hs
    dsimp only at hs
    cases hk : Socket.step s.sock (.readable true r) with
    | none => rw [hk] at hs; cases hs
    | some k =>
      rw [hk, Option.bind_some] at hs
      obtain ⟨hinl, hreg⟩ := StreamSocket.sock_readable_reg hk
      have hst := (sock_stack hk).1 (Or.inr (Or.inr (Or.inl ⟨_, _, rfl⟩)))
      obtain ⟨ha1, ha2, ha3⟩ := ha
      by_cases hcl : .closeCalled ∈ s.sock.log
      · -- the socket waits for the peer's end
        have hal : s.sock.alive = true := by
          cases hal : s.sock.alive with
          | true => rfl
          | false => rw [(hL.gone hal).2] at hinl; cases hinl
        obtain ⟨-, hk⟩ := StreamSocket.sock_drain (hL.cls hcl hal) (fun _ _ => hal) hk
        rcases hk with ⟨d, rest, hd, hk⟩ | hk
        · have hans : answer s.sock k = none := by
            rw [StreamSocket.answer_eq (k := k) (l := []) (by rw [hk]; exact (List.append_nil _).symm)]; rfl
          rw [hans] at hs
          cases hs
          subst hk
          refine h.sockOnly [] ?_ (List.append_nil _).symm rfl (fun g => absurd hcl g) rfl rfl rfl (by simp) rfl (by simp) (fun g => Or.inl g)
          exact ⟨hL.ub, hL.gone, fun g => absurd hcl g, hL.cls, hL.fin, fun g => absurd hcl g, hL.pre⟩
        · subst hk
          rw [StreamSocket.answer_eq (l := [.fdClosed, .hook]) rfl] at hs
          dsimp only [List.getLast?] at hs
          cases hs
          exact h.sockOnly [.fdClosed, .hook] (hL.dead hcl) rfl rfl (fun g => absurd hcl g) rfl rfl rfl (by simp) rfl (by simp) (fun g => by cases g)
      · have hph : s.phase = .reading := by
          unfold PhaseOk at hp
          cases hph : s.phase <;> rw [hph] at hp <;> dsimp only at hp
          · rw [hreg] at hp; cases hp.2.1
          · rw [hreg] at hp; cases hp.2.1
          · rw [hreg] at hp; cases hp.2.1
          · rw [hreg] at hp; cases hp.2.1
          · rw [hreg] at hp; cases hp.2.1
          · rcases hp.2 with g | ⟨-, g, -⟩ | ⟨-, g, -⟩
            · exact absurd g.1 hcl
            · rw [hreg] at g; cases g
            · rw [hreg] at g; cases g
        unfold PhaseOk at hp
        rw [hph] at hp
        obtain ⟨p1, p2, p3, ⟨t, p4⟩, p5, p6, p7⟩ := hp
        have hask : s.asked = false := by
          cases hq : s.asked with
          | false => rfl
          | true => rw [(h.cb hq).2] at hph; cases hph
        have hne : ∀ t, .readDone t EOF [] ∉ s.sock.log := fun t ht => by
          rcases (h.eof1 t ht).2 with g | g
          · rw [hph] at g; cases g
          · exact p1 g
        have hflow := hL.flow hcl
        have hgot := StreamSocket.sock_readable p3 (fun _ => ⟨_, p4⟩) hk
        cases hgot with
        | again _ t' n hpn hr =>
          exfalso
          rw [p4] at hpn
          injection hpn with hpn
          injection hpn with _ hn
          cases r with
          | again => exact ha2 rfl
          | error e => cases hr
          | bytes m =>
            unfold Socket.osRead at hr
            dsimp only at hr
            split at hr
            · next g =>
              rcases ha1 with q | q
              · exact q g.2.1
              · rw [g.2.2] at q; cases q
            · cases hr
        | error t' n e hpn =>
          have he := ha3 e rfl
          rw [StreamSocket.answer_eq (l := [.readDone t' e []]) rfl] at hs
          dsimp only [List.getLast?_singleton] at hs
          cases hs
          unfold handleRead
          dsimp only
          rw [if_neg (not_eof_lt he).1, if_pos (not_eof_lt he).2, List.append_nil]
          have hopen : .closeCalled ∉ s.sock.log ++ [.readDone t' e []] := by simp [p1]
          have hd : delivered (s.sock.log ++ [.readDone t' e []]) = delivered s.sock.log := by rw [Socket.delivered_append]; exact List.append_nil _
          refine { live := ?_, timeout := h.timeout, data := h.data.trans hd.symm, le := h.le, reg := h.reg, cb := fun g => ?_, out := h.out, done := h.done, cur := h.cur, phase := ?_, stack := (fun g => by cases g), eof1 := fun u hu => ?_, eof2 := ?_, rf := fun _ _ _ _ => rfl }
          · exact hL.quiet [.readDone t' e []] rfl (by simp) rfl rfl rfl rfl rfl rfl (fun g => absurd g p1) rfl rfl
          · change s.asked = true at g
            rw [hask] at g; cases g
          · exact ⟨p5, Or.inr (Or.inl ⟨hopen, rfl, p6, t', e, he, List.mem_append_right _ List.mem_cons_self⟩)⟩
          · have hu : .readDone u EOF [] ∈ s.sock.log ++ [.readDone t' e []] := hu
            rw [List.mem_append, List.mem_singleton] at hu
            rcases hu with hu | hu
            · exact absurd hu (hne u)
            · injection hu with _ hu
              exact absurd hu.symm (not_eof_lt he).1
          · rintro (g | g)
            · cases g
            · exact absurd g hopen
        | eof t' n m hpn heof =>
          rw [p4] at hpn
          injection hpn with hpn
          injection hpn with _ hn
          rw [StreamSocket.answer_eq (l := [.readDone t' EOF []]) rfl] at hs
          dsimp only [List.getLast?_singleton] at hs
          cases hs
          unfold handleRead
          dsimp only
          rw [if_pos rfl, List.append_nil]
          have hopen : .closeCalled ∉ s.sock.log ++ [.readDone t' EOF []] := by simp [p1]
          have hd : delivered (s.sock.log ++ [.readDone t' EOF []]) = delivered s.sock.log := by rw [Socket.delivered_append]; exact List.append_nil _
          have hsn : sent (s.sock.log ++ [.readDone t' EOF []]) = sent s.sock.log := by rw [Socket.sent_append]; exact List.append_nil _
          refine { live := ?_, timeout := h.timeout, data := h.data.trans hd.symm, le := h.le, reg := h.reg, cb := fun g => ?_, out := h.out, done := h.done, cur := h.cur, phase := ⟨hopen, rfl, p5, p6, p7⟩, stack := (fun g => by cases g), eof1 := fun u hu => ⟨?_, Or.inl rfl⟩, eof2 := fun _ => ⟨t', List.mem_append_right _ List.mem_cons_self⟩, rf := fun u e he hu => ?_ }
          · exact hL.quiet [.readDone t' EOF []] rfl (by simp) rfl rfl rfl rfl rfl rfl (fun g => absurd g p1) rfl rfl
          · change s.asked = true at g
            rw [hask] at g; cases g
          · by_cases hpos : 0 < n
            · exact Or.inl (List.mem_append_left _ (hL.fin (heof hpos).2))
            · rcases ha1 with q | q
              · right
                show size < (sent (s.sock.log ++ [.readDone t' EOF []])).length
                rw [hsn, ← hflow, ← h.data, List.length_append]
                have := List.length_pos_iff.2 q
                omega
              · exact Or.inl (List.mem_append_left _ (hL.fin q))
          · have hu : .readDone u e [] ∈ s.sock.log ++ [.readDone t' EOF []] := hu
            rw [List.mem_append, List.mem_singleton] at hu
            rcases hu with hu | hu
            · have := h.rf u e he hu
              rw [hph] at this; cases this
            · injection hu with _ hu
              exact absurd hu (not_eof_lt he).1
        | data t' n m d rest hpn hd hd1 hd2 =>
          rw [p4] at hpn
          injection hpn with hpn
          injection hpn with _ hn
          rw [StreamSocket.answer_eq (l := [.readDone t' SUCCESS d]) rfl] at hs
          dsimp only [List.getLast?_singleton] at hs
          cases hs
          unfold handleRead
          dsimp only
          rw [if_neg (by decide), if_neg (fun g => g rfl)]
          have hopen : .closeCalled ∉ s.sock.log ++ [.readDone t' SUCCESS d] := by simp [p1]
          have hdl : delivered (s.sock.log ++ [.readDone t' SUCCESS d]) = delivered s.sock.log ++ d := by
            rw [Socket.delivered_append]; show _ ++ (d ++ []) = _; rw [List.append_nil]
          have hsn : sent (s.sock.log ++ [.readDone t' SUCCESS d]) = sent s.sock.log := by rw [Socket.sent_append]; exact List.append_nil _
          have hfl : delivered (s.sock.log ++ [.readDone t' SUCCESS d]) ++ rest = sent (s.sock.log ++ [.readDone t' SUCCESS d]) := by
            rw [hdl, hsn, List.append_assoc, ← hd]; exact hflow
          refine { live := ?_, timeout := h.timeout, data := ?_, le := ?_, reg := h.reg, cb := fun g => ?_, out := h.out, done := h.done, cur := h.cur, phase := ?_, stack := (fun g => by cases g), eof1 := fun u hu => ?_, eof2 := ?_, rf := fun u e he hu => ?_ }
          · exact ⟨hL.ub, hL.gone, fun _ => hL.opn p1, fun g => absurd g hopen, fun g => List.mem_append_left _ (hL.fin g), fun _ => hfl, ⟨rest, hfl⟩⟩
          · show s.data ++ d = _
            rw [hdl, h.data]
          · show (s.data ++ d).length ≤ size
            rw [List.length_append]
            have := h.le
            omega
          · change s.asked = true at g
            rw [hask] at g; cases g
          · refine ⟨hopen, rfl, p5, ?_, ?_⟩
            · show Good s.done ((s.data ++ d).take s.fetch)
              rw [p7, List.take_left]; exact p6
            · show s.fetch ≤ (s.data ++ d).length
              rw [p7, List.length_append]; omega
          · have hu : .readDone u EOF [] ∈ s.sock.log ++ [.readDone t' SUCCESS d] := hu
            rw [List.mem_append, List.mem_singleton] at hu
            rcases hu with hu | hu
            · exact absurd hu (hne u)
            · injection hu with _ hu
              exact absurd hu (by decide)
          · rintro (g | g)
            · cases g
            · exact absurd g hopen
          · have hu : .readDone u e [] ∈ s.sock.log ++ [.readDone t' SUCCESS d] := hu
            rw [List.mem_append, List.mem_singleton] at hu
            rcases hu with hu | hu
            · have := h.rf u e he hu
              rw [hph] at this; cases this
            · injection hu with _ hu
              exact absurd hu (not_eof_lt he).2
  | send r =>
    unfold step at hs
    dsimp only at hs
    cases hcu : s.cur with
    | none => rw [hcu] at hs; cases hs
    | some x =>
      rw [hcu] at hs
      dsimp only at hs
      split at hs
      · cases hs
      · next hg =>
        have hask : s.asked = false := by simpa using hg
        cases hk : Socket.step s.sock (.write x.data r true) with
        | none => rw [hk] at hs; cases hs
        | some k =>
          rw [hk, Option.bind_some] at hs
          have hreg : s.sock.regOut = false := h.reg.trans hask
          obtain ⟨st, hst⟩ := (sock_stack hk).2 (Or.inr (Or.inr (Or.inl ⟨_, _, _, rfl⟩)))
          obtain ⟨-, hsent⟩ := StreamSocket.sock_write hk
          cases hsent with
          | now n m hmle =>
            rw [StreamSocket.answer_eq (l := [.writeStarted s.sock.nextWrite x.data, .writeDone s.sock.nextWrite SUCCESS m]) (by simp)] at hs
            change settle _ x (respOf SUCCESS m) = some s' at hs
            have hro : respOf SUCCESS m = .ok m := by unfold respOf; rw [if_pos rfl]
            rw [hro] at hs
            refine settle_inv (r := .ok m) (l := [.writeStarted s.sock.nextWrite x.data, .writeDone s.sock.nextWrite SUCCESS m]) h hcu ?_ ?_ ?_ ?_ ?_ ?_ ?_ rfl (by simp) rfl (by simp) trivial hs
            · exact hL.quiet [.writeStarted s.sock.nextWrite x.data, .writeDone s.sock.nextWrite SUCCESS m] (List.append_assoc _ _ _) (by simp) rfl rfl rfl rfl rfl rfl (fun _ => rfl) rfl rfl
            · exact List.append_assoc _ _ _
            · rfl
            · rfl
            · exact hreg
            · rfl
            · simp
          | later =>
            rw [StreamSocket.answer_eq (l := [.writeStarted s.sock.nextWrite x.data]) rfl] at hs
            dsimp only [List.getLast?_singleton] at hs
            cases hs
            have hL' := hL.quiet (k := { s.sock with nextWrite := s.sock.nextWrite + 1, writeCb := .write, pendWrite := s.sock.nextWrite, regOut := true, log := s.sock.log ++ [.writeStarted s.sock.nextWrite x.data] }) [.writeStarted s.sock.nextWrite x.data] rfl (by simp) rfl rfl rfl rfl rfl rfl (fun _ => rfl) rfl rfl
            have hph : s.phase = .writing := by
              unfold PhaseOk at hp
              cases hph : s.phase <;> rw [hph] at hp <;> dsimp only at hp
              · rw [hcu] at hp; cases hp.2.2.1
              · rw [hcu] at hp; cases hp.2.2.2.2.1
              · rw [hcu] at hp; cases hp.2.2.1
              · rw [hcu] at hp; cases hp.2.2.1
              · rw [hcu] at hp; cases hp.2.2.1
              · rw [hcu] at hp; cases hp.1
            unfold PhaseOk at hp
            rw [hph] at hp
            obtain ⟨p1, p2, p3, p4, p5, p6⟩ := hp
            have hd : delivered (s.sock.log ++ [.writeStarted s.sock.nextWrite x.data]) = delivered s.sock.log := by rw [Socket.delivered_append]; exact List.append_nil _
            have hopen : .closeCalled ∉ s.sock.log ++ [.writeStarted s.sock.nextWrite x.data] := by simp [p1]
            refine { live := hL', timeout := h.timeout, data := h.data.trans hd.symm, le := h.le, reg := rfl, cb := fun _ => ⟨rfl, hph⟩, out := (by have := h.out; rw [hcu] at this; exact this), done := h.done, cur := fun y hy => h.cur y (hcu.trans hy), phase := ?_, stack := fun _ => Or.inr (Or.inr (Or.inr ⟨hph, rfl⟩)), eof1 := fun t ht => ?_, eof2 := ?_, rf := fun t e he ht => ?_ }
            · unfold PhaseOk
              show match s.phase with | _ => _
              rw [hph]
              obtain ⟨y, py, pc⟩ := p6
              exact ⟨hopen, p2, p3, p4, p5, y, hcu.symm.trans py, pc⟩
            · exfalso
              have ht : .readDone t EOF [] ∈ s.sock.log ++ [.writeStarted s.sock.nextWrite x.data] := ht
              rw [List.mem_append, List.mem_singleton] at ht
              rcases ht with ht | ht
              · rcases (h.eof1 t ht).2 with g | g
                · rw [hph] at g; cases g
                · exact p1 g
              · cases ht
            · rintro (g | g)
              · change s.phase = _ at g
                rw [hph] at g; cases g
              · exact absurd g hopen
            · have ht : .readDone t e [] ∈ s.sock.log ++ [.writeStarted s.sock.nextWrite x.data] := ht
              rw [List.mem_append, List.mem_singleton] at ht
              rcases ht with ht | ht
              · exact h.rf t e he ht
              · cases ht
          | fails e =>
            rw [StreamSocket.answer_eq (l := [.writeRefused s.sock.nextWrite e]) rfl] at hs
            dsimp only [List.getLast?_singleton] at hs
            have he := ha e rfl
            refine settle_inv (l := [.writeRefused s.sock.nextWrite e]) (r := .sync e) h hcu ?_ ?_ ?_ ?_ ?_ ?_ ?_ rfl (by simp) rfl (by simp) (not_eof_lt he).2 hs
            · exact hL.quiet [.writeRefused s.sock.nextWrite e] rfl (by simp) rfl rfl rfl rfl rfl rfl (fun _ => rfl) rfl rfl
            · rfl
            · rfl
            · rfl
            · exact hreg
            · exact (List.append_nil _).symm
            · show s.sock.stack ≠ []
              rw [hst]; simp
  | writable err =>
    unfold step at hs
    dsimp only at hs
    cases hk : Socket.step s.sock (.writable err) with
    | none => rw [hk] at hs; cases hs
    | some k =>
      rw [hk, Option.bind_some] at hs
      obtain ⟨q1, q2, ek⟩ := StreamSocket.sock_writable (fun g => (h.cb (h.reg.symm.trans g)).1) hk
      cases hcu : s.cur with
      | none => rw [hcu] at hs; cases hs
      | some x =>
        subst ek
        rw [hcu, StreamSocket.answer_eq (l := [.writeDone s.sock.pendWrite (err.getD SUCCESS) 0]) rfl] at hs
        dsimp only [List.getLast?_singleton] at hs
        refine settle_inv (l := [.writeDone s.sock.pendWrite (err.getD SUCCESS) 0]) (r := respOf (err.getD SUCCESS) 0) h hcu ?_ ?_ ?_ ?_ ?_ ?_ ?_ rfl (by simp) rfl (by simp) ?_ hs
        · exact hL.quiet [.writeDone s.sock.pendWrite (err.getD SUCCESS) 0] rfl (by simp) rfl rfl rfl rfl rfl rfl (fun _ => rfl) rfl rfl
        · rfl
        · rfl
        · rfl
        · rfl
        · unfold respOf
          by_cases hz : err.getD SUCCESS = SUCCESS
          · rw [if_pos hz]; exact (List.append_nil _).symm
          · rw [if_neg hz]; exact (List.append_nil _).symm
        · simp
        · unfold respOf
          split
          · exact trivial
          · next hne => exact hne

theorem reach_inv {size : Nat} {c : Bool} {s : Sys} (h : Reach size c s) : Inv size c s := by
  induction h with
  | init => exact init_inv size c
  | step h ha hs ih => exact step_inv ih ha hs

end Cio.PlainEcho
