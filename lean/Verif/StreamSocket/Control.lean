import Verif.StreamSocket.Progress
/-
Control stays with the application until it returns.
-/
namespace Cio.StreamSocket
open BufferedRead (UAct Handler World Call)
open BufferedWrite (Elem Resp flat)
open Socket (St Obs)

/-- What the application does, or what makes the library call it. -/
def Ev.active : Ev → Bool
  | .user _ _ | .loop _ | .send _ | .writable _ => true
  | _ => false

/-- Only by returning does the application give back control. -/
theorem inUser_step {quiet : Bool} {H : Handler} {c : Bool} {mem : List UInt8} (hmem : mem ≠ []) {s s' : Sys} {e : Ev} (h : Reach quiet H c mem s) (hal : Allowed quiet s e)
    (hs : step H s e = some s') (hne : e ≠ .leave) (hact : e.active = false → s.inUser = true) : s'.inUser = true := by
  have i := reach_inv hmem h
  obtain ⟨hb, -, -, -⟩ := Socket.reach_inv (sockReach i.sock)
  have same : ∀ k : St, s' = { s with sock := k } → k.stack = s.sock.stack → (e.active = true → False) → s'.inUser = true := by
    intro k e1 e2 e3
    subst e1
    obtain ⟨st, hst⟩ := Sys.inUser_stack (hact (by cases ha : e.active with | false => rfl | true => exact absurd ha e3))
    exact Sys.inUser_of (st := st) (e2.trans hst)
  have push : ∀ st, s'.sock.stack = .user :: st → s'.inUser = true := fun st g => Sys.inUser_of g
  unfold step at hs
  cases e with
  | peerSends d =>
    dsimp only at hs
    cases hk : Socket.step s.sock (.peerSends d) with
    | none => rw [hk] at hs; cases hs
    | some k =>
      rw [hk] at hs; injection hs with hs
      refine same k hs.symm ?_ nofun
      obtain ⟨-, ek⟩ := sock_peer hk
      rw [ek]
  | peerCloses =>
    dsimp only at hs
    cases hk : Socket.step s.sock .peerCloses with
    | none => rw [hk] at hs; cases hs
    | some k =>
      rw [hk] at hs; injection hs with hs
      refine same k hs.symm ?_ nofun
      rw [sock_fin hk]
  | enter =>
    dsimp only at hs
    cases hk : Socket.step s.sock .enter with
    | none => rw [hk] at hs; cases hs
    | some k =>
      rw [hk] at hs; cases hs
      exact push [] (by show k.stack = _; rw [sock_enter hk])
  | leave => exact absurd rfl hne
  | timeout =>
    dsimp only at hs
    cases hk : Socket.step s.sock .timeout with
    | none => rw [hk] at hs; cases hs
    | some k =>
      rw [hk] at hs; cases hs
      obtain ⟨-, ek⟩ := sock_timeout (fun g => by
        cases hal : s.sock.alive with
        | true => rfl
        | false => rw [(hb.dead hal).2.1] at g; cases g) hk
      exact push s.sock.stack (by show k.stack = _; rw [ek]; rfl)
  | user a os =>
    dsimp only at hs
    split at hs
    · cases hs
    · next hg =>
      simp only [Bool.or_eq_true, Bool.not_eq_true', not_or, Bool.not_eq_true, Bool.not_eq_false] at hg
      cases hb : BufferedRead.step H s.br (.user a) with
      | none => rw [hb] at hs; cases hs
      | some br => rw [hb, Option.bind_some] at hs; exact follow_inUser hal hg.2 hs
  | loop os =>
    dsimp only at hs
    split at hs
    · cases hs
    · next hg =>
      simp only [Bool.or_eq_true, Bool.not_eq_true', not_or, Bool.not_eq_true, Bool.not_eq_false] at hg
      cases hb : BufferedRead.step H s.br (.loop SUCCESS) with
      | none => rw [hb] at hs; cases hs
      | some br => rw [hb, Option.bind_some] at hs; exact follow_inUser hal hg.2 hs
  | readable r =>
    dsimp only at hs
    cases hk : Socket.step s.sock (.readable true r) with
    | none => rw [hk] at hs; cases hs
    | some k =>
      rw [hk, Option.bind_some] at hs
      have hst := (sock_stack hk).1 (Or.inr (Or.inr (Or.inl ⟨_, _, rfl⟩)))
      by_cases hkst : ∃ st, k.stack = .user :: st
      · obtain ⟨st, hkst⟩ := hkst
        have hsk : s'.sock = k := by
          split at hs
          · cases hbr : BufferedRead.step H s.br _ with
            | none => rw [hbr] at hs; cases hs
            | some br => rw [hbr] at hs; cases hs; rfl
          · cases hs; rfl
        exact push st (by rw [hsk]; exact hkst)
      · by_cases hcl : s.br.closed = true
        · have hlive : s.sock.inLoop = true → s.sock.alive = true := by
            intro g
            cases hal : s.sock.alive with
            | true => rfl
            | false => rw [(hb.dead hal).1] at g; cases g
          obtain ⟨q1, q2⟩ := sock_readable_reg hk
          have hcb : s.sock.readCb = .drain := (hb.drain (hlive q1)).1 (i.closed.1 hcl)
          obtain ⟨-, hd⟩ := sock_drain hcb (fun _ g => hlive g) hk
          rcases hd with ⟨d, rest, hin, ek⟩ | ek
          · have hans : answer s.sock k = none := by rw [answer_eq (l := []) (by rw [ek]; simp)]; rfl
            rw [hans] at hs
            injection hs with hs
            exact same k hs.symm (by rw [ek]) nofun
          · exact absurd ⟨s.sock.stack, by rw [ek]; rfl⟩ hkst
        · obtain ⟨hgot, -⟩ := open_readable i (by simpa using hcl) hk
          cases hgot with
          | again t n hp hr =>
            have hans : answer s.sock { s.sock with regIn := false } = none := by rw [answer_eq (l := []) (by simp)]; rfl
            rw [hans] at hs
            injection hs with hs
            exact same _ hs.symm rfl nofun
          | error t n e hp => exact absurd ⟨_, rfl⟩ hkst
          | eof t n m hp he => exact absurd ⟨_, rfl⟩ hkst
          | data t n m d rest hp hd h1 h2 => exact absurd ⟨_, rfl⟩ hkst
  | write chain =>
    dsimp only at hs
    split at hs
    · cases hs
    · next hg =>
      simp only [Bool.or_eq_true, Bool.not_eq_true', not_or, Bool.not_eq_true, Bool.not_eq_false] at hg
      cases hs
      obtain ⟨st, hst⟩ := Sys.inUser_stack hg.1.2
      exact push st hst
  | send r =>
    dsimp only at hs
    cases hcu : s.cur with
    | none => rw [hcu] at hs; cases hs
    | some x =>
      rw [hcu] at hs
      dsimp only at hs
      split at hs
      · cases hs
      · cases hk : Socket.step s.sock (.write x.data r true) with
        | none => rw [hk] at hs; cases hs
        | some k =>
          rw [hk, Option.bind_some] at hs
          obtain ⟨st, hst⟩ := (sock_stack hk).2 (Or.inr (Or.inr (Or.inl ⟨_, _, _, rfl⟩)))
          have hks : ∃ st, k.stack = .user :: st := by
            obtain ⟨-, hsent⟩ := sock_write hk
            cases hsent with
            | now n m hmle => exact ⟨_, rfl⟩
            | later => exact ⟨st, hst⟩
            | fails e => exact ⟨st, hst⟩
          obtain ⟨st', hks⟩ := hks
          have hsk : s'.sock = k := by
            split at hs
            · exact (settle_sock hs).1
            · cases hs; rfl
            · exact (settle_sock hs).1
            · cases hs
          exact push st' (by rw [hsk]; exact hks)
  | writable err =>
    dsimp only at hs
    cases hk : Socket.step s.sock (.writable err) with
    | none => rw [hk] at hs; cases hs
    | some k =>
      rw [hk, Option.bind_some] at hs
      obtain ⟨-, -, ek⟩ := sock_writable (fun g => i.cb (i.reg.symm.trans g)) hk
      have hsk : s'.sock = k := by
        split at hs
        · exact (settle_sock hs).1
        · cases hs
      exact push s.sock.stack (by rw [hsk, ek])

end Cio.StreamSocket
