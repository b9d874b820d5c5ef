import Verif.StreamSocket.Props
/-
Nothing gets stuck: whatever the operating system answers, the library goes on.
-/
namespace Cio.StreamSocket
open BufferedRead (UAct Handler World Call)
open BufferedWrite (Elem Resp flat)
open Socket (St Obs)

theorem Sys.inUser_of {s : Sys} {st : List Socket.Item} (h : s.sock.stack = .user :: st) : s.inUser = true := by
  unfold Sys.inUser; rw [h]

theorem Sys.inUser_stack {s : Sys} (h : s.inUser = true) : ∃ st, s.sock.stack = .user :: st := by
  unfold Sys.inUser at h
  split at h
  · next st hst => exact ⟨st, hst⟩
  · cases h

theorem Sys.not_inUser {s : Sys} (h : s.sock.stack = []) : s.inUser = false := by
  unfold Sys.inUser; rw [h]

theorem follow_inUser {s s' : Sys} {br : World} {os : Os} (hos : os.soon = false) (hu : s.inUser = true) (hf : follow s br os = some s') : s'.inUser = true := by
  obtain ⟨st, hst⟩ := Sys.inUser_stack hu
  unfold follow at hf
  cases ha : asks s br with
  | none => rw [ha] at hf; cases hf
  | some k =>
    rw [ha, Option.bind_some] at hf
    have hk : k.stack = .user :: st := by
      unfold asks at ha
      split at ha
      · obtain ⟨-, e⟩ := sock_read ha
        rw [e]; exact hst
      · cases ha; exact hst
    cases hc : closes s br os k with
    | none => rw [hc] at hf; cases hf
    | some k2 =>
      rw [hc] at hf
      cases hf
      unfold closes at hc
      split at hc
      · rw [hos] at hc
        obtain ⟨-, e⟩ := sock_close hc
        rcases e with ⟨-, e⟩ | ⟨cb, e⟩
        · exact Sys.inUser_of (st := st) (by show k2.stack = _; rw [e]; exact hk)
        · exact Sys.inUser_of (st := k.stack) (by show k2.stack = _; rw [e]; rfl)
      · cases hc; exact Sys.inUser_of (st := st) hk

theorem settle_sock {s s' : Sys} {x : Write} {r : Resp} (h : settle s x r = some s') : s'.sock = s.sock ∧ s'.br = s.br := by
  unfold settle at h
  cases hw : BufferedWrite.respond x.world r with
  | none => rw [hw] at h; cases h
  | some w =>
    rw [hw] at h
    simp only [Option.map_some, Option.some.injEq] at h
    split at h <;> subst h <;> exact ⟨rfl, rfl⟩

/-- While `run_read` or a write has something to do, user code (or a callback) is on the stack. -/
theorem active_in_user {quiet : Bool} {H : Handler} {c : Bool} {mem : List UInt8} (hmem : mem ≠ []) {s : Sys} (h : Reach quiet H c mem s)
    (ha : s.busy = true ∨ s.br.looping = true) : s.inUser = true := by
  induction h with
  | init => rcases ha with g | g <;> cases g
  | @step s s' e h hal hs hm hc ih =>
    have i := reach_inv hmem h
    obtain ⟨hb, -, -, -⟩ := Socket.reach_inv (sockReach i.sock)
    have same : ∀ k : St, s' = { s with sock := k } → k.stack = s.sock.stack → s'.inUser = true := by
      intro k e1 e2
      subst e1
      have g := ih ha
      obtain ⟨st, hst⟩ := Sys.inUser_stack g
      exact Sys.inUser_of (st := st) (e2.trans hst)
    have push : ∀ st, s'.sock.stack = .user :: st → s'.inUser = true := fun st g => Sys.inUser_of g
    unfold step at hs
    cases e with
    | peerSends d =>
      dsimp only at hs
      cases hk : Socket.step s.sock (.peerSends d) with
      | none => rw [hk] at hs; cases hs
      | some k =>
        rw [hk] at hs; injection hs with hs
        refine same k hs.symm ?_
        obtain ⟨-, ek⟩ := sock_peer hk
        rw [ek]
    | peerCloses =>
      dsimp only at hs
      cases hk : Socket.step s.sock .peerCloses with
      | none => rw [hk] at hs; cases hs
      | some k =>
        rw [hk] at hs; injection hs with hs
        refine same k hs.symm ?_
        rw [sock_fin hk]
    | enter =>
      dsimp only at hs
      cases hk : Socket.step s.sock .enter with
      | none => rw [hk] at hs; cases hs
      | some k =>
        rw [hk] at hs; cases hs
        exact push [] (by show k.stack = _; rw [sock_enter hk])
    | leave =>
      dsimp only at hs
      split at hs
      · cases hs
      · next hg =>
        simp only [Bool.or_eq_true, not_or, Bool.not_eq_true] at hg
        cases hk : Socket.step s.sock .leave with
        | none => rw [hk] at hs; cases hs
        | some k =>
          rw [hk] at hs; cases hs
          rcases ha with g | g
          · have g : s.busy = true := g
            rw [hg.1] at g; cases g
          · have g : s.br.looping = true := g
            rw [hg.2] at g; cases g
    | timeout =>
      dsimp only at hs
      cases hk : Socket.step s.sock .timeout with
      | none => rw [hk] at hs; cases hs
      | some k =>
        rw [hk] at hs; cases hs
        obtain ⟨-, ek⟩ := sock_timeout (fun g => by
          cases hal : s.sock.alive with
          | true => rfl
          | false => rw [(hb.dead hal).2.1] at g; cases g) hk
        exact push s.sock.stack (by show k.stack = _; rw [ek]; rfl)
    | user a os =>
      dsimp only at hs
      split at hs
      · cases hs
      · next hg =>
        simp only [Bool.or_eq_true, Bool.not_eq_true', not_or, Bool.not_eq_true, Bool.not_eq_false] at hg
        cases hb : BufferedRead.step H s.br (.user a) with
        | none => rw [hb] at hs; cases hs
        | some br => rw [hb, Option.bind_some] at hs; exact follow_inUser hal hg.2 hs
    | loop os =>
      dsimp only at hs
      split at hs
      · cases hs
      · next hg =>
        simp only [Bool.or_eq_true, Bool.not_eq_true', not_or, Bool.not_eq_true, Bool.not_eq_false] at hg
        cases hb : BufferedRead.step H s.br (.loop SUCCESS) with
        | none => rw [hb] at hs; cases hs
        | some br => rw [hb, Option.bind_some] at hs; exact follow_inUser hal hg.2 hs
    | readable r =>
      dsimp only at hs
      cases hk : Socket.step s.sock (.readable true r) with
      | none => rw [hk] at hs; cases hs
      | some k =>
        rw [hk, Option.bind_some] at hs
        have hst := (sock_stack hk).1 (Or.inr (Or.inr (Or.inl ⟨_, _, rfl⟩)))
        by_cases hkst : ∃ st, k.stack = .user :: st
        · obtain ⟨st, hkst⟩ := hkst
          have hsk : s'.sock = k := by
            split at hs
            · cases hbr : BufferedRead.step H s.br _ with
              | none => rw [hbr] at hs; cases hs
              | some br => rw [hbr] at hs; cases hs; rfl
            · cases hs; rfl
          exact push st (by rw [hsk]; exact hkst)
        · by_cases hcl : s.br.closed = true
          · have hlive : s.sock.inLoop = true → s.sock.alive = true := by
              intro g
              cases hal : s.sock.alive with
              | true => rfl
              | false => rw [(hb.dead hal).1] at g; cases g
            obtain ⟨q1, q2⟩ := sock_readable_reg hk
            have hcb : s.sock.readCb = .drain := (hb.drain (hlive q1)).1 (i.closed.1 hcl)
            obtain ⟨-, hd⟩ := sock_drain hcb (fun _ g => hlive g) hk
            rcases hd with ⟨d, rest, hin, ek⟩ | ek
            · have hans : answer s.sock k = none := by rw [answer_eq (l := []) (by rw [ek]; simp)]; rfl
              rw [hans] at hs
              injection hs with hs
              exact same k hs.symm (by rw [ek])
            · exact absurd ⟨s.sock.stack, by rw [ek]; rfl⟩ hkst
          · obtain ⟨hgot, -⟩ := open_readable i (by simpa using hcl) hk
            cases hgot with
            | again t n hp hr =>
              have hans : answer s.sock { s.sock with regIn := false } = none := by rw [answer_eq (l := []) (by simp)]; rfl
              rw [hans] at hs
              injection hs with hs
              exact same _ hs.symm rfl
            | error t n e hp => exact absurd ⟨_, rfl⟩ hkst
            | eof t n m hp he => exact absurd ⟨_, rfl⟩ hkst
            | data t n m d rest hp hd h1 h2 => exact absurd ⟨_, rfl⟩ hkst
    | write chain =>
      dsimp only at hs
      split at hs
      · cases hs
      · next hg =>
        simp only [Bool.or_eq_true, Bool.not_eq_true', not_or, Bool.not_eq_true, Bool.not_eq_false] at hg
        cases hs
        obtain ⟨st, hst⟩ := Sys.inUser_stack hg.1.2
        exact push st hst
    | send r =>
      dsimp only at hs
      cases hcu : s.cur with
      | none => rw [hcu] at hs; cases hs
      | some x =>
        rw [hcu] at hs
        dsimp only at hs
        split at hs
        · cases hs
        · cases hk : Socket.step s.sock (.write x.data r true) with
          | none => rw [hk] at hs; cases hs
          | some k =>
            rw [hk, Option.bind_some] at hs
            obtain ⟨st, hst⟩ := (sock_stack hk).2 (Or.inr (Or.inr (Or.inl ⟨_, _, _, rfl⟩)))
            have hks : ∃ st, k.stack = .user :: st := by
              obtain ⟨-, hsent⟩ := sock_write hk
              cases hsent with
              | now n m hmle => exact ⟨_, rfl⟩
              | later => exact ⟨st, hst⟩
              | fails e => exact ⟨st, hst⟩
            obtain ⟨st', hks⟩ := hks
            have hsk : s'.sock = k := by
              split at hs
              · exact (settle_sock hs).1
              · cases hs; rfl
              · exact (settle_sock hs).1
              · cases hs
            exact push st' (by rw [hsk]; exact hks)
    | writable err =>
      dsimp only at hs
      cases hk : Socket.step s.sock (.writable err) with
      | none => rw [hk] at hs; cases hs
      | some k =>
        rw [hk, Option.bind_some] at hs
        obtain ⟨-, -, ek⟩ := sock_writable (fun g => i.cb (i.reg.symm.trans g)) hk
        have hsk : s'.sock = k := by
          split at hs
          · exact (settle_sock hs).1
          · cases hs
        exact push s.sock.stack (by rw [hsk, ek])

theorem settle_possible {s : Sys} {x : Write} (hph : x.world.phase ≠ .idle) {r : Resp} (hn : ∀ n, r = .ok n → n ≤ x.data.length) : ∃ s', settle s x r = some s' := by
  obtain ⟨w, hw⟩ := respond_possible hph hn
  unfold settle
  rw [hw]
  exact ⟨_, rfl⟩

theorem respOf_ok {e : Err} {n m : Nat} (h : respOf e n = .ok m) : m = n := by
  unfold respOf at h
  split at h
  · cases h; rfl
  · cases h

theorem follow_possible {s : Sys} {br : World} {os : Os} (hub : s.sock.ub = false) (ha : s.sock.alive = true) (hu : s.inUser = true)
    (hone : br.waiting = true → s.br.waiting = true ∨ br.closed = false) : ∃ s', follow s br os = some s' := by
  obtain ⟨st, hst⟩ := Sys.inUser_stack hu
  unfold follow
  by_cases hw : br.waiting = true ∧ s.br.waiting = false
  · obtain ⟨k, hk⟩ := sock_read_possible hub hst ha br.rb.spaceAvailable
    have e1 : asks s br = some k := by unfold asks; rw [if_pos hw]; exact hk
    have hc : br.closed = false := by
      rcases hone hw.1 with g | g
      · rw [hw.2] at g; cases g
      · exact g
    have e2 : closes s br os k = some k := by unfold closes; rw [if_neg (by rw [hc]; simp)]
    rw [e1, Option.bind_some, e2]
    exact ⟨_, rfl⟩
  · have e1 : asks s br = some s.sock := by unfold asks; rw [if_neg hw]
    rw [e1, Option.bind_some]
    by_cases hc : br.closed = true ∧ s.br.closed = false
    · obtain ⟨k, hk⟩ := sock_close_possible hub hst ha os.shutOk os.armOk os.soon os.regOk
      have e2 : closes s br os s.sock = some k := by unfold closes; rw [if_pos hc]; exact hk
      rw [e2]
      exact ⟨_, rfl⟩
    · have e2 : closes s br os s.sock = some s.sock := by unfold closes; rw [if_neg hc]
      rw [e2]
      exact ⟨_, rfl⟩

/-- C65: nothing gets stuck.  Whatever `sendmsg` answers, a write goes on; `run_read` goes on, whatever closing leads to; and when the event loop
calls back, the stream can handle it. -/
theorem never_stuck {quiet : Bool} {H : Handler} {c : Bool} {mem : List UInt8} (hmem : mem ≠ []) {s : Sys} (h : Reach quiet H c mem s) :
    (s.busy = true → ∀ r, ∃ s', step H s (.send r) = some s') ∧
      (s.busy = false → s.br.looping = true → ∀ os, (BufferedRead.loopIter H s.br SUCCESS).misuse = false → ∃ s', step H s (.loop os) = some s') ∧
      (∀ r, (∀ e, r = .error e → e < 0) → ∀ k, Socket.step s.sock (.readable true r) = some k → ∃ s', step H s (.readable r) = some s') ∧
      (∀ e k, Socket.step s.sock (.writable e) = some k → ∃ s', step H s (.writable e) = some s') := by
  have i := reach_inv hmem h
  obtain ⟨hb, -, -, -⟩ := Socket.reach_inv (sockReach i.sock)
  refine ⟨fun hbusy r => ?_, fun hbusy hl os hmis => ?_, fun r hr k hk => ?_, fun e k hk => ?_⟩
  · have hu := active_in_user hmem h (Or.inl hbusy)
    obtain ⟨st, hst⟩ := Sys.inUser_stack hu
    unfold Sys.busy at hbusy
    simp only [Bool.and_eq_true, Bool.not_eq_true'] at hbusy
    obtain ⟨b1, b2⟩ := hbusy
    cases hcu : s.cur with
    | none => rw [hcu] at b1; cases b1
    | some x =>
      have hcl : s.br.closed = false := by
        cases hq : s.br.closed with
        | false => rfl
        | true =>
          rcases i.closedCur hq with g | ⟨g, -⟩
          · rw [hcu] at g; cases g
          · rw [b2] at g; cases g
      obtain ⟨hopen, halive, hloop⟩ := i.open_alive hcl
      obtain ⟨-, hph⟩ := i.cur x hcu
      obtain ⟨k, hk⟩ := sock_write_possible hb.ub hst halive x.data r
      unfold step
      dsimp only
      rw [hcu]
      dsimp only
      rw [if_neg (by rw [b2]; simp), hk, Option.bind_some]
      obtain ⟨-, hsent⟩ := sock_write hk
      cases hsent with
      | now n m hmle =>
        rw [answer_eq (l := [.writeStarted s.sock.nextWrite x.data, .writeDone s.sock.nextWrite SUCCESS m]) (by simp)]
        exact settle_possible hph (fun q hq => by rw [respOf_ok hq]; exact hmle)
      | later =>
        rw [answer_eq (l := [.writeStarted s.sock.nextWrite x.data]) rfl]
        exact ⟨_, rfl⟩
      | fails e =>
        rw [answer_eq (l := [.writeRefused s.sock.nextWrite e]) rfl]
        exact settle_possible hph (fun q hq => nomatch hq)
  · have hu := active_in_user hmem h (Or.inr hl)
    have hcl := i.loopOpen hl
    obtain ⟨hopen, halive, hloop⟩ := i.open_alive hcl
    have hbr : BufferedRead.step H s.br (.loop SUCCESS) = some (BufferedRead.loopIter H s.br SUCCESS) := by
      unfold BufferedRead.step
      dsimp only
      rw [if_pos hl]
    unfold step
    dsimp only
    rw [if_neg (by rw [hbusy, hu]; simp), hbr, Option.bind_some]
    refine follow_possible hb.ub halive hu (fun g => Or.inr ?_)
    obtain ⟨-, -, -, -, -, f6, -⟩ := loop_facts mem.length (List.length_pos_iff.2 hmem) H s.br _ i.br hbr hmis
    exact (f6 g).1.trans hcl
  · unfold step
    dsimp only
    rw [hk, Option.bind_some]
    by_cases hcl : s.br.closed = true
    · have hlive : s.sock.inLoop = true → s.sock.alive = true := by
        intro g
        cases hal : s.sock.alive with
        | true => rfl
        | false => rw [(hb.dead hal).1] at g; cases g
      obtain ⟨q1, q2⟩ := sock_readable_reg hk
      have hcb : s.sock.readCb = .drain := (hb.drain (hlive q1)).1 (i.closed.1 hcl)
      obtain ⟨-, hd⟩ := sock_drain hcb (fun _ g => hlive g) hk
      rcases hd with ⟨d, rest, hin, ek⟩ | ek
      · have hans : answer s.sock k = none := by rw [answer_eq (l := []) (by rw [ek]; simp)]; rfl
        rw [hans]
        exact ⟨_, rfl⟩
      · have hans : answer s.sock k = some .hook := by rw [answer_eq (l := [.fdClosed, .hook]) (by rw [ek]; rfl)]; rfl
        rw [hans]
        exact ⟨_, rfl⟩
    · have hcl : s.br.closed = false := by simpa using hcl
      obtain ⟨hgot, hw, hlp, t0, hp0, hsp⟩ := open_readable i hcl hk
      have hfail : ∀ e, e ≠ SUCCESS → ∃ br, BufferedRead.step H s.br (.fail e) = some br := by
        intro e he
        unfold BufferedRead.step
        dsimp only
        rw [hw, hlp, hcl, decide_eq_true he]
        exact ⟨_, rfl⟩
      cases hgot with
      | again t n hp hr =>
        have hans : answer s.sock { s.sock with regIn := false } = none := by rw [answer_eq (l := []) (by simp)]; rfl
        rw [hans]
        exact ⟨_, rfl⟩
      | error t n e hp =>
        rw [answer_eq (l := [.readDone t e []]) rfl]
        dsimp only [List.getLast?_singleton]
        have he : e ≠ SUCCESS := fun g => by
          have := hr e rfl
          rw [g] at this; exact absurd this (by decide)
        rw [if_neg he]
        obtain ⟨br, hbr⟩ := hfail e he
        rw [hbr]
        exact ⟨_, rfl⟩
      | eof t n m hp he =>
        rw [answer_eq (l := [.readDone t EOF []]) rfl]
        dsimp only [List.getLast?_singleton]
        have he : EOF ≠ SUCCESS := by decide
        rw [if_neg he]
        obtain ⟨br, hbr⟩ := hfail EOF he
        rw [hbr]
        exact ⟨_, rfl⟩
      | data t n m d rest hp hd h1 h2 =>
        rw [answer_eq (l := [.readDone t SUCCESS d]) rfl]
        dsimp only [List.getLast?_singleton]
        rw [if_pos rfl]
        rw [hp0] at hp
        injection hp with hp
        injection hp with _ hp
        subst hp
        have hbr : ∃ br, BufferedRead.step H s.br (.deliver d) = some br := by
          unfold BufferedRead.step
          dsimp only
          rw [hw, hlp, hcl, decide_eq_true h2]
          exact ⟨_, rfl⟩
        obtain ⟨br, hbr⟩ := hbr
        rw [hbr]
        exact ⟨_, rfl⟩
  · obtain ⟨q1, q2, ek⟩ := sock_writable (fun g => i.cb (i.reg.symm.trans g)) hk
    have hask : s.asked = true := i.reg.symm.trans q2
    unfold step
    dsimp only
    rw [hk, Option.bind_some]
    cases hcu : s.cur with
    | none =>
      have := i.asked hask
      rw [hcu] at this; cases this
    | some x =>
      obtain ⟨-, hph⟩ := i.cur x hcu
      subst ek
      rw [answer_eq (l := [.writeDone s.sock.pendWrite (e.getD SUCCESS) 0]) rfl]
      exact settle_possible hph (fun q hq => by rw [respOf_ok hq]; exact Nat.zero_le _)

/-- C65, partial: without spurious wake-ups, a read that waits while the stream is open gets what arrives: when bytes are there and the event loop says so, the stream
gets at least one of them, and `run_read` goes on.  Missing: spurious wake-ups (`Socket.pending_read_lost`). -/
theorem waiting_read_gets_data_partial {H : Handler} {c : Bool} {mem : List UInt8} (hmem : mem ≠ []) {s : Sys} (h : Reach true H c mem s)
    (hw : s.br.waiting = true) (hcl : s.br.closed = false) (hst : s.sock.stack = []) (hin : s.sock.incoming ≠ []) (n : Nat) :
    ∃ s' d, step H s (.readable (.bytes n)) = some s' ∧ d ≠ [] ∧ d <+: s.sock.incoming ∧ s'.br.received = s.br.received ++ d ∧ s'.br.looping = true := by
  have i := reach_inv hmem h
  obtain ⟨hopen, -, -⟩ := i.open_alive hcl
  obtain ⟨t, ht⟩ := i.wait hcl hw
  have hrd := (Socket.reach_inv (sockReach i.sock)).2.2.1
  obtain ⟨p1, p2, p3, p4⟩ := hrd.pend t _ ht
  have hns : Socket.Reach Socket.NoSpurious c s.sock := i.sock
  obtain ⟨-, -, hgo⟩ := Socket.read_not_forgotten_partial hns p3 p2 hopen
  obtain ⟨k, d, hk, hd, hpre, hlog⟩ := hgo hst hin n
  obtain ⟨s', hs'⟩ := (never_stuck hmem h).2.2.1 (.bytes n) (fun e g => nomatch g) k hk
  refine ⟨s', d, hs', hd, hpre, ?_⟩
  unfold step at hs'
  dsimp only at hs'
  rw [hk, Option.bind_some, answer_eq hlog] at hs'
  dsimp only [List.getLast?_singleton] at hs'
  rw [if_pos rfl] at hs'
  cases hbr : BufferedRead.step H s.br (.deliver d) with
  | none => rw [hbr] at hs'; cases hs'
  | some br =>
    rw [hbr] at hs'
    cases hs'
    unfold BufferedRead.step at hbr
    dsimp only at hbr
    split at hbr
    · cases hbr; exact ⟨rfl, rfl⟩
    · cases hbr

/-- C65, partial: a read of the application that was not answered waits for the socket whenever the library has returned to the event loop.
Missing: handlers that read again when they are told of an error (`BufferedRead.pending_read_may_be_forgotten`). -/
theorem pending_read_waits_partial {quiet : Bool} {H : Handler} (hH : BufferedRead.QuietOnError H) {c : Bool} {mem : List UInt8} (hmem : mem ≠ []) {s : Sys} (h : Reach quiet H c mem s)
    (hj : s.br.job.isSome = true) (hcl : s.br.closed = false) (hst : s.sock.stack = []) : s.br.waiting = true := by
  have i := reach_inv hmem h
  have hu := BufferedRead.pending_read_under_way_partial H hH mem s.br hmem i.brReach (reach_misuse h)
  have hl : s.br.looping = false := by
    cases hl : s.br.looping with
    | false => rfl
    | true =>
      have := active_in_user hmem h (Or.inr hl)
      rw [Sys.not_inUser hst] at this; cases this
  cases hw : s.br.waiting with
  | true => rfl
  | false =>
    have := hu hl hcl (fun g => by rw [g] at hj; cases hj)
    rw [hw] at this; cases this

/-- C65: a write that is not over waits for the socket whenever the library has returned to the event loop; as soon as the socket is writable, it goes on. -/
theorem pending_write_waits {quiet : Bool} {H : Handler} {c : Bool} {mem : List UInt8} (hmem : mem ≠ []) {s : Sys} (h : Reach quiet H c mem s)
    (hc : s.cur.isSome = true) (hcl : s.br.closed = false) (hst : s.sock.stack = []) : s.asked = true ∧ ∃ s', step H s (.writable none) = some s' := by
  have i := reach_inv hmem h
  have ha : s.asked = true := by
    cases ha : s.asked with
    | true => rfl
    | false =>
      have hb : s.busy = true := by unfold Sys.busy; rw [hc, ha]; rfl
      have := active_in_user hmem h (Or.inl hb)
      rw [Sys.not_inUser hst] at this; cases this
  refine ⟨ha, ?_⟩
  obtain ⟨-, -, hloop⟩ := i.open_alive hcl
  obtain ⟨hb, -, -, -⟩ := Socket.reach_inv (sockReach i.sock)
  have hk : ∃ k, Socket.step s.sock (.writable none) = some k := by
    unfold Socket.step
    rw [if_neg (by rw [hb.ub]; simp), hst]
    dsimp only
    rw [if_pos (by rw [hloop, i.reg.trans ha]; rfl)]
    exact ⟨_, rfl⟩
  obtain ⟨k, hk⟩ := hk
  exact (never_stuck hmem h).2.2.2 none k hk

end Cio.StreamSocket
