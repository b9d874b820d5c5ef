import Verif.WsTcp.Arrive
/-
C66: whatever has been written can be carried over and read; the application of the other side then has all of it.
-/
namespace Cio.WsTcp
open StreamSocket (Sys Os Write)
open BufferedRead (World)
open WsStream (Env handler shown Stopped jobOf codeOf)
open WsRecv (Seen seen)
open WsRoundTrip (Out1 Sequence NoTextSent delivered wire)
open Socket (St Obs)

section side
variable {quiet : Bool} {e : Env} {c : Bool} {mem : List UInt8} (hmem : 125 ≤ mem.length)

/-- A side that reads, in its application's or the library's hands. -/
structure Reading (quiet : Bool) (e : Env) (c : Bool) (mem bytes : List UInt8) (s : Sys) : Prop where
  end_ : End quiet e c mem s
  busy : s.busy = false
  opened : s.br.closed = false
  fine : s.br.transportErrs = []
  pre : s.br.received <+: bytes

/-- What reading does not change. -/
structure Same (s s' : Sys) : Prop where
  cur : s'.cur = s.cur
  asked : s'.asked = s.asked
  done : s'.done = s.done
  incoming : s'.sock.incoming = s.sock.incoming
  received : s'.br.received = s.br.received

theorem Same.refl (s : Sys) : Same s s := ⟨rfl, rfl, rfl, rfl, rfl⟩
theorem Same.trans {s s1 s2 : Sys} (h : Same s s1) (g : Same s1 s2) : Same s s2 :=
  ⟨g.cur.trans h.cur, g.asked.trans h.asked, g.done.trans h.done, g.incoming.trans h.incoming, g.received.trans h.received⟩
theorem Same.busy {s s' : Sys} (h : Same s s') (hb : s.busy = false) : s'.busy = false := by unfold Sys.busy at hb ⊢; rw [h.cur, h.asked]; exact hb

include hmem in
theorem lift_one {bytes : List UInt8} (hh : Harmless e mem bytes) {s : Sys} (hr : Reading quiet e c mem bytes s) (hu : s.inUser = true) {y : WsStream.Ev} (hy : y = .next ∨ y = .loop SUCCESS)
    {w : World} (hw : WsStream.step e s.br y = some w) : ∃ s', Goes quiet e c s s' ∧ s'.br = w ∧ Same s s' ∧ Reading quiet e c mem bytes s' ∧ s'.inUser = true := by
  have hne : mem ≠ [] := fun g => by rw [g] at hmem; exact absurd hmem (by decide)
  obtain ⟨hreach, xs, hxs, -⟩ := end_reach hmem hr.end_
  have hi := end_inv hmem hr.end_
  obtain ⟨hopen, halive, -⟩ := hi.open_alive hr.opened
  have hub : s.sock.ub = false := (StreamSocket.socket_used_properly hne hreach).2.1
  have hwi := WsStream.reach_inv e hmem hxs
  rcases hy with hy | hy
  · subst hy
    unfold WsStream.step at hw
    dsimp only at hw
    split at hw
    case isFalse => cases hw
    next hg =>
    obtain ⟨u1, u2, u3, u4, u5, u6, u7, u8⟩ := StreamSocket.user_facts (handler e) s.br w _ hw
    have hwc : w.closed = false := by
      have hw' := hw
      unfold BufferedRead.step at hw'
      dsimp only at hw'
      split at hw'
      · cases hw'
      · cases hw'
        show (BufferedRead.read s.br (jobOf (e.sess s.br).rx)).closed = false
        unfold BufferedRead.read
        cases jobOf (e.sess s.br).rx with
        | atLeast n => dsimp only; split <;> exact u2
        | atMost n => exact u2
        | «until» d => exact u2
    obtain ⟨s', hs'⟩ := StreamSocket.follow_possible (s := s) (br := w) (os := fine) hub halive hu (fun g => Or.inl (u3 ▸ g))
    obtain ⟨f1, f2, f3, f4, f5⟩ := follow_keeps (os := fine) rfl hs'
    have hstep : StreamSocket.step (handler e) s (.user (.read (jobOf (e.sess s.br).rx)) fine) = some s' := by
      unfold StreamSocket.step
      dsimp only
      rw [if_neg (by rw [hr.busy, hu]; simp), hw, Option.bind_some]
      exact hs'
    have hsame : Same s s' := ⟨f2, f3, f4, f5, by rw [f1]; exact u4⟩
    have hgo : Goes quiet e c s s' := .step (.refl s) (x := .user (.read (jobOf (e.sess s.br).rx)) fine) rfl ⟨hg.1, hg.2, rfl⟩ rfl hstep (fun g => by rw [f1, hwc] at g; cases g)
    refine ⟨s', hgo, f1, hsame, ⟨hgo.end_ hr.end_, hsame.busy hr.busy, by rw [f1]; exact hwc, by rw [f1, u5]; exact hr.fine, by rw [hsame.received]; exact hr.pre⟩, ?_⟩
    exact StreamSocket.follow_inUser (os := fine) rfl hu hs'
  · subst hy
    have hw0 : BufferedRead.step (handler e) s.br (.loop SUCCESS) = some w := hw
    have hl : s.br.looping = true := by
      unfold BufferedRead.step at hw0
      dsimp only at hw0
      split at hw0
      · assumption
      · cases hw0
    have hwe : w = BufferedRead.loopIter (handler e) s.br SUCCESS := by
      unfold BufferedRead.step at hw0
      dsimp only at hw0
      rw [if_pos hl] at hw0
      cases hw0; rfl
    have hxs' : WsStream.Reach e mem (xs ++ [.loop SUCCESS]) w := run_append xs [.loop SUCCESS] hxs (run_one hw)
    have hm : w.misuse = false := (WsStream.stream_used_properly e mem hmem _ w hxs').1
    obtain ⟨u1, u2, u3, u4, u5, u6, u7, u8⟩ := StreamSocket.loop_facts mem.length (by omega) (handler e) s.br w hi.br hw0 hm
    have hwc : w.closed = false := by
      cases hq : w.closed with
      | false => rfl
      | true =>
        rw [hwe] at hq
        have := loop_closes hwi hl hq
        rw [← hwe] at this
        exact absurd this (hh _ w hxs' (by rw [u3]; exact hr.pre) (by rw [u4]; exact hr.fine))
    obtain ⟨s', hstep⟩ := (StreamSocket.never_stuck hne hreach).2.1 hr.busy hl fine (by rw [← hwe]; exact hm)
    have hs' : StreamSocket.follow s w fine = some s' := by
      unfold StreamSocket.step at hstep
      dsimp only at hstep
      rw [if_neg (by rw [hr.busy, hu]; simp), hw0, Option.bind_some] at hstep
      exact hstep
    obtain ⟨f1, f2, f3, f4, f5⟩ := follow_keeps (os := fine) rfl hs'
    have hsame : Same s s' := ⟨f2, f3, f4, f5, by rw [f1]; exact u3⟩
    have hgo : Goes quiet e c s s' := .step (.refl s) (x := .loop fine) rfl trivial rfl hstep (fun g => by rw [f1, hwc] at g; cases g)
    refine ⟨s', hgo, f1, hsame, ⟨hgo.end_ hr.end_, hsame.busy hr.busy, by rw [f1]; exact hwc, by rw [f1, u4]; exact hr.fine, by rw [hsame.received]; exact hr.pre⟩, ?_⟩
    exact StreamSocket.follow_inUser (os := fine) rfl hu hs'

include hmem in
theorem lift {bytes : List UInt8} (hh : Harmless e mem bytes) (ys : List WsStream.Ev) : ∀ {s : Sys} {w : World}, Reading quiet e c mem bytes s → s.inUser = true →
    (∀ y ∈ ys, y = .next ∨ y = .loop SUCCESS) → WsStream.run e s.br ys = some w →
    ∃ s', Goes quiet e c s s' ∧ s'.br = w ∧ Same s s' ∧ Reading quiet e c mem bytes s' ∧ s'.inUser = true := by
  induction ys with
  | nil =>
    intro s w hr hu _ hw
    cases hw
    exact ⟨s, .refl s, rfl, Same.refl s, hr, hu⟩
  | cons y ys ih =>
    intro s w hr hu hy hw
    simp only [WsStream.run, Option.bind_eq_bind] at hw
    cases h1 : WsStream.step e s.br y with
    | none => rw [h1] at hw; cases hw
    | some w1 =>
      rw [h1, Option.bind_some] at hw
      obtain ⟨s1, a1, a2, a3, a4, a5⟩ := lift_one hmem hh hr hu (hy y List.mem_cons_self) h1
      subst a2
      obtain ⟨s2, b1, b2, b3, b4, b5⟩ := ih a4 a5 (fun z hz => hy z (List.mem_cons_of_mem _ hz)) hw
      exact ⟨s2, a1.trans b1, b2, a3.trans b3, b4, b5⟩

include hmem in
theorem leaves {bytes : List UInt8} : ∀ (k : Nat) {s : Sys}, Reading quiet e c mem bytes s → s.br.looping = false → s.sock.stack.length = k →
    ∃ s', Goes quiet e c s s' ∧ s'.br = s.br ∧ Same s s' ∧ Reading quiet e c mem bytes s' ∧ s'.sock.stack = [] := by
  intro k
  induction k with
  | zero => intro s hr hl hk; exact ⟨s, .refl s, rfl, Same.refl s, hr, List.length_eq_zero_iff.1 hk⟩
  | succ k ih =>
    intro s hr hl hk
    have hne : mem ≠ [] := fun g => by rw [g] at hmem; exact absurd hmem (by decide)
    have hub : s.sock.ub = false := (StreamSocket.socket_used_properly hne (end_reach hmem hr.end_).1).2.1
    cases hst : s.sock.stack with
    | nil => rw [hst] at hk; cases hk
    | cons i st =>
      have hi : i = .user := end_stack hmem hr.end_ i (by rw [hst]; exact List.mem_cons_self)
      subst hi
      have hstep : StreamSocket.step (handler e) s .leave = some { s with sock := { s.sock with stack := st } } := by
        unfold StreamSocket.step
        dsimp only
        rw [if_neg (by rw [hr.busy, hl]; simp)]
        unfold Socket.step
        rw [if_neg (by rw [hub]; simp), hst]
        rfl
      have hgo : Goes quiet e c s { s with sock := { s.sock with stack := st } } := .step (.refl s) (x := .leave) trivial trivial rfl hstep (fun g1 g2 => by
        have g1 : s.br.closed = true := g1
        rw [g2] at g1; cases g1)
      obtain ⟨s', a1, a2, a3, a4, a5⟩ := ih (s := { s with sock := { s.sock with stack := st } }) ⟨hgo.end_ hr.end_, hr.busy, hr.opened, hr.fine, hr.pre⟩ hl (by rw [hst] at hk; exact Nat.succ.inj hk)
      exact ⟨s', hgo.trans a1, a2, ⟨a3.cur, a3.asked, a3.done, a3.incoming, a3.received⟩, a4, a5⟩

include hmem in
/-- The application goes on reading until the WebSocket waits. -/
theorem comes_to_wait {bytes : List UInt8} (hh : Harmless e mem bytes) {s : Sys} (hr : Reading quiet e c mem bytes s) (hu : s.inUser = true) :
    ∃ s', Goes quiet e c s s' ∧ Same s s' ∧ Reading quiet e c mem bytes s' ∧ s'.sock.stack = [] ∧ s'.br.waiting = true := by
  obtain ⟨-, xs, hxs, -⟩ := end_reach hmem hr.end_
  obtain ⟨ys, w, y1, y2, y3, y4⟩ := reads_on e hmem (WsStream.reach_inv e hmem hxs) hr.opened
  obtain ⟨s1, a1, a2, a3, a4, a5⟩ := lift hmem hh ys hr hu y1 y2
  subst a2
  obtain ⟨s2, b1, b2, b3, b4, b5⟩ := leaves hmem _ a4 y3 rfl
  refine ⟨s2, a1.trans b1, a3.trans b3, b4, b5, ?_⟩
  rw [b2]
  rcases y4 with g | g | g
  · exact g
  · obtain ⟨-, zs, hzs, -⟩ := end_reach hmem a4.end_
    exact absurd g (hh zs _ hzs a4.pre a4.fine)
  · rw [a4.opened] at g; cases g

end side

section quiet
variable {e : Env} {c : Bool} {mem : List UInt8} (hmem : 125 ≤ mem.length)

include hmem in
theorem opened_split {quiet : Bool} {s : Sys} (h : End quiet e c mem s) (hcl : s.br.closed = false) : s.br.received ++ s.sock.incoming = Socket.sent s.sock.log := by
  have hi := end_inv hmem h
  rw [hi.received]
  exact (Socket.reach_inv (StreamSocket.sockReach hi.sock)).2.2.1.open_ (hi.open_alive hcl).1

include hmem in
/-- The event loop reports data; the WebSocket takes (some of) it. -/
theorem takes {bytes : List UInt8} {s : Sys} (hr : Reading true e c mem bytes s) (hst : s.sock.stack = []) (hw : s.br.waiting = true)
    (hall : Socket.sent s.sock.log <+: bytes) (hin : s.sock.incoming ≠ []) :
    ∃ s', Goes true e c s s' ∧ Reading true e c mem bytes s' ∧ s'.inUser = true ∧ s'.cur = s.cur ∧ s'.asked = s.asked ∧ s'.done = s.done ∧ s'.sock.incoming.length < s.sock.incoming.length ∧
      Socket.sent s'.sock.log = Socket.sent s.sock.log := by
  have hne : mem ≠ [] := fun g => by rw [g] at hmem; exact absurd hmem (by decide)
  obtain ⟨hreach, -⟩ := end_reach hmem hr.end_
  have hi := end_inv hmem hr.end_
  obtain ⟨s', d, hs, hd, -, hrec, hl⟩ := StreamSocket.waiting_read_gets_data_partial hne hreach hw hr.opened hst hin 1
  have hrd := (Socket.reach_inv (StreamSocket.sockReach hi.sock)).2.2.1
  have hal : StreamSocket.Allowed true s (.readable (.bytes 1)) := by
    refine ⟨fun e g => (nomatch g), fun _ t n hp => ?_⟩
    obtain ⟨p1, p2, p3, p4⟩ := hrd.pend t n hp
    unfold Socket.osRead
    dsimp only
    rw [if_neg (fun g => hin g.2.1)]
    intro g; cases g
  have hbr : s'.br.closed = false ∧ s'.br.transportErrs = [] := by
    cases saw hi hal hs with
    | user a os hx hb he => cases hx
    | loop os hx hb he => cases hx
    | sent d hx hb he ho => cases hx
    | fin hx hb he ho => cases hx
    | rest hb he hx ho =>
      rw [hb] at hrec
      have := congrArg List.length hrec
      rw [List.length_append] at this
      have : 0 < d.length := List.length_pos_iff.2 hd
      omega
    | data d' hb he hx =>
      unfold BufferedRead.step at hb
      dsimp only at hb
      split at hb
      · injection hb with hb; rw [← hb]; exact ⟨hr.opened, hr.fine⟩
      · cases hb
    | fail err hb he hx =>
      unfold BufferedRead.step at hb
      dsimp only at hb
      split at hb
      · injection hb with hb
        rw [← hb] at hrec
        have := congrArg List.length hrec
        rw [List.length_append] at this
        have : 0 < d.length := List.length_pos_iff.2 hd
        dsimp only at *
        omega
      · cases hb
  have hkeep : s'.cur = s.cur ∧ s'.asked = s.asked ∧ s'.done = s.done := by
    unfold StreamSocket.step at hs
    dsimp only at hs
    cases hk : Socket.step s.sock (.readable true (.bytes 1)) with
    | none => rw [hk] at hs; cases hs
    | some k =>
      rw [hk, Option.bind_some] at hs
      split at hs
      · next t err d' hans =>
        cases hb : BufferedRead.step (handler e) s.br (if err = SUCCESS then .deliver d' else .fail err) with
        | none => rw [hb] at hs; cases hs
        | some br => rw [hb] at hs; cases hs; exact ⟨rfl, rfl, rfl⟩
      · cases hs; exact ⟨rfl, rfl, rfl⟩
  have hgo : Goes true e c s s' := .step (.refl s) (x := .readable (.bytes 1)) hal trivial rfl hs (fun g => by rw [hbr.1] at g; cases g)
  have hsent : Socket.sent s'.sock.log = Socket.sent s.sock.log := ((net_effect hi hal hs).2.1 rfl).1
  have he' := hgo.end_ hr.end_
  have hbusy : s'.busy = false := by have := hr.busy; unfold Sys.busy at this ⊢; rw [hkeep.1, hkeep.2.1]; exact this
  have sp := opened_split hmem hr.end_ hr.opened
  have sp' := opened_split hmem he' hbr.1
  refine ⟨s', hgo, ⟨he', hbusy, hbr.1, hbr.2, ?_⟩, ?_, hkeep.1, hkeep.2.1, hkeep.2.2, ?_, hsent⟩
  · refine List.IsPrefix.trans ⟨_, sp'⟩ ?_
    rw [hsent]; exact hall
  · exact StreamSocket.active_in_user hne (end_reach hmem he').1 (Or.inr hl)
  · have := congrArg List.length sp
    have h2 := congrArg List.length sp'
    rw [hsent, ← this, hrec] at h2
    simp only [List.length_append] at h2
    have : 0 < d.length := List.length_pos_iff.2 hd
    omega

theorem Goes.sent {quiet : Bool} (hmem : 125 ≤ mem.length) {s s' : Sys} (h : Goes quiet e c s s') (g : End quiet e c mem s) : Socket.sent s'.sock.log = Socket.sent s.sock.log := by
  induction h with
  | refl => rfl
  | step h ha hp hn hs hc ih => rw [((net_effect (end_inv hmem (h.end_ g)) ha hs).2.1 hn).1, ih]

include hmem in
/-- One side reads everything that has arrived. -/
theorem end_drains {bytes : List UInt8} (hh : Harmless e mem bytes) : ∀ (k : Nat) {s : Sys}, s.sock.incoming.length < k → Reading true e c mem bytes s → s.sock.stack = [] →
    s.br.waiting = true → Socket.sent s.sock.log <+: bytes →
    ∃ s', Goes true e c s s' ∧ Reading true e c mem bytes s' ∧ s'.sock.stack = [] ∧ s'.br.waiting = true ∧ s'.sock.incoming = [] ∧ s'.cur = s.cur ∧ s'.done = s.done := by
  intro k
  induction k with
  | zero => intro s hk; omega
  | succ k ih =>
    intro s hk hr hst hw hall
    by_cases hin : s.sock.incoming = []
    · exact ⟨s, .refl s, hr, hst, hw, hin, rfl, rfl⟩
    · obtain ⟨s1, a1, a2, a3, a4, a5, a6, a7, a8⟩ := takes hmem hr hst hw hall hin
      obtain ⟨s2, b1, b2, b3, b4, b5⟩ := comes_to_wait hmem hh a2 a3
      obtain ⟨s3, c1, c2, c3, c4, c5, c6, c7⟩ := ih (s := s2) (by rw [b2.incoming]; omega) b3 b4 b5 (by rw [b1.sent hmem a2.end_, a8]; exact hall)
      exact ⟨s3, (a1.trans b1).trans c1, c2, c3, c4, c5, (c6.trans b2.cur).trans a4, (c7.trans b2.done).trans a6⟩

end quiet

/-! ### Both sides -/

/-- From one state of the network to another one, only the network carrying bytes of side `i` and the other side doing something: side `i` does nothing. -/
inductive Leads (quiet : Bool) (E : Bool → Env) (c : Bool → Bool) (i : Bool) : Net → Net → Prop
  | refl (n : Net) : Leads quiet E c i n n
  | step {n n1 n2 : Net} {x : Ev} (h : Leads quiet E c i n n1) (hx : (∃ k, x = .carry i k) ∨ ∃ y, x = .app (!i) y) (ha : Allowed quiet E c n1 x) (hs : step E n1 x = some n2) :
    Leads quiet E c i n n2

variable {E : Bool → Env} {c : Bool → Bool} {mem : Bool → List UInt8}

theorem Leads.trans {quiet : Bool} {i : Bool} {n n1 n2 : Net} (h : Leads quiet E c i n n1) (g : Leads quiet E c i n1 n2) : Leads quiet E c i n n2 := by
  induction g with
  | refl => exact h
  | step g hx ha hs ih => exact .step ih hx ha hs

theorem Leads.reach {quiet : Bool} {i : Bool} {n n1 : Net} (h : Leads quiet E c i n n1) (g : Reach quiet E c mem n) : Reach quiet E c mem n1 := by
  induction h with
  | refl => exact g
  | step h hx ha hs ih => exact .step ih ha hs

theorem Leads.other {quiet : Bool} {i : Bool} {n n1 : Net} (h : Leads quiet E c i n n1) : n1.sys i = n.sys i := by
  have hne : i ≠ !i := by cases i <;> decide
  induction h with
  | refl => rfl
  | step h hx ha hs ih =>
    refine Eq.trans ?_ ih
    rcases hx with ⟨k, rfl⟩ | ⟨y, rfl⟩ <;> unfold WsTcp.step at hs <;> dsimp only at hs
    · rw [Option.map_eq_some_iff] at hs
      obtain ⟨s, -, rfl⟩ := hs
      exact set_other _ hne _
    · split at hs
      · cases hs
      · rw [Option.map_eq_some_iff] at hs
        obtain ⟨s, -, rfl⟩ := hs
        exact set_other _ hne _

theorem leads_goes {quiet : Bool} {i : Bool} {n : Net} {s s' : Sys} (hg : Goes quiet (E !i) (c !i) s s') (hsys : n.sys (!i) = s) :
    Leads quiet E c i n { n with sys := set n.sys (!i) s' } := by
  induction hg with
  | refl =>
    have : ({ n with sys := set n.sys (!i) s } : Net) = n := by
      have : set n.sys (!i) s = n.sys := by
        funext j
        by_cases hj : j = !i
        · subst hj; rw [set_same, hsys]
        · rw [set_other _ hj]
      rw [this]
    rw [this]; exact .refl n
  | @step s1 s2 x hg ha hp hn hs hc ih =>
    refine .step ih (x := .app (!i) x) (.inr ⟨x, rfl⟩) ?_ ?_
    · unfold Allowed
      dsimp only
      rw [set_same]
      exact ⟨ha, hp, fun s' hs' => by rw [hs] at hs'; cases hs'; exact hc⟩
    · unfold step
      dsimp only
      rw [if_neg (by rw [hn]; simp), set_same, hs]
      simp only [Option.map_some, Option.some.injEq, Net.mk.injEq, and_true]
      funext j
      by_cases hj : j = !i
      · subst hj; rw [set_same, set_same]
      · rw [set_other _ hj, set_other _ hj, set_other _ hj]

/-- What is on its way can arrive. -/
theorem all_carried (hmem : ∀ i, 125 ≤ (mem i).length) {quiet : Bool} {n : Net} (h : Reach quiet E c mem n) (i : Bool) :
    ∃ n1, Leads quiet E c i n n1 ∧ n1.flying i = [] ∧ (n1.sys !i).br = (n.sys !i).br ∧ (n1.sys !i).cur = (n.sys !i).cur ∧ (n1.sys !i).asked = (n.sys !i).asked ∧
      (n1.sys !i).sock.stack = (n.sys !i).sock.stack := by
  have hn := reach_net hmem h
  by_cases hf : n.flying i = []
  · exact ⟨n, .refl n, hf, rfl, rfl, rfl, rfl⟩
  have hi := end_inv (hmem !i) (hn.ends !i)
  have hub : (n.sys !i).sock.ub = false := (both_sides_safe hmem h (!i)).2.2.2.2.1
  have hend : (n.sys !i).sock.incomingEnd = false := by
    cases q : (n.sys !i).sock.incomingEnd with
    | false => rfl
    | true =>
      obtain ⟨-, g⟩ := hn.fin i ((Socket.reach_inv (StreamSocket.sockReach hi.sock)).2.2.1.fin.1 q)
      refine absurd ?_ hf
      unfold Net.flying
      rw [g, List.drop_length]
  have htake : (n.flying i).take (n.flying i).length = n.flying i := List.take_length
  have hs : StreamSocket.step (handler (E !i)) (n.sys !i) (.peerSends (n.flying i)) =
      some { n.sys !i with sock := { (n.sys !i).sock with incoming := (n.sys !i).sock.incoming ++ n.flying i, log := (n.sys !i).sock.log ++ [.peerSent (n.flying i)] } } := by
    unfold StreamSocket.step
    dsimp only
    unfold Socket.step
    rw [if_neg (by rw [hub]; simp)]
    dsimp only
    rw [if_neg (by rw [hend]; simp)]
    rfl
  refine ⟨_, .step (.refl n) (x := .carry i (n.flying i).length) (.inl ⟨_, rfl⟩) trivial (n2 := { sys := set n.sys (!i) _, carried := set n.carried i (n.carried i + (n.flying i).length) }) (by
    unfold step
    dsimp only
    rw [htake, hs]
    rfl), ?_⟩
  have hne : i ≠ !i := by cases i <;> decide
  unfold Net.flying
  dsimp only
  rw [set_same, set_same, set_other _ hne]
  refine ⟨?_, rfl, rfl, rfl, rfl⟩
  refine List.drop_eq_nil_of_le ?_
  rw [List.length_drop]
  omega

/-- The bytes of legal frames without text do not make a WebSocket stop. -/
theorem harmless_of_legal (o : Endian.Order) (fromServer : Bool) (rng : Random.Rng) (cs : List Out1) (hok : ∀ c ∈ cs, c.Ok fromServer)
    (hs : Sequence none (cs.map Out1.frame)) (hb : NoTextSent none (cs.map Out1.frame)) {bytes : List UInt8} (hw : wire o fromServer rng cs = some bytes) {e : Env}
    (he : e.server = !fromServer) {mem : List UInt8} (hmem : 125 ≤ mem.length) : Harmless e mem bytes := by
  obtain ⟨bytes', h1, h2⟩ := WsStream.binary_sent_is_seen o fromServer rng cs hok hs hb
  rw [hw] at h1
  injection h1 with h1
  subst h1
  intro xs w hx hp ht hst
  obtain ⟨⟨part, p1, p2⟩, -⟩ := h2 e mem xs w he hmem hx (by rw [(WsStream.reach_inv e hmem hx).good.got]; exact hp)
  obtain ⟨x, x1, x2⟩ := stopped_shown e w hst
  have hx' := final_seen x1 x2
  rcases p2 with g | ⟨err, g, -⟩
  · rw [g] at hx'
    rw [delivered_not_final none _ x (p1.subset hx')] at x2
    cases x2
  · rw [ht] at g; cases g

/-- C66, nothing gets stuck (partial as `binary_messages_arrive_partial`): at any moment at which one side has written its frames, and the other one has neither closed its stream nor had an error
of the transport and is not just about to send something, the network and the other side can go on by themselves, with no further step of the side that has written, until the application of the
other side has seen everything.  This holds also if a write of the other side cannot go on (its buffers are full because the first side does not read).  It takes an operating system that does not
report sockets as readable that are not (`quiet`), and no failing system calls. -/
theorem everything_can_arrive_partial (o : Endian.Order) (fromServer : Bool) (rng : Random.Rng) (cs : List Out1) (hok : ∀ c ∈ cs, c.Ok fromServer)
    (hs : Sequence none (cs.map Out1.frame)) (hb : NoTextSent none (cs.map Out1.frame)) :
    ∃ bytes, wire o fromServer rng cs = some bytes ∧
      ∀ (E : Bool → Env) (c : Bool → Bool) (mem : Bool → List UInt8) (n : Net) (i : Bool), (∀ i, 125 ≤ (mem i).length) → Reach true E c mem n →
        (E !i).server = !fromServer → AllWritten (n.sys i) bytes → (n.sys !i).br.closed = false → (n.sys !i).br.transportErrs = [] → (n.sys !i).busy = false →
        ∃ n', Leads true E c i n n' ∧ (n'.sys !i).br.closed = false ∧ (n'.sys !i).br.transportErrs = [] ∧ (n'.sys !i).br.waiting = true ∧
          seen (shown (E !i) (n'.sys !i).br) = delivered none (cs.map Out1.frame) := by
  obtain ⟨bytes, h1, h2⟩ := binary_messages_arrive_partial o fromServer rng cs hok hs hb
  refine ⟨bytes, h1, fun E c mem n i hmem h hserver hall hcl hte hbusy => ?_⟩
  have hh : Harmless (E !i) (mem !i) bytes := harmless_of_legal o fromServer rng cs hok hs hb h1 hserver (hmem !i)
  obtain ⟨n1, l1, f1, b1, b2, b3, b4⟩ := all_carried hmem h i
  have r1 := l1.reach h
  have hn1 := reach_net hmem r1
  have hall1 : AllWritten (n1.sys i) bytes := by rw [l1.other]; exact hall
  have hout := (outgoing_of_writes hmem r1 i (bytes := bytes)).2 hall1
  have rd1 : Reading true (E !i) (c !i) (mem !i) bytes (n1.sys !i) := by
    refine ⟨hn1.ends _, ?_, by rw [b1]; exact hcl, by rw [b1]; exact hte, ?_⟩
    · unfold Sys.busy at hbusy ⊢; rw [b2, b3]; exact hbusy
    · rw [← hout]; exact (received_is_sent hmem r1 i).1
  have hsent : Socket.sent (n1.sys !i).sock.log = bytes := by
    rw [hn1.arrived i, ← hout, List.take_of_length_le]
    have h0 := congrArg List.length f1
    unfold Net.flying at h0
    rw [List.length_drop, List.length_nil] at h0
    omega
  -- into the hands of the application
  obtain ⟨s2, g2, rd2, u2⟩ : ∃ s2, Goes true (E !i) (c !i) (n1.sys !i) s2 ∧ Reading true (E !i) (c !i) (mem !i) bytes s2 ∧ s2.inUser = true := by
    cases hst : (n1.sys !i).sock.stack with
    | cons a st =>
      refine ⟨_, .refl _, rd1, ?_⟩
      have : a = .user := end_stack (hmem !i) (hn1.ends _) a (by rw [hst]; exact List.mem_cons_self)
      subst this
      unfold Sys.inUser; rw [hst]
    | nil =>
      have hub : (n1.sys !i).sock.ub = false := (both_sides_safe hmem r1 (!i)).2.2.2.2.1
      have hstep : StreamSocket.step (handler (E !i)) (n1.sys !i) .enter = some { n1.sys !i with sock := { (n1.sys !i).sock with stack := [.user] } } := by
        unfold StreamSocket.step
        dsimp only
        unfold Socket.step
        rw [if_neg (by rw [hub]; simp), hst]
        rfl
      have hgo : Goes true (E !i) (c !i) (n1.sys !i) { n1.sys !i with sock := { (n1.sys !i).sock with stack := [.user] } } :=
        .step (.refl _) (x := .enter) trivial trivial rfl hstep (fun g1 g2 => by
          have g1 : (n1.sys !i).br.closed = true := g1
          rw [g2] at g1; cases g1)
      exact ⟨_, hgo, ⟨hgo.end_ (hn1.ends _), rd1.busy, rd1.opened, rd1.fine, rd1.pre⟩, rfl⟩
  obtain ⟨s3, g3, -, rd3, st3, w3⟩ := comes_to_wait (hmem !i) hh rd2 u2
  have hsent3 : Socket.sent s3.sock.log = bytes := by rw [g3.sent (hmem !i) rd2.end_, g2.sent (hmem !i) (hn1.ends _), hsent]
  obtain ⟨s4, g4, rd4, st4, w4, in4, -, -⟩ := end_drains (hmem !i) hh _ (Nat.lt_succ_self _) rd3 st3 w3 (by rw [hsent3])
  have hgo : Goes true (E !i) (c !i) (n1.sys !i) s4 := (g2.trans g3).trans g4
  have l4 := leads_goes (n := n1) hgo rfl
  refine ⟨_, l1.trans l4, ?_⟩
  have r4 := (l1.trans l4).reach h
  have hne : i ≠ !i := by cases i <;> decide
  have e4 : (({ n1 with sys := set n1.sys (!i) s4 } : Net).sys !i) = s4 := set_same _ _ _
  have ei : (({ n1 with sys := set n1.sys (!i) s4 } : Net).sys i) = n1.sys i := set_other _ hne _
  obtain ⟨-, k⟩ := h2 true E c mem _ i hmem r4 hserver (by rw [ei]; exact hall1.asked)
  rw [e4] at k ⊢
  refine ⟨rd4.opened, rd4.fine, w4, k (by rw [ei]; exact hall1) ?_ in4 w4 rd4.opened⟩
  unfold Net.flying
  rw [ei]
  exact f1

end Cio.WsTcp
