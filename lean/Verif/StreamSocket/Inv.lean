import Verif.StreamSocket.SockLemmas
/-
The invariant of a buffered stream on a Linux socket, and its preservation.
-/
namespace Cio.StreamSocket
open BufferedRead (UAct Handler World)
open BufferedWrite (Elem Resp flat)
open Socket (St Obs)

/-! ### Rules of use -/

/-- What is assumed of the operating system and the application at a step.  Operating system: errors are `-errno`, the close timer does not expire at the
moment it is armed, and (only if `quiet`) no spurious wake-ups.  Application: it does not put the stream's own element into a chain. -/
def Allowed (quiet : Bool) (s : Sys) : Ev → Prop
  | .user _ os => os.soon = false
  | .loop os => os.soon = false
  | .readable r => (∀ e, r = .error e → e < 0) ∧ (quiet = true → ∀ t n, s.sock.pendRead = some (t, n) → Socket.osRead s.sock n r ≠ .again)
  | .write chain => ∀ e ∈ chain, e.addr ≠ BufferedWrite.temp
  | .send r => ∀ e, r = .error e → e < 0
  | _ => True

/-- The executions.  The application consumes only what it was given and has one read at a time (`misuse`); it does not close a lingering
stream while a write is under way. -/
inductive Reach (quiet : Bool) (H : Handler) (closeTimeout : Bool) (mem : List UInt8) : Sys → Prop
  | init : Reach quiet H closeTimeout mem (initial closeTimeout mem)
  | step {s s' : Sys} {e : Ev} (h : Reach quiet H closeTimeout mem s) (ha : Allowed quiet s e) (hs : step H s e = some s')
    (hm : s'.br.misuse = false) (hc : s'.br.closed = true → s.br.closed = false → s'.cur = none ∨ closeTimeout = false) :
    Reach quiet H closeTimeout mem s'

/-- The rules of the socket. -/
def SockRules (quiet : Bool) (s : St) (m : Socket.Move) : Prop := if quiet then Socket.NoSpurious s m else Socket.Rules s m

theorem SockRules.rules {quiet : Bool} {s : St} {m : Socket.Move} (h : SockRules quiet s m) : Socket.Rules s m := by
  unfold SockRules at h
  split at h
  · exact h.1
  · exact h

theorem SockRules.other {quiet : Bool} {s : St} {m : Socket.Move} (h : Socket.Rules s m) (hn : ∀ u r, m ≠ .readable u r) : SockRules quiet s m := by
  unfold SockRules
  split
  · exact ⟨h, fun u r e => absurd e (hn u r)⟩
  · exact h

/-- The bytes that have been put on the wire by these writes. -/
def wires (l : List Write) : List UInt8 := l.flatMap fun x => x.world.wire

def optWire : Option Write → List UInt8
  | none => []
  | some x => x.world.wire

/-- A write is what its answers made of it. -/
def Write.Ok (x : Write) : Prop :=
  BufferedWrite.run (BufferedWrite.write x.chain) x.answers = some x.world ∧ (∀ r ∈ x.answers, BufferedWrite.Proper r) ∧ ∀ e ∈ x.chain, e.addr ≠ BufferedWrite.temp

structure Inv (quiet : Bool) (H : Handler) (c : Bool) (mem : List UInt8) (s : Sys) : Prop where
  sock : Socket.Reach (SockRules quiet) c s.sock
  br : BufferedRead.Inv mem.length s.br
  brReach : BufferedRead.Reach H mem s.br
  timeout : s.sock.closeTimeout = c
  closed : s.br.closed = true ↔ .closeCalled ∈ s.sock.log
  loopOpen : s.br.looping = true → s.br.closed = false
  wait : s.br.closed = false → s.br.waiting = true → ∃ t, s.sock.pendRead = some (t, s.br.rb.spaceAvailable)
  idle : s.br.closed = false → s.br.waiting = false → s.sock.pendRead = none
  received : s.br.received = Socket.delivered s.sock.log
  asked : s.asked = true → s.cur.isSome = true
  reg : s.sock.regOut = s.asked
  cb : s.asked = true → s.sock.writeCb = .write
  closedCur : s.br.closed = true → s.cur = none ∨ (s.asked = true ∧ s.sock.inLoop = false)
  out : s.sock.outgoing = wires s.done ++ optWire s.cur
  done : ∀ x ∈ s.done, x.Ok ∧ x.world.phase = .idle
  cur : ∀ x, s.cur = some x → x.Ok ∧ x.world.phase ≠ .idle
  errs : ∀ e ∈ s.br.transportErrs, ∃ t, .readDone t e [] ∈ s.sock.log
  eof : EOF ∈ s.br.transportErrs → s.sock.incomingEnd = true ∧ s.br.received = Socket.sent s.sock.log
  eofCalls : ∀ x ∈ s.br.calls, x.err = EOF → .peerClosed ∈ s.sock.log ∧ x.received = Socket.sent s.sock.log

theorem sockReach {quiet c : Bool} {k : St} (h : Socket.Reach (SockRules quiet) c k) : Socket.Reach Socket.Rules c k :=
  Socket.reach_mono (fun _ _ h => h.rules) h

theorem init_inv (quiet : Bool) (H : Handler) (c : Bool) (mem : List UInt8) : Inv quiet H c mem (initial c mem) := by
  refine { sock := .init, br := BufferedRead.init_inv mem, brReach := ⟨[], rfl⟩, timeout := rfl, closed := ?_, loopOpen := ?_, wait := ?_, idle := ?_, received := rfl, asked := ?_, reg := rfl, cb := ?_, closedCur := ?_, out := rfl, done := ?_, cur := ?_, errs := ?_, eof := ?_, eofCalls := ?_ }
  · constructor
    · intro h; cases h
    · intro h; cases h
  · intro h; cases h
  · intro _ h; cases h
  · intro _ _; rfl
  · intro h; cases h
  · intro h; cases h
  · intro h; cases h
  · intro x h; cases h
  · intro x h; cases h
  · intro x h; cases h
  · intro h; cases h
  · intro x h; cases h

/-- Nothing but the socket moves, and it does nothing that concerns the stream. -/
theorem Inv.sockOnly {quiet : Bool} {H : Handler} {c : Bool} {mem : List UInt8} {s : Sys} (h : Inv quiet H c mem s) {k : St} (l : List Obs)
    (hk : Socket.Reach (SockRules quiet) c k) (e1 : k.log = s.sock.log ++ l) (e2 : k.closeTimeout = s.sock.closeTimeout)
    (e3 : k.pendRead = s.sock.pendRead ∨ s.br.closed = true) (e4 : k.regOut = s.sock.regOut) (e5 : k.writeCb = s.sock.writeCb) (e6 : k.outgoing = s.sock.outgoing)
    (e7 : s.sock.inLoop = false → k.inLoop = false) (e8 : s.sock.incomingEnd = true → k.incomingEnd = true ∧ Socket.sent l = [])
    (l1 : .closeCalled ∉ l) (l2 : Socket.delivered l = []) : Inv quiet H c mem { s with sock := k } := by
  refine { sock := hk, br := h.br, brReach := h.brReach, timeout := e2.trans h.timeout, closed := ?_, loopOpen := h.loopOpen, wait := ?_, idle := ?_, received := ?_, asked := h.asked, reg := e4.trans h.reg, cb := fun ha => e5.trans (h.cb ha), closedCur := ?_, out := e6.trans h.out, done := h.done, cur := h.cur, errs := ?_, eof := ?_, eofCalls := ?_ }
  · show s.br.closed = true ↔ .closeCalled ∈ k.log
    rw [h.closed, e1, List.mem_append]
    exact ⟨Or.inl, fun h => h.elim id fun h => absurd h l1⟩
  · intro hc hw
    obtain ⟨t, ht⟩ := h.wait hc hw
    rcases e3 with e3 | e3
    · exact ⟨t, e3.trans ht⟩
    · have hc : s.br.closed = false := hc
      rw [e3] at hc; cases hc
  · intro hc hw
    rcases e3 with e3 | e3
    · exact e3.trans (h.idle hc hw)
    · have hc : s.br.closed = false := hc
      rw [e3] at hc; cases hc
  · show s.br.received = Socket.delivered k.log
    rw [e1, Socket.delivered_append, l2, List.append_nil]; exact h.received
  · intro hc
    rcases h.closedCur hc with g | ⟨g1, g2⟩
    · exact Or.inl g
    · exact Or.inr ⟨g1, e7 g2⟩
  · intro e he
    obtain ⟨t, ht⟩ := h.errs e he
    exact ⟨t, by show _ ∈ k.log; rw [e1]; exact List.mem_append_left _ ht⟩
  · intro he
    obtain ⟨g1, g2⟩ := h.eof he
    refine ⟨(e8 g1).1, ?_⟩
    show s.br.received = Socket.sent k.log
    rw [e1, Socket.sent_append, (e8 g1).2, List.append_nil]; exact g2
  · intro x hx he
    obtain ⟨g1, g2⟩ := h.eofCalls x hx he
    have hin : s.sock.incomingEnd = true := (Socket.reach_inv (sockReach h.sock)).2.2.1.fin.2 g1
    refine ⟨by show _ ∈ k.log; rw [e1]; exact List.mem_append_left _ g1, ?_⟩
    show x.received = Socket.sent k.log
    rw [e1, Socket.sent_append, (e8 hin).2, List.append_nil]; exact g2

theorem Inv.open_alive {quiet : Bool} {H : Handler} {c : Bool} {mem : List UInt8} {s : Sys} (h : Inv quiet H c mem s) (hc : s.br.closed = false) :
    .closeCalled ∉ s.sock.log ∧ s.sock.alive = true ∧ s.sock.inLoop = true := by
  have hn : .closeCalled ∉ s.sock.log := fun hm => by
    have := h.closed.2 hm
    rw [hc] at this; cases this
  obtain ⟨hb, -, -, -⟩ := Socket.reach_inv (sockReach h.sock)
  have ha : s.sock.alive = true := by
    cases ha : s.sock.alive with
    | true => rfl
    | false => exact absurd (hb.dead ha).2.2 hn
  exact ⟨hn, ha, hb.live ha⟩

/-- No read of the socket is under way unless the stream waits for one. -/
theorem Inv.readsDone {quiet : Bool} {H : Handler} {c : Bool} {mem : List UInt8} {s : Sys} (h : Inv quiet H c mem s) (hc : s.br.closed = false)
    (hw : s.br.waiting = false) : Socket.ReadsDone s.sock.log := by
  intro t ht
  obtain ⟨-, -, hr, -⟩ := Socket.reach_inv (sockReach h.sock)
  rcases hr.start t ht with g | ⟨n, g⟩
  · exact g
  · rw [h.idle hc hw] at g; cases g

theorem Inv.writesDone {quiet : Bool} {H : Handler} {c : Bool} {mem : List UInt8} {s : Sys} (h : Inv quiet H c mem s) (ha : s.asked = false) :
    Socket.WritesDone s.sock.log ∧ Socket.connects s.sock.log = 0 := by
  obtain ⟨-, -, -, hw⟩ := Socket.reach_inv (sockReach h.sock)
  have hr : s.sock.regOut = false := h.reg.trans ha
  refine ⟨fun t d ht => ?_, ?_⟩
  · rcases hw.start t d ht with g | ⟨g, -⟩
    · exact g
    · rw [hr] at g; cases g
  · rw [hw.conn, if_neg (by rw [hr]; simp)]

/-! ### The application's calls and `run_read` -/

/-- What the socket does with what the stream asks of it. -/
theorem follow_inv {quiet : Bool} {H : Handler} {c : Bool} {mem : List UInt8} {s s' : Sys} (h : Inv quiet H c mem s) {br : World} {os : Os}
    (hbr : BufferedRead.Inv mem.length br) (hre : BufferedRead.Reach H mem br) (hos : os.soon = false) (hbusy : s.busy = false) (hcl : s.br.closed = false)
    (hf : follow s br os = some s')
    (hrec : br.received = s.br.received) (herr : br.transportErrs = s.br.transportErrs)
    (hw : br.waiting = true → s.br.waiting = true ∧ br.rb.spaceAvailable = s.br.rb.spaceAvailable ∨ s.br.waiting = false ∧ br.closed = false)
    (hw' : br.waiting = false → s.br.waiting = false)
    (hl : br.looping = true → br.closed = false)
    (hcalls : ∀ x ∈ br.calls, x ∈ s.br.calls ∨ (x.received = br.received ∧ (x.err = EOF → EOF ∈ br.transportErrs)))
    (hcc : br.closed = true → s'.cur = none ∨ c = false) : Inv quiet H c mem s' := by
  obtain ⟨hopen, halive, hloop⟩ := h.open_alive hcl
  obtain ⟨hb, -, hrd, -⟩ := Socket.reach_inv (sockReach h.sock)
  unfold follow at hf
  -- the calls known so far
  have hcalls' : ∀ x ∈ br.calls, x.err = EOF → .peerClosed ∈ s.sock.log ∧ x.received = Socket.sent s.sock.log := by
    intro x hx he
    rcases hcalls x hx with g | ⟨g1, g2⟩
    · exact h.eofCalls x g he
    · have ge := h.eof (herr ▸ g2 he)
      exact ⟨hrd.fin.1 ge.1, g1.trans (hrec.trans ge.2)⟩
  by_cases hnew : br.waiting = true ∧ s.br.waiting = false
  · -- `read_some`
    obtain ⟨n1, n2⟩ := hnew
    have hbc : br.closed = false := by
      rcases hw n1 with ⟨g, -⟩ | ⟨-, g⟩
      · rw [n2] at g; cases g
      · exact g
    have c1 : ¬ (br.closed = true ∧ s.br.closed = false) := fun g => by rw [hbc] at g; cases g.1
    unfold asks closes at hf
    rw [if_pos ⟨n1, n2⟩] at hf
    cases hk : Socket.step s.sock (.read br.rb.spaceAvailable true) with
    | none => rw [hk] at hf; cases hf
    | some k =>
      rw [hk, Option.bind_some, if_neg c1] at hf
      cases hf
      have hsp := (hbr.wait n1).2.1
      obtain ⟨-, ek⟩ := sock_read hk
      have hreach : Socket.Reach (SockRules quiet) c k :=
        .step h.sock (SockRules.other (m := .read br.rb.spaceAvailable true) ⟨hopen, h.readsDone hcl n2, hsp, rfl⟩ (fun u r e => nomatch e)) hk
      subst ek
      refine { sock := hreach, br := hbr, brReach := hre, timeout := h.timeout, closed := ?_, loopOpen := hl, wait := fun _ _ => ⟨_, rfl⟩, idle := fun _ g => ?_, received := ?_, asked := h.asked, reg := h.reg, cb := h.cb, closedCur := ?_, out := h.out, done := h.done, cur := h.cur, errs := ?_, eof := ?_, eofCalls := ?_ }
      · show br.closed = true ↔ .closeCalled ∈ s.sock.log ++ [.readStarted _]
        rw [hbc]
        simp [hopen]
      · have g : br.waiting = false := g
        rw [n1] at g; cases g
      · show br.received = Socket.delivered (s.sock.log ++ [.readStarted _])
        rw [Socket.delivered_append]
        show _ = _ ++ []
        rw [List.append_nil, hrec]; exact h.received
      · intro g
        have g : br.closed = true := g
        rw [hbc] at g; cases g
      · intro e he
        obtain ⟨t, ht⟩ := h.errs e (herr ▸ he)
        exact ⟨t, List.mem_append_left _ ht⟩
      · intro he
        obtain ⟨g1, g2⟩ := h.eof (herr ▸ he)
        refine ⟨g1, ?_⟩
        show br.received = Socket.sent (s.sock.log ++ [.readStarted _])
        rw [Socket.sent_append]
        show _ = _ ++ []
        rw [List.append_nil, hrec]; exact g2
      · intro x hx he
        obtain ⟨g1, g2⟩ := hcalls' x hx he
        refine ⟨List.mem_append_left _ g1, ?_⟩
        show x.received = Socket.sent (s.sock.log ++ [.readStarted _])
        rw [Socket.sent_append]
        show _ = _ ++ []
        rw [List.append_nil]; exact g2
  · unfold asks at hf
    rw [if_neg hnew, Option.bind_some] at hf
    unfold closes at hf
    have hwait : br.waiting = true → ∃ t, s.sock.pendRead = some (t, br.rb.spaceAvailable) := by
      intro g
      rcases hw g with ⟨g1, g2⟩ | ⟨g1, -⟩
      · rw [g2]; exact h.wait hcl g1
      · exact absurd ⟨g, g1⟩ hnew
    by_cases hbc : br.closed = true
    · -- `stream->close`
      rw [if_pos ⟨hbc, hcl⟩] at hf
      cases hk : Socket.step s.sock (.close os.shutOk os.armOk os.soon os.regOk) with
      | none => rw [hk] at hf; cases hf
      | some k =>
        rw [hk] at hf
        cases hf
        rw [hos] at hk
        have hreach : Socket.Reach (SockRules quiet) c k := .step h.sock (SockRules.other (m := .close os.shutOk os.armOk false os.regOk) ⟨hopen, rfl⟩ (fun u r e => nomatch e)) hk
        have hcc := hcc hbc
        obtain ⟨-, hk⟩ := sock_close hk
        have facts : ∃ l, k.log = s.sock.log ++ l ∧ .closeCalled ∈ l ∧ Socket.delivered l = [] ∧ Socket.sent l = [] ∧ k.closeTimeout = s.sock.closeTimeout ∧ k.regOut = s.sock.regOut ∧
            k.writeCb = s.sock.writeCb ∧ k.outgoing = s.sock.outgoing ∧ k.incomingEnd = s.sock.incomingEnd ∧ (s.sock.closeTimeout = false → k.inLoop = false) := by
          rcases hk with ⟨hct, hk⟩ | ⟨cb, hk⟩
          · subst hk
            exact ⟨[.closeCalled], rfl, by simp, rfl, rfl, rfl, rfl, rfl, rfl, rfl, fun g => by rw [hct] at g; cases g⟩
          · subst hk
            exact ⟨[.closeCalled] ++ [.fdClosed, .hook], by simp [dead], by simp, rfl, rfl, rfl, rfl, rfl, rfl, rfl, fun _ => rfl⟩
        obtain ⟨l, f1, f2, f3, f4, f5, f6, f7, f8, f9, f10⟩ := facts
        refine { sock := hreach, br := hbr, brReach := hre, timeout := f5.trans h.timeout, closed := ?_, loopOpen := hl, wait := fun g => ?_, idle := fun g => ?_, received := ?_, asked := h.asked, reg := f6.trans h.reg, cb := fun g => f7.trans (h.cb g), closedCur := ?_, out := f8.trans h.out, done := h.done, cur := h.cur, errs := ?_, eof := ?_, eofCalls := ?_ }
        · show br.closed = true ↔ .closeCalled ∈ k.log
          rw [hbc, f1]
          exact ⟨fun _ => List.mem_append_right _ f2, fun _ => rfl⟩
        · have g : br.closed = false := g
          rw [hbc] at g; cases g
        · have g : br.closed = false := g
          rw [hbc] at g; cases g
        · show br.received = Socket.delivered k.log
          rw [f1, Socket.delivered_append, f3, List.append_nil, hrec]; exact h.received
        · intro _
          by_cases hcur : s.cur = none
          · exact Or.inl hcur
          · right
            have hsome : s.cur.isSome = true := by
              cases hc : s.cur with
              | none => exact absurd hc hcur
              | some x => rfl
            have hask : s.asked = true := by
              cases ha : s.asked with
              | true => rfl
              | false => unfold Sys.busy at hbusy; rw [hsome, ha] at hbusy; cases hbusy
            refine ⟨hask, f10 ?_⟩
            rcases hcc with g | g
            · exact absurd g hcur
            · exact h.timeout.trans g
        · intro e he
          obtain ⟨t, ht⟩ := h.errs e (herr ▸ he)
          exact ⟨t, by show _ ∈ k.log; rw [f1]; exact List.mem_append_left _ ht⟩
        · intro he
          obtain ⟨g1, g2⟩ := h.eof (herr ▸ he)
          refine ⟨f9.trans g1, ?_⟩
          show br.received = Socket.sent k.log
          rw [f1, Socket.sent_append, f4, List.append_nil, hrec]; exact g2
        · intro x hx he
          obtain ⟨g1, g2⟩ := hcalls' x hx he
          refine ⟨by show _ ∈ k.log; rw [f1]; exact List.mem_append_left _ g1, ?_⟩
          show x.received = Socket.sent k.log
          rw [f1, Socket.sent_append, f4, List.append_nil]; exact g2
    · -- nothing is asked of the socket
      have hbc : br.closed = false := by simpa using hbc
      rw [if_neg (fun g => by rw [hbc] at g; cases g.1)] at hf
      cases hf
      refine { sock := h.sock, br := hbr, brReach := hre, timeout := h.timeout, closed := ?_, loopOpen := hl, wait := fun _ => hwait, idle := fun _ g => h.idle hcl (hw' g), received := hrec.trans h.received, asked := h.asked, reg := h.reg, cb := h.cb, closedCur := ?_, out := h.out, done := h.done, cur := h.cur, errs := ?_, eof := ?_, eofCalls := hcalls' }
      · show br.closed = true ↔ _
        rw [hbc]
        simp [hopen]
      · intro g
        have g : br.closed = true := g
        rw [hbc] at g; cases g
      · intro e he
        exact h.errs e (herr ▸ he)
      · intro he
        obtain ⟨g1, g2⟩ := h.eof (herr ▸ he)
        exact ⟨g1, hrec.trans g2⟩

end Cio.StreamSocket
