import Verif.Socket.Model
/-
Property theorems for sockets (C33).
-/
namespace Cio.Socket

/-! ### Specification: what the log says -/

/-- The bytes that arrived from the peer. -/
def sent (l : List Obs) : List UInt8 := l.flatMap fun o => match o with | .peerSent d => d | _ => []

/-- The bytes handed to read handlers. -/
def delivered (l : List Obs) : List UInt8 := l.flatMap fun o => match o with | .readDone _ _ d => d | _ => []

/-- How often the handler of read `t` was called. -/
def readDones (t : Nat) (l : List Obs) : Nat := l.countP fun o => match o with | .readDone u _ _ => u = t | _ => false

/-- How often the handler of write `t` was called. -/
def writeDones (t : Nat) (l : List Obs) : Nat := l.countP fun o => match o with | .writeDone u _ _ => u = t | _ => false

/-- The bytes that were reported as written: of each write the reported number of bytes, from its beginning. -/
def written : (Nat → List UInt8) → List Obs → List UInt8
  | _, [] => []
  | f, .writeStarted t d :: l => written (fun u => if u = t then d else f u) l
  | f, .writeDone t _ n :: l => (f t).take n ++ written f l
  | f, _ :: l => written f l

def connects (l : List Obs) : Int := l.foldl (fun n o => match o with | .connectStarted => n + 1 | .connectDone _ => n - 1 | _ => n) 0

/-- All reads (writes, connects) that were started have been answered. -/
def ReadsDone (l : List Obs) : Prop := ∀ t, .readStarted t ∈ l → readDones t l = 1
def WritesDone (l : List Obs) : Prop := ∀ t d, .writeStarted t d ∈ l → writeDones t l = 1

/-- Rules of use: after `cio_socket_close` the socket is not used any more; there is one read and one write (or connect) at a time; reads
have room for at least one byte; `epoll_ctl` does not fail for reads and writes; the close timer does not expire at the moment it is
armed; and errors of the operating system are `-errno`. -/
def Rules (s : St) : Move → Prop
  | .read space ok => .closeCalled ∉ s.log ∧ ReadsDone s.log ∧ 0 < space ∧ ok = true
  | .write _ _ ok => .closeCalled ∉ s.log ∧ WritesDone s.log ∧ connects s.log = 0 ∧ ok = true
  | .connect _ ok => .closeCalled ∉ s.log ∧ WritesDone s.log ∧ connects s.log = 0 ∧ ok = true
  | .close _ _ soon _ => .closeCalled ∉ s.log ∧ soon = false
  | .readable _ (.error e) => e < 0
  | _ => True

inductive Reach (rules : St → Move → Prop) (closeTimeout : Bool) : St → Prop
  | init : Reach rules closeTimeout (initial closeTimeout)
  | step {s s' : St} {m : Move} (h : Reach rules closeTimeout s) (hr : rules s m) (hs : step s m = some s') : Reach rules closeTimeout s'

/-! ### Counting lemmas -/

theorem sent_append (a b : List Obs) : sent (a ++ b) = sent a ++ sent b := List.flatMap_append

theorem delivered_append (a b : List Obs) : delivered (a ++ b) = delivered a ++ delivered b := List.flatMap_append

theorem readDones_append (t : Nat) (a b : List Obs) : readDones t (a ++ b) = readDones t a + readDones t b := List.countP_append

theorem writeDones_append (t : Nat) (a b : List Obs) : writeDones t (a ++ b) = writeDones t a + writeDones t b := List.countP_append

theorem connects_append (a b : List Obs) : connects (a ++ b) = connects a + connects b := by
  have key : ∀ (b : List Obs) (n : Int), b.foldl (fun n o => match o with | .connectStarted => n + 1 | .connectDone _ => n - 1 | _ => n) n =
      n + connects b := by
    intro b
    unfold connects
    induction b with
    | nil => intro n; simp
    | cons o os ih =>
      intro n
      simp only [List.foldl_cons]
      rw [ih, ih (match o with | .connectStarted => 0 + 1 | .connectDone _ => 0 - 1 | _ => 0)]
      cases o <;> simp <;> omega
  show List.foldl _ 0 (a ++ b) = _
  rw [List.foldl_append, key]
  rfl

/-- What a started write contains. -/
def contentOf : (Nat → List UInt8) → List Obs → (Nat → List UInt8)
  | f, [] => f
  | f, .writeStarted t d :: l => contentOf (fun u => if u = t then d else f u) l
  | f, _ :: l => contentOf f l

theorem written_append (f : Nat → List UInt8) (a b : List Obs) : written f (a ++ b) = written f a ++ written (contentOf f a) b := by
  induction a generalizing f with
  | nil => rfl
  | cons o os ih => cases o <;> simp only [List.cons_append, written, contentOf, ih, List.append_assoc]

/-! ### Transitions within the rules -/

/-- What a move within the rules does. -/
inductive Trans (s : St) (m : Move) : St → Prop
  | stack (k : List Item) (h : ∀ i ∈ k, i = .user) : Trans s m { s with stack := k }
  | peer (d : List UInt8) : Trans s m { s with incoming := s.incoming ++ d, log := s.log ++ [.peerSent d] }
  | fin : Trans s m { s with incomingEnd := true, log := s.log ++ [.peerClosed] }
  | read (space : Nat) (ha : s.alive = true) (hc : .closeCalled ∉ s.log) (hd : ReadsDone s.log) (hsp : 0 < space) :
    Trans s m { s with readCb := .read, pendRead := some (s.nextRead, space), nextRead := s.nextRead + 1, regIn := true, log := s.log ++ [.readStarted s.nextRead] }
  | writeNow (d : List UInt8) (n : Nat) (hn : n ≤ d.length) (ha : s.alive = true) (hc : .closeCalled ∉ s.log) :
    Trans s m { s with nextWrite := s.nextWrite + 1, outgoing := s.outgoing ++ d.take n, log := s.log ++ [.writeStarted s.nextWrite d] ++ [.writeDone s.nextWrite SUCCESS n], stack := .user :: s.stack }
  | writeLater (d : List UInt8) (ha : s.alive = true) (hc : .closeCalled ∉ s.log) (hd : WritesDone s.log) (hk : connects s.log = 0) :
    Trans s m { s with nextWrite := s.nextWrite + 1, writeCb := .write, pendWrite := s.nextWrite, regOut := true, log := s.log ++ [.writeStarted s.nextWrite d] }
  | writeFails (e : Err) (ha : s.alive = true) (hc : .closeCalled ∉ s.log) :
    Trans s m { s with nextWrite := s.nextWrite + 1, log := s.log ++ [.writeRefused s.nextWrite e] }
  | connectNow (ha : s.alive = true) (hc : .closeCalled ∉ s.log) :
    Trans s m { s with log := s.log ++ [.connectStarted] ++ [.connectDone SUCCESS], stack := .user :: s.stack }
  | connectLater (ha : s.alive = true) (hc : .closeCalled ∉ s.log) (hd : WritesDone s.log) (hk : connects s.log = 0) :
    Trans s m { s with writeCb := .connect, regOut := true, log := s.log ++ [.connectStarted] }
  | connectFails (e : Err) (ha : s.alive = true) (hc : .closeCalled ∉ s.log) : Trans s m { s with log := s.log ++ [.connectRefused e] }
  | linger (ha : s.alive = true) (hc : .closeCalled ∉ s.log) (hct : s.closeTimeout = true) :
    Trans s m { s with readCb := .drain, timerArmed := true, regIn := true, log := s.log ++ [.closeCalled] }
  | readAgain (t space : Nat) (hp : s.pendRead = some (t, space)) (ha : s.alive = true) (hcb : s.readCb = .read)
    (hm : ∃ u r, m = .readable u r ∧ osRead s space r = .again) :
    Trans s m { s with regIn := false }
  | readError (t space : Nat) (e : Err) (he : e < 0) (hp : s.pendRead = some (t, space)) (ha : s.alive = true) (hcb : s.readCb = .read) :
    Trans s m { s with regIn := false, pendRead := none, log := s.log ++ [.readDone t e []], stack := .user :: s.stack }
  | readEnd (t space : Nat) (hp : s.pendRead = some (t, space)) (ha : s.alive = true) (hcb : s.readCb = .read)
    (he : 0 < space → s.incoming = [] ∧ s.incomingEnd = true) :
    Trans s m { s with regIn := false, pendRead := none, peerClosed := true, log := s.log ++ [.readDone t EOF []], stack := .user :: s.stack }
  | readData (t space : Nat) (d rest : List UInt8) (hp : s.pendRead = some (t, space)) (ha : s.alive = true) (hcb : s.readCb = .read)
    (hd : s.incoming = d ++ rest) (h1 : 0 < d.length) (h2 : d.length ≤ space) :
    Trans s m { s with regIn := false, pendRead := none, incoming := rest, log := s.log ++ [.readDone t SUCCESS d], stack := .user :: s.stack }
  | drain (d rest : List UInt8) (hd : s.incoming = d ++ rest) (ha : s.alive = true) (hcb : s.readCb = .drain) :
    Trans s m { s with regIn := false, incoming := rest }
  | written (e : Err) (ha : s.alive = true) (hcb : s.writeCb = .write) (hr : s.regOut = true) :
    Trans s m { s with regOut := false, log := s.log ++ [.writeDone s.pendWrite e 0], stack := .user :: s.stack }
  | connected (e : Err) (ha : s.alive = true) (hcb : s.writeCb = .connect) (hr : s.regOut = true) :
    Trans s m { s with regOut := false, log := s.log ++ [.connectDone e], stack := .user :: s.stack }
  | closed (cb : ReadCb) (pre : List Obs) (ha : s.alive = true)
    (hpre : (pre = [.closeCalled] ∧ .closeCalled ∉ s.log) ∨ (pre = [] ∧ (s.readCb = .drain ∨ s.timerArmed = true))) :
    Trans s m { s with readCb := cb, regIn := false, inLoop := false, timerArmed := false, alive := false, log := s.log ++ pre ++ [.fdClosed, .hook], stack := .user :: s.stack }

/-- What holds between the moves. -/
structure Base (s : St) : Prop where
  ub : s.ub = false
  stack : ∀ i ∈ s.stack, i = .user
  dead : s.alive = false → s.inLoop = false ∧ s.timerArmed = false ∧ .closeCalled ∈ s.log
  live : s.alive = true → s.inLoop = true
  regIn : s.alive = true → s.regIn = true → s.readCb ≠ .none ∧ (s.readCb = .read → ∃ x, s.pendRead = some x)
  regOut : s.regOut = true → s.writeCb ≠ .none
  drain : s.alive = true → (.closeCalled ∈ s.log ↔ s.readCb = .drain)
  drainTimer : s.alive = true → (s.readCb = .drain ↔ s.timerArmed = true)

theorem taken_prefix (s : St) (space n : Nat) : ∃ rest, s.incoming = taken s space n ++ rest ∧ rest = s.incoming.drop (taken s space n).length := by
  refine ⟨s.incoming.drop (taken s space n).length, ?_, rfl⟩
  unfold taken
  generalize min space (max n 1) = k
  rw [List.length_take]
  by_cases h : k ≤ s.incoming.length
  · rw [Nat.min_eq_left h, List.take_append_drop]
  · rw [Nat.min_eq_right (by omega), List.take_of_length_le (by omega), List.drop_length, List.append_nil]

theorem close_trans {s : St} (ha : s.alive = true) (hc : .closeCalled ∉ s.log) (a b d : Bool) (m : Move) : Trans s m (close s a b false d) := by
  have hcl : ∀ cb, closeSocket { s with readCb := cb, log := s.log ++ [.closeCalled] } = { s with readCb := cb, regIn := false, inLoop := false, timerArmed := false, alive := false, log := s.log ++ [.closeCalled] ++ [.fdClosed, .hook], stack := .user :: s.stack } := by
    intro cb
    unfold closeSocket guarded
    rw [if_pos ha]
  have hT : ∀ cb, Trans s m (closeSocket { s with readCb := cb, log := s.log ++ [.closeCalled] }) := by
    intro cb
    rw [hcl cb]
    exact Trans.closed cb _ ha (.inl ⟨rfl, hc⟩)
  unfold close
  simp only
  split
  · exact hT s.readCb
  · split
    · next hct =>
      unfold shutdownSocket
      simp only [Bool.false_eq_true, if_false]
      split
      · exact hT s.readCb
      · split
        · exact hT .drain
        · unfold shutdownTail guarded
          simp only [ha, if_true]
          split
          · have h1 := Trans.linger (m := m) ha hc hct
            rw [ha] at h1
            exact h1
          · unfold resetConnection
            have : closeSocket { s with readCb := .drain, log := s.log ++ [.closeCalled], timerArmed := true, regIn := true } =
                closeSocket { s with readCb := .drain, log := s.log ++ [.closeCalled] } := by
              rw [hcl]
              unfold closeSocket guarded
              rw [if_pos ha]
            rw [ha] at this
            rw [this]
            have h2 := hT .drain
            rw [ha] at h2
            exact h2
    · exact hT s.readCb

theorem step_trans {s s' : St} {m : Move} (hb : Base s) (hr : Rules s m) (hs : step s m = some s') : Trans s m s' := by
  unfold step at hs
  rw [if_neg (by rw [hb.ub]; simp)] at hs
  split at hs
  · split at hs
    · cases hs
    · injection hs with hs; subst hs; exact .peer _
  · injection hs with hs; subst hs; exact .fin
  · injection hs with hs; subst hs; exact .stack _ (by simp)
  · rename_i k hst
    injection hs with hs; subst hs
    refine .stack _ (fun i hi => hb.stack i ?_)
    rw [hst]; simp [hi]
  · split at hs
    · rename_i ha
      obtain ⟨h1, h2, h3, h4⟩ := hr
      injection hs with hs; subst hs
      subst h4
      unfold streamRead
      exact .read _ ha h1 h2 h3
    · cases hs
  · split at hs
    · rename_i ha
      obtain ⟨h1, h2, h3, h4⟩ := hr
      injection hs with hs; subst hs
      subst h4
      unfold streamWrite call
      simp only
      split
      · exact .writeNow _ _ (Nat.min_le_right _ _) ha h1
      · exact .writeLater _ ha h1 h2 h3
      · exact .writeFails _ ha h1
    · cases hs
  · split at hs
    · rename_i ha
      obtain ⟨h1, h2, h3, h4⟩ := hr
      injection hs with hs; subst hs
      subst h4
      unfold connect call
      simp only
      split
      · exact .connectNow ha h1
      · exact .connectLater ha h1 h2 h3
      · exact .connectFails _ ha h1
    · cases hs
  · split at hs
    · rename_i ha
      obtain ⟨h1, h2⟩ := hr
      injection hs with hs; subst hs
      subst h2
      exact close_trans ha h1 _ _ _ _
    · cases hs
  · rename_i unregOk r hst
    split at hs
    · rename_i hio
      rw [Bool.and_eq_true] at hio
      have ha : s.alive = true := by
        cases h : s.alive with
        | true => rfl
        | false => have := (hb.dead h).1; rw [hio.1] at this; cases this
      split at hs
      · rename_i t space hcb hp
        injection hs with hs; subst hs
        unfold readCallback call
        simp only
        split
        · exact .readError t space _ (by decide) hp ha hcb
        · split
          · rename_i hos
            exact .readAgain t space hp ha hcb ⟨unregOk, r, rfl, hos⟩
          · rename_i e hos
            have hre : r = .error e := by
              unfold osRead at hos
              split at hos
              · split at hos <;> cases hos
              · exact hos
            subst hre
            exact .readError t space _ hr hp ha hcb
          · rename_i n hos
            obtain ⟨rest, h1, h2⟩ := taken_prefix s space n
            have hle : (taken s space n).length ≤ space := by unfold taken; rw [List.length_take]; omega
            split
            · rename_i h0
              refine .readEnd t space hp ha hcb ?_
              intro hsp
              have h0' : (taken s space n).length = 0 := h0
              have hin : s.incoming = [] := by
                unfold taken at h0'
                rw [List.length_take] at h0'
                have : s.incoming.length = 0 := by omega
                exact List.eq_nil_of_length_eq_zero this
              refine ⟨hin, ?_⟩
              unfold osRead at hos
              split at hos
              · split at hos
                · cases hos
                · rename_i hne
                  cases he : s.incomingEnd with
                  | true => rfl
                  | false => exact absurd ⟨by omega, hin, he⟩ hne
              · rename_i hne
                exact absurd hos (hne n)
            · rename_i h0
              have := Trans.readData (s := s) (m := .readable unregOk r) t space (taken s space n) rest hp ha hcb h1 (Nat.pos_of_ne_zero h0) hle
              rw [h2] at this
              exact this
      · rename_i hcb
        injection hs with hs; subst hs
        have hcl : ∀ t : Bool, closeSocket { s with regIn := false, timerArmed := t } = { s with regIn := false, inLoop := false, timerArmed := false, alive := false, log := s.log ++ [] ++ [.fdClosed, .hook], stack := .user :: s.stack } := by
          intro t
          unfold closeSocket guarded
          rw [if_pos ha, List.append_nil]
        have hT : Trans s (.readable unregOk r) (closeSocket { s with regIn := false, timerArmed := false }) := by
          rw [hcl]
          exact Trans.closed s.readCb [] ha (.inr ⟨rfl, .inl hcb⟩)
        unfold drainCallback
        simp only
        split
        · exact hT
        · split
          · have := Trans.drain (s := s) (m := .readable unregOk r) [] s.incoming rfl ha hcb
            exact this
          · exact hT
          · rename_i n hos
            split
            · exact hT
            · obtain ⟨rest, h1, h2⟩ := taken_prefix s readCloseBufferSize n
              have := Trans.drain (s := s) (m := .readable unregOk r) _ rest h1 ha hcb
              rw [h2] at this
              exact this
      · rename_i h2 h1
        exfalso
        have := hb.regIn ha hio.2
        cases hcb : s.readCb with
        | none => exact this.1 hcb
        | drain => exact h2 hcb
        | read =>
          obtain ⟨⟨t, sp⟩, hx⟩ := this.2 hcb
          exact h1 t sp hcb hx
    · cases hs
  · rename_i err hst
    split at hs
    · rename_i hio
      rw [Bool.and_eq_true] at hio
      have ha : s.alive = true := by
        cases h : s.alive with
        | true => rfl
        | false => have := (hb.dead h).1; rw [hio.1] at this; cases this
      injection hs with hs; subst hs
      unfold writeCallback call
      simp only
      split
      · rename_i hcb; exact .written _ ha hcb hio.2
      · rename_i hcb; exact .connected _ ha hcb hio.2
      · rename_i hcb; exact absurd hcb (hb.regOut hio.2)
    · cases hs
  · rename_i hst
    split at hs
    · rename_i ht
      injection hs with hs; subst hs
      have ha : s.alive = true := by
        cases h : s.alive with
        | true => rfl
        | false => have := (hb.dead h).2.1; rw [ht] at this; cases this
      have := Trans.closed (s := s) (m := .timeout) s.readCb [] ha (.inr ⟨rfl, .inr ht⟩)
      rw [List.append_nil] at this
      unfold resetConnection closeSocket guarded
      simp only [ha, if_true]
      exact this
    · cases hs
  · rename_i k hst
    exact absurd (hb.stack .afterArm (by rw [hst]; simp)) (by simp)
  · cases hs


/-! ### Invariants -/

theorem base_init (c : Bool) : Base (initial c) := by
  constructor <;> simp [initial]

theorem base_step {s s' : St} {m : Move} (hb : Base s) (h : Trans s m s') : Base s' := by
  obtain ⟨h1, h2, h3, h4, h5, h6, h7, h8⟩ := hb
  cases h with
  | stack k h => exact ⟨h1, h, h3, h4, h5, h6, h7, h8⟩
  | closed cb pre ha hpre =>
    refine ⟨h1, by simpa using h2, ?_, by simp, by simp, h6, by simp, by simp⟩
    intro _
    refine ⟨rfl, rfl, ?_⟩
    rcases hpre with h | h
    · simp [h.1]
    · have : .closeCalled ∈ s.log := by rcases h.2 with h | h <;> simp_all
      simp [this]
  | _ => constructor <;> simp_all <;> exact h2

/-- Closing. -/
structure Once (s : St) : Prop where
  fd : s.log.count .fdClosed = if s.alive then 0 else 1
  hook : s.log.count .hook = if s.alive then 0 else 1
  closeCalled : s.log.count .closeCalled ≤ 1
  last : s.alive = false → ∃ a b, s.log = a ++ [.fdClosed, .hook] ++ b ∧ .closeCalled ∈ a ∧ ∀ o ∈ b, o = .peerClosed ∨ ∃ d, o = .peerSent d

theorem once_init (c : Bool) : Once (initial c) := by
  constructor <;> simp [initial]

theorem once_step {s s' : St} {m : Move} (hb : Base s) (hi : Once s) (h : Trans s m s') : Once s' := by
  obtain ⟨h1, h2, h3, h4⟩ := hi
  have hdead := hb.dead
  have hdr := hb.drain
  have hdt := hb.drainTimer
  cases h with
  | stack k h => exact ⟨h1, h2, h3, h4⟩
  | peer d =>
    refine ⟨by simpa using h1, by simpa using h2, by simpa using h3, ?_⟩
    intro ha
    obtain ⟨a, b, e, hc, hp⟩ := h4 ha
    refine ⟨a, b ++ [.peerSent d], by simp [e], hc, ?_⟩
    intro o ho
    rcases List.mem_append.1 ho with ho | ho
    · exact hp o ho
    · simp at ho; exact .inr ⟨d, ho⟩
  | fin =>
    refine ⟨by simpa using h1, by simpa using h2, by simpa using h3, ?_⟩
    intro ha
    obtain ⟨a, b, e, hc, hp⟩ := h4 ha
    refine ⟨a, b ++ [.peerClosed], by simp [e], hc, ?_⟩
    intro o ho
    rcases List.mem_append.1 ho with ho | ho
    · exact hp o ho
    · simp at ho; exact .inl ho
  | closed cb pre ha hpre =>
    rcases hpre with ⟨e, hn⟩ | ⟨e, hn⟩
    · subst e
      have h0 : s.log.count .closeCalled = 0 := List.count_eq_zero.2 hn
      refine ⟨by simp_all, by simp_all, by simp_all, ?_⟩
      intro _
      exact ⟨s.log ++ [.closeCalled], [], by simp, by simp, by simp⟩
    · subst e
      refine ⟨by simp_all, by simp_all, by simp_all, ?_⟩
      intro _
      refine ⟨s.log, [], by simp, ?_, by simp⟩
      rcases hn with h | h <;> simp_all
  | linger ha hc _ =>
    have h0 : s.log.count .closeCalled = 0 := List.count_eq_zero.2 hc
    refine ⟨by simp_all, by simp_all, by simp_all, by simp_all⟩
  | _ => constructor <;> simp_all

/-- Reading. -/
structure Reads (s : St) : Prop where
  fresh : ∀ t, s.nextRead ≤ t → .readStarted t ∉ s.log ∧ readDones t s.log = 0
  le : ∀ t, readDones t s.log ≤ 1
  pend : ∀ t n, s.pendRead = some (t, n) → t < s.nextRead ∧ readDones t s.log = 0 ∧ .readStarted t ∈ s.log ∧ 0 < n
  start : ∀ t, .readStarted t ∈ s.log → readDones t s.log = 1 ∨ ∃ n, s.pendRead = some (t, n)
  old : ∀ t e d, .readDone t e d ∈ s.log → .readStarted t ∈ s.log
  open_ : .closeCalled ∉ s.log → delivered s.log ++ s.incoming = sent s.log
  pref : ∃ rest, delivered s.log ++ rest ++ s.incoming = sent s.log
  fin : s.incomingEnd = true ↔ .peerClosed ∈ s.log
  truth : ∀ a b t e d, s.log = a ++ .readDone t e d :: b →
    (e = SUCCESS ∧ d ≠ []) ∨ (e = EOF ∧ d = [] ∧ .peerClosed ∈ a ∧ delivered a = sent a) ∨ (e < 0 ∧ d = [])

theorem reads_init (c : Bool) : Reads (initial c) := by
  constructor <;> simp [initial, readDones, delivered, sent]

/-- An observation that does not concern reading. -/
def NoRead : Obs → Prop
  | .readStarted _ => False
  | .readDone _ _ _ => False
  | .peerSent _ => False
  | .peerClosed => False
  | _ => True

theorem noRead_facts (l : List Obs) (h : ∀ o ∈ l, NoRead o) : (∀ t, readDones t l = 0) ∧ (∀ t, .readStarted t ∉ l) ∧
    (∀ t e d, .readDone t e d ∉ l) ∧ delivered l = [] ∧ sent l = [] ∧ .peerClosed ∉ l := by
  refine ⟨?_, fun t hm => h _ hm, fun t e d hm => h _ hm, ?_, ?_, fun hm => h _ hm⟩
  · intro t
    unfold readDones
    rw [List.countP_eq_zero]
    intro o ho
    have := h o ho
    cases o <;> simp_all [NoRead]
  · unfold delivered
    rw [List.flatMap_eq_nil_iff]
    intro o ho
    have := h o ho
    cases o <;> simp_all [NoRead]
  · unfold sent
    rw [List.flatMap_eq_nil_iff]
    intro o ho
    have := h o ho
    cases o <;> simp_all [NoRead]

/-- `truth` only has to be checked for what is appended. -/
theorem truth_append {P : List Obs → Obs → Prop} {l l2 : List Obs} (h : ∀ a b o, l = a ++ o :: b → P a o)
    (h2 : ∀ a b o, l2 = a ++ o :: b → P (l ++ a) o) : ∀ a b o, l ++ l2 = a ++ o :: b → P a o := by
  intro a b o e
  rw [List.append_eq_append_iff] at e
  rcases e with ⟨x, h3, h4⟩ | ⟨x, h3, h4⟩
  · rw [h3]; exact h2 _ _ _ h4
  · cases x with
    | nil => simp at h3 h4; rw [← h3]; simpa using h2 [] b o (by simpa using h4.symm)
    | cons y ys =>
      simp at h4
      rw [← h4.1] at h3
      exact h a ys o h3

/-- Nothing about reading changes. -/
theorem reads_other {s s' : St} {l : List Obs} (hi : Reads s) (hl : ∀ o ∈ l, NoRead o) (e1 : s'.log = s.log ++ l) (e2 : s'.nextRead = s.nextRead)
    (e3 : s'.pendRead = s.pendRead) (e4 : s'.incoming = s.incoming) (e5 : s'.incomingEnd = s.incomingEnd) : Reads s' := by
  obtain ⟨f1, f2, f3, f4, f5, f6⟩ := noRead_facts l hl
  constructor
  · intro t ht
    rw [e2] at ht
    have := hi.fresh t ht
    rw [e1, readDones_append, f1]
    exact ⟨by simp [this.1, f2], by omega⟩
  · intro t
    have := hi.le t
    rw [e1, readDones_append, f1]; omega
  · intro t n h
    rw [e3] at h
    obtain ⟨a, b, c, d⟩ := hi.pend t n h
    rw [e1, e2, readDones_append, f1]
    exact ⟨a, by omega, by simp [c], d⟩
  · intro t h
    rw [e1] at h
    have h : .readStarted t ∈ s.log := by simpa [f2] using h
    rw [e1, e3, readDones_append, f1]
    exact hi.start t h
  · intro t e d h
    rw [e1] at h ⊢
    have := hi.old t e d (by simpa [f3] using h)
    simp [this]
  · intro h
    rw [e1] at h ⊢
    rw [delivered_append, sent_append, f4, f5, e4]
    simpa using hi.open_ (by simp at h; exact h.1)
  · obtain ⟨rest, h⟩ := hi.pref
    refine ⟨rest, ?_⟩
    rw [e1, delivered_append, sent_append, f4, f5, e4]
    simpa using h
  · rw [e5, e1, hi.fin]; simp [f6]
  · intro a b t e d h
    rw [e1] at h
    refine truth_append (P := fun a o => ∀ t e d, o = .readDone t e d → (e = SUCCESS ∧ d ≠ []) ∨ (e = EOF ∧ d = [] ∧ .peerClosed ∈ a ∧ delivered a = sent a) ∨ (e < 0 ∧ d = [])) ?_ ?_ a b _ h t e d rfl
    · intro a b o h t e d ho
      subst ho
      exact hi.truth a b t e d h
    · intro a b o h t e d ho
      subst ho
      exact absurd (by rw [h]; simp) (f3 t e d)

/-- A read handler is called. -/
theorem reads_done {s s' : St} {t space : Nat} {e : Err} {d : List UInt8} (hi : Reads s) (hp : s.pendRead = some (t, space))
    (e1 : s'.log = s.log ++ [.readDone t e d]) (e2 : s'.nextRead = s.nextRead) (e3 : s'.pendRead = none) (e4 : s.incoming = d ++ s'.incoming)
    (e5 : s'.incomingEnd = s.incomingEnd) (hn : .closeCalled ∉ s.log)
    (ht : (e = SUCCESS ∧ d ≠ []) ∨ (e = EOF ∧ d = [] ∧ s.incoming = [] ∧ s.incomingEnd = true) ∨ (e < 0 ∧ d = [])) : Reads s' := by
  obtain ⟨p1, p2, p3, p4⟩ := hi.pend t space hp
  have hself : ∀ u, readDones u [.readDone t e d] = if t = u then 1 else 0 := by
    intro u; unfold readDones; by_cases h : t = u <;> simp [h]
  have hdel : delivered [.readDone t e d] = d := by simp [delivered]
  have hsent : sent [.readDone t e d] = [] := by simp [sent]
  constructor
  · intro u hu
    rw [e2] at hu
    have := hi.fresh u hu
    rw [e1, readDones_append, hself, if_neg (by omega)]
    exact ⟨by simp [this.1], by omega⟩
  · intro u
    rw [e1, readDones_append, hself]
    have := hi.le u
    split
    · rename_i h; subst h; omega
    · omega
  · intro u n h; rw [e3] at h; cases h
  · intro u hu
    rw [e1] at hu
    have hu : .readStarted u ∈ s.log := by simpa using hu
    rw [e1, readDones_append, hself]
    rcases hi.start u hu with h | ⟨n, h⟩
    · by_cases htu : t = u
      · subst htu; omega
      · left; rw [if_neg htu]; omega
    · rw [hp] at h
      injection h with h
      injection h with h h'
      left; rw [if_pos h, ← h]; omega
  · intro u e' d' h
    rw [e1] at h ⊢
    simp at h
    rcases h with h | ⟨h, _, _⟩
    · simp [hi.old u e' d' h]
    · subst h; simp [p3]
  · intro h
    rw [e1, delivered_append, sent_append, hdel, hsent, List.append_nil, List.append_assoc, ← e4]
    exact hi.open_ hn
  · refine ⟨[], ?_⟩
    rw [e1, delivered_append, sent_append, hdel, hsent, List.append_nil, List.append_nil, List.append_assoc, ← e4]
    exact hi.open_ hn
  · rw [e5, e1, hi.fin]; simp
  · intro a b u e' d' h
    rw [e1] at h
    refine truth_append (P := fun a o => ∀ t e d, o = .readDone t e d → (e = SUCCESS ∧ d ≠ []) ∨ (e = EOF ∧ d = [] ∧ .peerClosed ∈ a ∧ delivered a = sent a) ∨ (e < 0 ∧ d = [])) ?_ ?_ a b _ h u e' d' rfl
    · intro a b o h t e d ho
      subst ho
      exact hi.truth a b t e d h
    · intro a b o h u e' d' ho
      subst ho
      have ha : a = [] := by
        cases a with
        | nil => rfl
        | cons x xs => simp at h
      subst ha
      simp at h
      obtain ⟨⟨_, he, hd⟩, _⟩ := h
      subst he; subst hd
      rcases ht with h | ⟨h1, h2, h3, h4⟩ | h
      · exact .inl h
      · refine .inr (.inl ⟨h1, h2, ?_, ?_⟩)
        · simpa using hi.fin.1 h4
        · have := hi.open_ hn
          rw [h3] at this
          simpa using this
      · exact .inr (.inr h)

theorem reads_step {s s' : St} {m : Move} (hb : Base s) (hi : Reads s) (h : Trans s m s') : Reads s' := by
  have hopen : s.alive = true → s.readCb = .read → .closeCalled ∉ s.log := by
    intro ha hcb hc
    have := (hb.drain ha).1 hc
    rw [hcb] at this
    cases this
  cases h with
  | stack k h => exact reads_other (l := []) hi (by simp) (by simp) rfl rfl rfl rfl
  | peer d =>
    have hself : ∀ u, readDones u [.peerSent d] = 0 := by intro u; simp [readDones]
    have hdel : delivered [.peerSent d] = [] := by simp [delivered]
    have hsent : sent [.peerSent d] = d := by simp [sent]
    constructor
    · intro u hu
      have := hi.fresh u hu
      exact ⟨by simp [this.1], by rw [readDones_append, hself]; omega⟩
    · intro u
      have := hi.le u
      rw [readDones_append, hself]; omega
    · intro u n h
      obtain ⟨a, b, c, d⟩ := hi.pend u n h
      exact ⟨a, by rw [readDones_append, hself]; omega, by simp [c], d⟩
    · intro u h
      rw [readDones_append, hself]
      exact hi.start u (by simpa using h)
    · intro u e d h
      have := hi.old u e d (by simpa using h)
      simp [this]
    · intro h
      have := hi.open_ (by simpa using h)
      simp only [delivered_append, sent_append, hdel, hsent, List.append_nil]
      rw [← this, List.append_assoc]
    · obtain ⟨rest, this⟩ := hi.pref
      refine ⟨rest, ?_⟩
      simp only [delivered_append, sent_append, hdel, hsent, List.append_nil]
      rw [← this, List.append_assoc, List.append_assoc, List.append_assoc]
    · rw [hi.fin]; simp
    · intro a b t e d' h
      refine truth_append (P := fun a o => ∀ t e d, o = .readDone t e d → (e = SUCCESS ∧ d ≠ []) ∨ (e = EOF ∧ d = [] ∧ .peerClosed ∈ a ∧ delivered a = sent a) ∨ (e < 0 ∧ d = [])) ?_ ?_ a b _ h t e d' rfl
      · intro a b o h t e d ho
        subst ho
        exact hi.truth a b t e d h
      · intro a b o h t e d' ho
        subst ho
        cases a <;> simp at h
  | fin =>
    have hself : ∀ u, readDones u [.peerClosed] = 0 := by intro u; simp [readDones]
    have hdel : delivered [.peerClosed] = [] := by simp [delivered]
    have hsent : sent [.peerClosed] = [] := by simp [sent]
    constructor
    · intro u hu
      have := hi.fresh u hu
      exact ⟨by simp [this.1], by rw [readDones_append, hself]; omega⟩
    · intro u
      have := hi.le u
      rw [readDones_append, hself]; omega
    · intro u n h
      obtain ⟨a, b, c, d⟩ := hi.pend u n h
      exact ⟨a, by rw [readDones_append, hself]; omega, by simp [c], d⟩
    · intro u h
      rw [readDones_append, hself]
      exact hi.start u (by simpa using h)
    · intro u e d h
      have := hi.old u e d (by simpa using h)
      simp [this]
    · intro h
      have := hi.open_ (by simpa using h)
      simp only [delivered_append, sent_append, hdel, hsent, List.append_nil]
      exact this
    · obtain ⟨rest, this⟩ := hi.pref
      refine ⟨rest, ?_⟩
      simp only [delivered_append, sent_append, hdel, hsent, List.append_nil]
      exact this
    · simp
    · intro a b t e d' h
      refine truth_append (P := fun a o => ∀ t e d, o = .readDone t e d → (e = SUCCESS ∧ d ≠ []) ∨ (e = EOF ∧ d = [] ∧ .peerClosed ∈ a ∧ delivered a = sent a) ∨ (e < 0 ∧ d = [])) ?_ ?_ a b _ h t e d' rfl
      · intro a b o h t e d ho
        subst ho
        exact hi.truth a b t e d h
      · intro a b o h t e d' ho
        subst ho
        cases a <;> simp at h
  | read space ha hc hd hsp =>
    have hself : ∀ u, readDones u [.readStarted s.nextRead] = 0 := by intro u; simp [readDones]
    have hdel : delivered [.readStarted s.nextRead] = [] := by simp [delivered]
    have hsent : sent [.readStarted s.nextRead] = [] := by simp [sent]
    constructor
    · intro u hu
      have hu : s.nextRead + 1 ≤ u := hu
      have := hi.fresh u (by omega)
      refine ⟨?_, by rw [readDones_append, hself]; omega⟩
      simp [this.1]; omega
    · intro u
      have := hi.le u
      rw [readDones_append, hself]; omega
    · intro u n h
      injection h with h
      injection h with h h'
      subst h; subst h'
      refine ⟨Nat.lt_succ_self _, ?_, by simp, hsp⟩
      rw [readDones_append, hself, (hi.fresh _ (Nat.le_refl _)).2]
    · intro u h
      rw [readDones_append, hself]
      simp at h
      rcases h with h | h
      · left; exact hd u h
      · right; subst h; exact ⟨space, rfl⟩
    · intro u e d h
      have := hi.old u e d (by simpa using h)
      simp [this]
    · intro h
      have := hi.open_ hc
      simp only [delivered_append, sent_append, hdel, hsent, List.append_nil]
      exact this
    · obtain ⟨rest, this⟩ := hi.pref
      refine ⟨rest, ?_⟩
      simp only [delivered_append, sent_append, hdel, hsent, List.append_nil]
      exact this
    · rw [hi.fin]; simp
    · intro a b t e d' h
      refine truth_append (P := fun a o => ∀ t e d, o = .readDone t e d → (e = SUCCESS ∧ d ≠ []) ∨ (e = EOF ∧ d = [] ∧ .peerClosed ∈ a ∧ delivered a = sent a) ∨ (e < 0 ∧ d = [])) ?_ ?_ a b _ h t e d' rfl
      · intro a b o h t e d ho
        subst ho
        exact hi.truth a b t e d h
      · intro a b o h t e d' ho
        subst ho
        cases a <;> simp at h
  | writeNow d n hn ha hc => exact reads_other (l := [.writeStarted s.nextWrite d, .writeDone s.nextWrite SUCCESS n]) hi (by simp [NoRead]) (by simp) rfl rfl rfl rfl
  | writeLater d ha hc hd hk => exact reads_other (l := [.writeStarted s.nextWrite d]) hi (by simp [NoRead]) rfl rfl rfl rfl rfl
  | writeFails e ha hc => exact reads_other (l := [.writeRefused s.nextWrite e]) hi (by simp [NoRead]) rfl rfl rfl rfl rfl
  | connectNow ha hc => exact reads_other (l := [.connectStarted, .connectDone SUCCESS]) hi (by simp [NoRead]) (by simp) rfl rfl rfl rfl
  | connectLater ha hc hd hk => exact reads_other (l := [.connectStarted]) hi (by simp [NoRead]) rfl rfl rfl rfl rfl
  | connectFails e ha hc => exact reads_other (l := [.connectRefused e]) hi (by simp [NoRead]) rfl rfl rfl rfl rfl
  | linger ha hc _ => exact reads_other (l := [.closeCalled]) hi (by simp [NoRead]) rfl rfl rfl rfl rfl
  | readAgain t space hp ha hcb hm => exact reads_other (l := []) hi (by simp) (by simp) rfl rfl rfl rfl
  | readError t space e he hp ha hcb => exact reads_done (e := e) (d := []) hi hp rfl rfl rfl (by simp) rfl (hopen ha hcb) (.inr (.inr ⟨he, rfl⟩))
  | readEnd t space hp ha hcb he =>
    have h4 := (hi.pend t space hp).2.2.2
    have he := he h4
    exact reads_done (e := EOF) (d := []) hi hp rfl rfl rfl (by simp) rfl (hopen ha hcb) (.inr (.inl ⟨rfl, rfl, he⟩))
  | readData t space d rest hp ha hcb hd h1 h2 =>
    refine reads_done (e := SUCCESS) (d := d) hi hp rfl rfl rfl hd rfl (hopen ha hcb) (.inl ⟨rfl, ?_⟩)
    intro h; rw [h] at h1; simp at h1
  | drain d rest hd ha hcb =>
    have hc := (hb.drain ha).2 hcb
    refine ⟨hi.fresh, hi.le, hi.pend, hi.start, hi.old, fun h => absurd hc h, ?_, hi.fin, hi.truth⟩
    obtain ⟨r, h⟩ := hi.pref
    refine ⟨r ++ d, ?_⟩
    show delivered s.log ++ (r ++ d) ++ rest = sent s.log
    rw [← h, hd]; simp
  | written e ha hcb hr => exact reads_other (l := [.writeDone s.pendWrite e 0]) hi (by simp [NoRead]) rfl rfl rfl rfl rfl
  | connected e ha hcb hr => exact reads_other (l := [.connectDone e]) hi (by simp [NoRead]) rfl rfl rfl rfl rfl
  | closed cb pre ha hpre =>
    refine reads_other (l := pre ++ [.fdClosed, .hook]) hi ?_ (by simp) rfl rfl rfl rfl
    rcases hpre with ⟨h, _⟩ | ⟨h, _⟩ <;> simp [h, NoRead]

/-- Writing and connecting. -/
structure Writes (s : St) : Prop where
  fresh : ∀ t, s.nextWrite ≤ t → (∀ d, .writeStarted t d ∉ s.log) ∧ writeDones t s.log = 0
  le : ∀ t, writeDones t s.log ≤ 1
  pend : s.regOut = true → s.writeCb = .write → s.pendWrite < s.nextWrite ∧ writeDones s.pendWrite s.log = 0 ∧ ∃ d, .writeStarted s.pendWrite d ∈ s.log
  start : ∀ t d, .writeStarted t d ∈ s.log → writeDones t s.log = 1 ∨ (s.regOut = true ∧ s.writeCb = .write ∧ s.pendWrite = t)
  out : s.outgoing = written (fun _ => []) s.log
  conn : connects s.log = if s.regOut = true ∧ s.writeCb = .connect then 1 else 0
  truth : ∀ t e n, .writeDone t e n ∈ s.log → ∃ d, .writeStarted t d ∈ s.log ∧ n ≤ d.length ∧ (e ≠ SUCCESS → n = 0)

theorem writes_init (c : Bool) : Writes (initial c) := by
  constructor <;> simp [initial, writeDones, written, connects]

/-- An observation that does not concern writing. -/
def NoWrite : Obs → Prop
  | .writeStarted _ _ => False
  | .writeDone _ _ _ => False
  | .connectStarted => False
  | .connectDone _ => False
  | _ => True

theorem noWrite_facts (l : List Obs) (h : ∀ o ∈ l, NoWrite o) : (∀ t, writeDones t l = 0) ∧ (∀ t d, .writeStarted t d ∉ l) ∧
    (∀ t e d, .writeDone t e d ∉ l) ∧ (∀ f, written f l = []) ∧ connects l = 0 := by
  refine ⟨?_, fun t d hm => h _ hm, fun t e d hm => h _ hm, ?_, ?_⟩
  · intro t
    unfold writeDones
    rw [List.countP_eq_zero]
    intro o ho
    have := h o ho
    cases o <;> simp_all [NoWrite]
  · induction l with
    | nil => intro f; rfl
    | cons o os ih =>
      intro f
      have h1 := h o (by simp)
      have h2 := ih (fun o ho => h o (by simp [ho])) f
      cases o <;> simp_all [NoWrite, written]
  · induction l with
    | nil => rfl
    | cons o os ih =>
      have h1 := h o (by simp)
      have h2 := ih (fun o ho => h o (by simp [ho]))
      have he : o :: os = [o] ++ os := rfl
      rw [he, connects_append, h2]
      clear he ih
      cases o <;> simp_all [NoWrite, connects]

/-- Nothing about writing changes. -/
theorem writes_other {s s' : St} {l : List Obs} (hi : Writes s) (hl : ∀ o ∈ l, NoWrite o) (e1 : s'.log = s.log ++ l) (e2 : s'.nextWrite = s.nextWrite ∨ s'.nextWrite = s.nextWrite + 1)
    (e3 : s'.pendWrite = s.pendWrite) (e4 : s'.outgoing = s.outgoing) (e5 : s'.regOut = s.regOut) (e6 : s'.writeCb = s.writeCb) : Writes s' := by
  obtain ⟨f1, f2, f3, f4, f5⟩ := noWrite_facts l hl
  constructor
  · intro t ht
    have := hi.fresh t (by omega)
    rw [e1, writeDones_append, f1]
    exact ⟨fun d => (by simp [this.1 d, f2]), by omega⟩
  · intro t
    have := hi.le t
    rw [e1, writeDones_append, f1]; omega
  · rw [e5, e6, e3, e1]
    intro h1 h2
    obtain ⟨a, b, d, hd⟩ := hi.pend h1 h2
    rw [writeDones_append, f1]
    exact ⟨by omega, by omega, d, by simp [hd]⟩
  · intro t d h
    rw [e1] at h
    have h : .writeStarted t d ∈ s.log := by simpa [f2] using h
    rw [e1, e3, e5, e6, writeDones_append, f1]
    exact hi.start t d h
  · rw [e4, e1, written_append, f4, List.append_nil]; exact hi.out
  · rw [e1, e5, e6, connects_append, f5, hi.conn]; simp
  · intro t e n h
    rw [e1] at h ⊢
    have h : .writeDone t e n ∈ s.log := by simpa [f3] using h
    obtain ⟨d, hd, hr⟩ := hi.truth t e n h
    exact ⟨d, by simp [hd], hr⟩

theorem writes_step {s s' : St} {m : Move} (hi : Writes s) (h : Trans s m s') : Writes s' := by
  cases h with
  | stack k h => exact writes_other (l := []) hi (by simp) (by simp) (.inl rfl) rfl rfl rfl rfl
  | peer d => exact writes_other (l := [.peerSent d]) hi (by simp [NoWrite]) rfl (.inl rfl) rfl rfl rfl rfl
  | fin => exact writes_other (l := [.peerClosed]) hi (by simp [NoWrite]) rfl (.inl rfl) rfl rfl rfl rfl
  | read space ha hc hd hsp => exact writes_other (l := [.readStarted s.nextRead]) hi (by simp [NoWrite]) rfl (.inl rfl) rfl rfl rfl rfl
  | writeFails e ha hc => exact writes_other (l := [.writeRefused s.nextWrite e]) hi (by simp [NoWrite]) rfl (.inr rfl) rfl rfl rfl rfl
  | connectFails e ha hc => exact writes_other (l := [.connectRefused e]) hi (by simp [NoWrite]) rfl (.inl rfl) rfl rfl rfl rfl
  | linger ha hc _ => exact writes_other (l := [.closeCalled]) hi (by simp [NoWrite]) rfl (.inl rfl) rfl rfl rfl rfl
  | readAgain t space hp ha hcb hm => exact writes_other (l := []) hi (by simp) (by simp) (.inl rfl) rfl rfl rfl rfl
  | readError t space e he hp ha hcb => exact writes_other (l := [.readDone t e []]) hi (by simp [NoWrite]) rfl (.inl rfl) rfl rfl rfl rfl
  | readEnd t space hp ha hcb he => exact writes_other (l := [.readDone t EOF []]) hi (by simp [NoWrite]) rfl (.inl rfl) rfl rfl rfl rfl
  | readData t space d rest hp ha hcb hd h1 h2 => exact writes_other (l := [.readDone t SUCCESS d]) hi (by simp [NoWrite]) rfl (.inl rfl) rfl rfl rfl rfl
  | drain d rest hd ha hcb => exact writes_other (l := []) hi (by simp) (by simp) (.inl rfl) rfl rfl rfl rfl
  | closed cb pre ha hpre =>
    refine writes_other (l := pre ++ [.fdClosed, .hook]) hi ?_ (by simp) (.inl rfl) rfl rfl rfl rfl
    rcases hpre with ⟨h, _⟩ | ⟨h, _⟩ <;> simp [h, NoWrite]
  | writeNow d n hn ha hc =>
    have hself : ∀ u, writeDones u [.writeStarted s.nextWrite d, .writeDone s.nextWrite SUCCESS n] = if s.nextWrite = u then 1 else 0 := by
      intro u; unfold writeDones; by_cases h : s.nextWrite = u <;> simp [h]
    have hlog : s.log ++ [.writeStarted s.nextWrite d] ++ [.writeDone s.nextWrite SUCCESS n] = s.log ++ [.writeStarted s.nextWrite d, .writeDone s.nextWrite SUCCESS n] := by simp
    constructor <;> simp only [hlog]
    · intro u hu
      have := hi.fresh u (by omega)
      rw [writeDones_append, hself, if_neg (by omega)]
      refine ⟨fun d => ?_, by omega⟩
      simp [this.1 d]; omega
    · intro u
      rw [writeDones_append, hself]
      have := hi.le u
      split
      · rename_i h; subst h; have := (hi.fresh _ (Nat.le_refl _)).2; omega
      · omega
    · intro h1 h2
      obtain ⟨a, b, d', hd'⟩ := hi.pend h1 h2
      rw [writeDones_append, hself, if_neg (by omega)]
      exact ⟨by omega, by omega, d', by simp [hd']⟩
    · intro t d' h
      rw [writeDones_append, hself]
      simp at h
      rcases h with h | ⟨h, _⟩
      · have hne : s.nextWrite ≠ t := by
          intro e; subst e; exact (hi.fresh _ (Nat.le_refl _)).1 d' h
        rw [if_neg hne]
        exact hi.start t d' h
      · subst h
        left
        have := (hi.fresh _ (Nat.le_refl _)).2
        simp; omega
    · rw [written_append, hi.out]; simp [written]
    · rw [connects_append, hi.conn]; simp [connects]
    · intro t e k h
      simp at h
      rcases h with h | ⟨rfl, rfl, rfl⟩
      · obtain ⟨d', hd', hr⟩ := hi.truth t e k h
        exact ⟨d', by simp [hd'], hr⟩
      · exact ⟨d, by simp, hn, fun h => absurd rfl h⟩
  | writeLater d ha hc hd hk =>
    have hself : ∀ u, writeDones u [.writeStarted s.nextWrite d] = 0 := by
      intro u; simp [writeDones]
    constructor
    · intro u hu
      have hu : s.nextWrite + 1 ≤ u := hu
      have := hi.fresh u (by omega)
      rw [writeDones_append, hself]
      refine ⟨fun d => ?_, by omega⟩
      simp [this.1 d]; omega
    · intro u
      rw [writeDones_append, hself]
      have := hi.le u
      omega
    · intro h1 h2
      show s.nextWrite < s.nextWrite + 1 ∧ writeDones s.nextWrite (s.log ++ [.writeStarted s.nextWrite d]) = 0 ∧ ∃ d', .writeStarted s.nextWrite d' ∈ (s.log ++ [.writeStarted s.nextWrite d])
      rw [writeDones_append, hself, (hi.fresh _ (Nat.le_refl _)).2]
      exact ⟨by omega, by omega, d, by simp⟩
    · intro t d' h
      rw [writeDones_append, hself]
      simp at h
      rcases h with h | ⟨h, _⟩
      · left
        exact hd t d' h
      · subst h
        right
        exact ⟨rfl, rfl, rfl⟩
    · show s.outgoing = written _ (s.log ++ _)
      rw [written_append, hi.out]; simp [written]
    · show connects (s.log ++ _) = _
      rw [connects_append, hk]; simp [connects]
    · intro t e k h
      simp at h
      obtain ⟨d', hd', hr⟩ := hi.truth t e k h
      exact ⟨d', by simp [hd'], hr⟩
  | connectNow ha hc =>
    have hlog : s.log ++ [.connectStarted] ++ [.connectDone SUCCESS] = s.log ++ [.connectStarted, .connectDone SUCCESS] := by simp
    have hself : ∀ u, writeDones u [.connectStarted, .connectDone SUCCESS] = 0 := by intro u; simp [writeDones]
    constructor <;> simp only [hlog]
    · intro u hu
      have := hi.fresh u hu
      rw [writeDones_append, hself]
      exact ⟨fun d => (by simp [this.1 d]), by omega⟩
    · intro u
      have := hi.le u
      rw [writeDones_append, hself]; omega
    · intro h1 h2
      obtain ⟨a, b, d', hd'⟩ := hi.pend h1 h2
      rw [writeDones_append, hself]
      exact ⟨a, by omega, d', by simp [hd']⟩
    · intro t d h
      rw [writeDones_append, hself]
      exact hi.start t d (by simpa using h)
    · rw [written_append, hi.out]; simp [written]
    · rw [connects_append, hi.conn]; simp [connects]
    · intro t e k h
      obtain ⟨d', hd', hr⟩ := hi.truth t e k (by simpa using h)
      exact ⟨d', by simp [hd'], hr⟩
  | connectLater ha hc hd hk =>
    have hself : ∀ u, writeDones u [.connectStarted] = 0 := by intro u; simp [writeDones]
    constructor
    · intro u hu
      have := hi.fresh u hu
      rw [writeDones_append, hself]
      exact ⟨fun d => (by simp [this.1 d]), by omega⟩
    · intro u
      have := hi.le u
      rw [writeDones_append, hself]; omega
    · intro h1 h2
      cases h2
    · intro t d h
      rw [writeDones_append, hself]
      left
      exact hd t d (by simpa using h)
    · show s.outgoing = written _ (s.log ++ _)
      rw [written_append, hi.out]; simp [written]
    · show connects (s.log ++ _) = _
      rw [connects_append, hk]; simp [connects]
    · intro t e k h
      obtain ⟨d', hd', hr⟩ := hi.truth t e k (by simpa using h)
      exact ⟨d', by simp [hd'], hr⟩
  | written e ha hcb hr =>
    obtain ⟨p1, p2, pd, p3⟩ := hi.pend hr hcb
    have hself : ∀ u, writeDones u [.writeDone s.pendWrite e 0] = if s.pendWrite = u then 1 else 0 := by
      intro u; unfold writeDones; by_cases h : s.pendWrite = u <;> simp [h]
    constructor
    · intro u hu
      have hu : s.nextWrite ≤ u := hu
      have := hi.fresh u hu
      rw [writeDones_append, hself, if_neg (by omega)]
      exact ⟨fun d => (by simp [this.1 d]), by omega⟩
    · intro u
      have := hi.le u
      rw [writeDones_append, hself]
      split
      · rename_i h; subst h; omega
      · omega
    · intro h1 h2
      cases h1
    · intro t d h
      rw [writeDones_append, hself]
      left
      rcases hi.start t d (by simpa using h) with h | ⟨_, _, h⟩
      · rw [if_neg (by intro e; subst e; omega)]; omega
      · subst h; simp; omega
    · show s.outgoing = written _ (s.log ++ _)
      rw [written_append, hi.out]; simp [written]
    · show connects (s.log ++ _) = _
      rw [connects_append, hi.conn]; simp [connects, hcb]
    · intro t e' k h
      simp at h
      rcases h with h | ⟨rfl, rfl, rfl⟩
      · obtain ⟨d', hd', hr⟩ := hi.truth t e' k h
        exact ⟨d', by simp [hd'], hr⟩
      · exact ⟨pd, by simp [p3], by omega, fun _ => rfl⟩
  | connected e ha hcb hr =>
    have hself : ∀ u, writeDones u [.connectDone e] = 0 := by intro u; simp [writeDones]
    constructor
    · intro u hu
      have := hi.fresh u hu
      rw [writeDones_append, hself]
      exact ⟨fun d => (by simp [this.1 d]), by omega⟩
    · intro u
      have := hi.le u
      rw [writeDones_append, hself]; omega
    · intro h1 h2
      cases h1
    · intro t d h
      rw [writeDones_append, hself]
      left
      rcases hi.start t d (by simpa using h) with h | ⟨_, h, _⟩
      · exact h
      · rw [hcb] at h; cases h
    · show s.outgoing = written _ (s.log ++ _)
      rw [written_append, hi.out]; simp [written]
    · show connects (s.log ++ _) = _
      rw [connects_append, hi.conn]; simp [connects, hcb, hr]
    · intro t e k h
      obtain ⟨d', hd', hr⟩ := hi.truth t e k (by simpa using h)
      exact ⟨d', by simp [hd'], hr⟩

theorem reach_inv {c : Bool} {s : St} (h : Reach Rules c s) : Base s ∧ Once s ∧ Reads s ∧ Writes s := by
  induction h with
  | init => exact ⟨base_init c, once_init c, reads_init c, writes_init c⟩
  | step h hr hs ih =>
    obtain ⟨hb, ho, hrd, hw⟩ := ih
    have ht := step_trans hb hr hs
    exact ⟨base_step hb ht, once_step hb ho ht, reads_step hb hrd ht, writes_step hw ht⟩

/-! ### C33: theorems -/

/-- C33 (part): within the rules of use, the descriptor is closed at most once and the close hook is called at most once, directly after
the descriptor was closed and only after the user asked for it; after the hook no handler is called (only the peer may still act), and
the memory of the socket is not used any more.
Missing for the full property: a close timer that expires while it is armed (`timer_at_once_is_used_after_close` shows that the claim fails). -/
theorem closed_once_partial {c : Bool} {s : St} (h : Reach Rules c s) :
    s.ub = false ∧ s.log.count .fdClosed ≤ 1 ∧ s.log.count .hook ≤ 1 ∧ s.log.count .fdClosed = s.log.count .hook ∧
      (.hook ∈ s.log → ∃ a b, s.log = a ++ [.fdClosed, .hook] ++ b ∧ .closeCalled ∈ a ∧ ∀ o ∈ b, o = .peerClosed ∨ ∃ d, o = .peerSent d) := by
  obtain ⟨hb, ho, _, _⟩ := reach_inv h
  refine ⟨hb.ub, ?_, ?_, by rw [ho.fd, ho.hook], ?_⟩
  · rw [ho.fd]; split <;> omega
  · rw [ho.hook]; split <;> omega
  · intro hm
    refine ho.last ?_
    cases ha : s.alive with
    | false => rfl
    | true =>
      have := ho.hook
      rw [ha, if_pos rfl, List.count_eq_zero] at this
      exact absurd hm this

/-- C33 (part): once `cio_socket_close` was called, either the close hook was called, or the close timer is running, and when it expires
the descriptor is closed and the hook is called. -/
theorem close_completes_partial {c : Bool} {s : St} (h : Reach Rules c s) (hc : .closeCalled ∈ s.log) :
    .hook ∈ s.log ∨ (s.timerArmed = true ∧ (s.stack = [] → ∃ s', step s .timeout = some s' ∧ s'.log = s.log ++ [.fdClosed, .hook])) := by
  obtain ⟨hb, ho, _, _⟩ := reach_inv h
  cases ha : s.alive with
  | false =>
    left
    have := ho.hook
    rw [ha] at this
    exact List.count_pos_iff.1 (by rw [this]; simp)
  | true =>
    right
    have ht : s.timerArmed = true := (hb.drainTimer ha).1 ((hb.drain ha).1 hc)
    refine ⟨ht, fun hst => ?_⟩
    refine ⟨resetConnection { s with timerArmed := false }, ?_, ?_⟩
    · unfold step
      rw [if_neg (by rw [hb.ub]; simp), hst]
      simp only
      rw [if_pos ht]
    · unfold resetConnection closeSocket guarded
      rw [if_pos ha]

/-- C33 (part): without a close timeout, or once a read reported the end of the stream, `cio_socket_close` closes the descriptor and calls
the hook before it returns. -/
theorem close_immediate_partial {c : Bool} {s s' : St} (h : Reach Rules c s) (hp : c = false ∨ ∃ t, .readDone t EOF [] ∈ s.log)
    {a b e d : Bool} (hs : step s (.close a b e d) = some s') : s'.log = s.log ++ [.closeCalled, .fdClosed, .hook] := by
  have hinv : s.closeTimeout = c ∧ ((∃ t, .readDone t EOF [] ∈ s.log) → s.peerClosed = true) := by
    clear hs hp
    induction h with
    | init => exact ⟨rfl, fun h => (by obtain ⟨t, h⟩ := h; cases h)⟩
    | @step s s' m h hr hs ih =>
      obtain ⟨hb, _, _, _⟩ := reach_inv h
      have ht := step_trans hb hr hs
      cases ht with
      | stack => exact ih
      | readAgain => exact ih
      | drain => exact ih
      | readEnd => exact ⟨ih.1, fun _ => rfl⟩
      | readError t space e he hp ha hcb =>
        refine ⟨ih.1, fun h => ih.2 ?_⟩
        obtain ⟨u, hu⟩ := h
        have hu : .readDone u EOF [] ∈ s.log ++ [.readDone t e []] := hu
        rcases List.mem_append.1 hu with hu | hu
        · exact ⟨u, hu⟩
        · simp at hu; rw [← hu.2] at he; exact absurd he (by decide)
      | readData t space d rest hp ha hcb hd h1 h2 =>
        refine ⟨ih.1, fun h => ih.2 ?_⟩
        obtain ⟨u, hu⟩ := h
        have hu : .readDone u EOF [] ∈ s.log ++ [.readDone t SUCCESS d] := hu
        rcases List.mem_append.1 hu with hu | hu
        · exact ⟨u, hu⟩
        · simp at hu; rw [hu.2.2] at h1; simp at h1
      | closed cb pre ha hpre =>
        refine ⟨ih.1, fun h => ih.2 ?_⟩
        obtain ⟨u, hu⟩ := h
        rcases hpre with ⟨h, _⟩ | ⟨h, _⟩ <;> exact ⟨u, by simpa [h] using hu⟩
      | _ => exact ⟨ih.1, fun h => ih.2 (by simpa using h)⟩
  have key : ∀ s : St, s.alive = true → (closeSocket { s with log := s.log ++ [.closeCalled] }).log = s.log ++ [.closeCalled, .fdClosed, .hook] := by
    intro s ha
    unfold closeSocket guarded
    rw [if_pos ha]
    simp
  unfold step at hs
  split at hs
  · cases hs
  · have hc : s.alive = true ∧ s' = close s a b e d := by
      cases hst : s.stack with
      | nil => rw [hst] at hs; cases hs
      | cons i k =>
        rw [hst] at hs
        cases i with
        | afterArm => cases hs
        | user =>
          have hs : (if s.alive = true then some (close s a b e d) else none) = some s' := hs
          by_cases ha : s.alive = true
          · rw [if_pos ha] at hs; injection hs with hs; exact ⟨ha, hs.symm⟩
          · rw [if_neg ha] at hs; cases hs
    obtain ⟨ha, hc⟩ := hc
    subst hc
    unfold close
    simp only
    rcases hp with hp | hp
    · split
      · exact key s ha
      · rw [if_neg (by rw [hinv.1, hp]; simp)]; exact key s ha
    · rw [if_pos (hinv.2 hp)]; exact key s ha

/-- C33 (part): a read handler is called at most once and only for a read that was started; the bytes handed to the handlers, in this order,
are a prefix of what the peer sent – all that arrived and is not waiting in the kernel while the socket is open.  A handler that is told of
success gets at least one byte; one that is told of the end of the stream gets none, and the peer closed its side and every byte was
delivered before; one that is told of an error gets none. -/
theorem reads_truthful_partial {c : Bool} {s : St} (h : Reach Rules c s) :
    (∀ t, readDones t s.log ≤ 1) ∧ (∀ t e d, .readDone t e d ∈ s.log → .readStarted t ∈ s.log) ∧ delivered s.log <+: sent s.log ∧
      (.closeCalled ∉ s.log → delivered s.log ++ s.incoming = sent s.log) ∧
      (∀ a b t e d, s.log = a ++ .readDone t e d :: b →
        (e = SUCCESS ∧ d ≠ []) ∨ (e = EOF ∧ d = [] ∧ .peerClosed ∈ a ∧ delivered a = sent a) ∨ (e < 0 ∧ d = [])) := by
  obtain ⟨_, _, hr, _⟩ := reach_inv h
  refine ⟨hr.le, hr.old, ?_, hr.open_, hr.truth⟩
  obtain ⟨rest, h⟩ := hr.pref
  exact ⟨rest ++ s.incoming, by rw [← h, List.append_assoc]⟩

/-- C33 (part): a write handler is called at most once and only for a write that was started, with a number of bytes not above the length of
the data (zero after an error); the bytes the operating system accepted are those that were reported, in this order; a write that was
started is answered or waits for the socket to become writable. -/
theorem writes_truthful_partial {c : Bool} {s : St} (h : Reach Rules c s) :
    (∀ t, writeDones t s.log ≤ 1) ∧
      (∀ t e n, .writeDone t e n ∈ s.log → ∃ d, .writeStarted t d ∈ s.log ∧ n ≤ d.length ∧ (e ≠ SUCCESS → n = 0)) ∧
      s.outgoing = written (fun _ => []) s.log ∧
      (∀ t d, .writeStarted t d ∈ s.log → writeDones t s.log = 0 → s.alive = true → s.stack = [] →
        ∀ e, ∃ s', step s (.writable e) = some s' ∧ s'.log = s.log ++ [.writeDone t (e.getD SUCCESS) 0]) ∧
      (connects s.log = 0 ∨ connects s.log = 1) := by
  obtain ⟨hb, _, _, hw⟩ := reach_inv h
  refine ⟨hw.le, hw.truth, hw.out, ?_, ?_⟩
  · intro t d hm h0 ha hst e
    rcases hw.start t d hm with h | ⟨h1, h2, h3⟩
    · omega
    · refine ⟨writeCallback { s with regOut := false } e, ?_, ?_⟩
      · unfold step
        rw [if_neg (by rw [hb.ub]; simp), hst]
        simp only
        rw [if_pos (by rw [hb.live ha, h1]; rfl)]
      · unfold writeCallback call
        simp only [h2, h3]
  · rw [hw.conn]; split <;> simp

/-- No spurious wake-ups: the event loop reports the socket as readable only if a read does not say EAGAIN. -/
def NoSpurious (s : St) (m : Move) : Prop :=
  Rules s m ∧ ∀ u r, m = .readable u r → ∀ t space, s.pendRead = some (t, space) → osRead s space r ≠ .again

theorem reach_mono {P Q : St → Move → Prop} (hpq : ∀ s m, P s m → Q s m) {c : Bool} {s : St} (h : Reach P c s) : Reach Q c s := by
  induction h with
  | init => exact .init
  | step h hr hs ih => exact .step ih (hpq _ _ hr) hs

/-- C33 (part): without spurious wake-ups a read that was started is answered or waits for the socket to become readable; when
the socket is readable then, the handler is called.  `pending_read_lost` shows that with spurious wake-ups it may wait for ever. -/
theorem read_not_forgotten_partial {c : Bool} {s : St} (h : Reach NoSpurious c s) {t : Nat} (hm : .readStarted t ∈ s.log) (h0 : readDones t s.log = 0)
    (ho : .closeCalled ∉ s.log) :
    s.alive = true ∧ s.regIn = true ∧ (s.stack = [] → s.incoming ≠ [] → ∀ n, ∃ s' d, step s (.readable true (.bytes n)) = some s' ∧
      d ≠ [] ∧ d <+: s.incoming ∧ s'.log = s.log ++ [.readDone t SUCCESS d]) := by
  have hreg : .closeCalled ∉ s.log → (∃ x, s.pendRead = some x) → s.regIn = true := by
    clear hm h0 ho
    induction h with
    | init => intro _ ⟨x, hx⟩; cases hx
    | @step s s' m h hr hs ih =>
      intro ho hx
      obtain ⟨hb, _, _, _⟩ := reach_inv (reach_mono (fun _ _ h => h.1) h)
      have ht := step_trans hb hr.1 hs
      cases ht with
      | readAgain t space hp ha hcb hm =>
        obtain ⟨u, r, e, hag⟩ := hm
        exact absurd hag (hr.2 u r e t space hp)
      | readError => obtain ⟨x, hx⟩ := hx; cases hx
      | readEnd => obtain ⟨x, hx⟩ := hx; cases hx
      | readData => obtain ⟨x, hx⟩ := hx; cases hx
      | drain d rest hd ha hcb => exact absurd ((hb.drain ha).2 hcb) ho
      | closed cb pre ha hpre =>
        exfalso
        rcases hpre with ⟨h, _⟩ | ⟨_, h⟩
        · apply ho; simp [h]
        · apply ho
          have : .closeCalled ∈ s.log := by
            rcases h with h | h
            · exact (hb.drain ha).2 h
            · exact (hb.drain ha).2 ((hb.drainTimer ha).2 h)
          simp [this]
      | read => rfl
      | linger => rfl
      | stack => exact ih ho hx
      | _ => exact ih (by simpa using ho) hx
  obtain ⟨hb, _, hrd, _⟩ := reach_inv (reach_mono (fun _ _ h => h.1) h)
  have hp : ∃ n, s.pendRead = some (t, n) := by
    rcases hrd.start t hm with h | h
    · omega
    · exact h
  obtain ⟨space, hp⟩ := hp
  have ha : s.alive = true := by
    cases ha : s.alive with
    | true => rfl
    | false => exact absurd (hb.dead ha).2.2 ho
  have hr := hreg ho ⟨_, hp⟩
  refine ⟨ha, hr, ?_⟩
  intro hst hin n
  have hsp := (hrd.pend t space hp).2.2.2
  have hcb : s.readCb = .read := by
    cases hcb : s.readCb with
    | read => rfl
    | none => exact absurd hcb (hb.regIn ha hr).1
    | drain => exact absurd ((hb.drain ha).2 hcb) ho
  have hlen : 0 < s.incoming.length := List.length_pos_iff.2 hin
  have hd0 : (taken s space n).length ≠ 0 := by
    unfold taken; rw [List.length_take]; omega
  have hos : osRead { s with regIn := false } space (.bytes n) = .bytes n := by
    show (if _ then _ else _) = _
    rw [if_neg]
    rintro ⟨_, h, _⟩
    exact hin h
  refine ⟨readCallback s t space true (.bytes n), taken s space n, ?_, ?_, ?_, ?_⟩
  · unfold step
    rw [if_neg (by rw [hb.ub]; simp), hst]
    simp only
    rw [if_pos (by rw [hb.live ha, hr]; rfl), hcb, hp]
  · intro h; rw [h] at hd0; simp at hd0
  · exact List.take_prefix _ _
  · unfold readCallback
    simp only [Bool.not_true, Bool.false_eq_true, if_false]
    rw [hos]
    simp only
    have : (taken { s with regIn := false } space n).length ≠ 0 := hd0
    rw [if_neg this]
    rfl

/-! ### Non-vacuity and negations -/


instance (l : List Obs) : Decidable (ReadsDone l) :=
  decidable_of_iff (l.all (fun o => match o with | .readStarted t => readDones t l == 1 | _ => true) = true) (by
    unfold ReadsDone
    rw [List.all_eq_true]
    constructor
    · intro h t ht; simpa using h _ ht
    · intro h o ho
      cases o <;> simp
      exact h _ ho)

instance (l : List Obs) : Decidable (WritesDone l) :=
  decidable_of_iff (l.all (fun o => match o with | .writeStarted t _ => writeDones t l == 1 | _ => true) = true) (by
    unfold WritesDone
    rw [List.all_eq_true]
    constructor
    · intro h t d ht; simpa using h _ ht
    · intro h o ho
      cases o <;> simp
      exact h _ _ ho)

instance (s : St) (m : Move) : Decidable (Rules s m) := by
  cases m with
  | readable u r => cases r <;> unfold Rules <;> infer_instance
  | _ => unfold Rules; infer_instance

/-- Runs a sequence of moves as long as they keep the rules. -/
def runRules : St → List Move → Option St
  | s, [] => some s
  | s, m :: ms => if Rules s m then (step s m).bind fun s => runRules s ms else none

theorem runRules_reach {c : Bool} {s s' : St} {ms : List Move} (h : Reach Rules c s) (hr : runRules s ms = some s') : Reach Rules c s' := by
  induction ms generalizing s with
  | nil => injection hr with hr; subst hr; exact h
  | cons m ms ih =>
    unfold runRules at hr
    split at hr
    · rename_i hm
      cases hs : step s m with
      | none => rw [hs] at hr; cases hr
      | some s1 =>
        rw [hs] at hr
        exact ih (.step h hm hs) hr
    · cases hr

/-- A session: connect, write (first short, then waiting), read twice, the peer closes, close. -/
def exampleMoves : List Move :=
  [.enter, .connect .inProgress true, .leave, .writable none, .write [1, 2, 3] (.sent 2) true, .write [3] .again true, .leave, .leave,
   .writable none, .read 10 true, .leave, .peerSends [7, 8], .readable true (.bytes 5), .read 1 true, .leave, .peerCloses,
   .readable true (.bytes 5), .close true true false true, .leave, .leave]

set_option maxRecDepth 20000 in
example : (runRules (initial true) exampleMoves).map (fun s => (s.alive, s.outgoing, s.log)) = some (false, [1, 2],
    [.connectStarted, .connectDone SUCCESS, .writeStarted 0 [1, 2, 3], .writeDone 0 SUCCESS 2, .writeStarted 1 [3], .writeDone 1 SUCCESS 0,
     .readStarted 0, .peerSent [7, 8], .readDone 0 SUCCESS [7, 8], .readStarted 1, .peerClosed, .readDone 1 EOF [], .closeCalled, .fdClosed,
     .hook]) := by decide

/-- Closing with a timeout: the peer closes in time / does not. -/
example : (runRules (initial true) [.enter, .read 4 true, .close true true false true, .leave, .peerCloses, .readable true (.bytes 1), .leave]).map
    (fun s => s.log) = some [.readStarted 0, .closeCalled, .peerClosed, .fdClosed, .hook] := by decide

example : (runRules (initial true) [.enter, .close true true false true, .leave, .timeout, .leave]).map
    (fun s => s.log) = some [.closeCalled, .fdClosed, .hook] := by decide

/-! ### Where the full property fails -/

/-- A wake-up without data (EAGAIN) takes the socket out of the event loop's read set and calls nobody: the pending read is never
answered, although data arrives afterwards. -/
theorem pending_read_lost : ∃ s, Reach Rules false s ∧ .readStarted 0 ∈ s.log ∧ s.alive = true ∧ s.incoming = [1] ∧
    ∀ ms s', (∀ m ∈ ms, (∃ u r, m = .readable u r) ∨ (∃ d, m = .peerSends d) ∨ m = .peerCloses) → run s ms = some s' → readDones 0 s'.log = 0 := by
  have hr : ∃ s, runRules (initial false) [.enter, .read 10 true, .leave, .readable true .again, .peerSends [1]] = some s ∧ .readStarted 0 ∈ s.log ∧
      s.alive = true ∧ s.incoming = [1] ∧ s.regIn = false ∧ readDones 0 s.log = 0 := ⟨_, rfl, by decide, by decide, by decide, by decide, by decide⟩
  obtain ⟨s, h1, h2, h3, h4, h5, h6⟩ := hr
  refine ⟨s, runRules_reach .init h1, h2, h3, h4, ?_⟩
  clear h1 h2 h3 h4
  intro ms
  induction ms generalizing s with
  | nil => intro s' _ h; injection h with h; subst h; exact h6
  | cons m ms ih =>
    intro s' hm hrun
    unfold run at hrun
    cases hs : step s m with
    | none => rw [hs] at hrun; cases hrun
    | some s1 =>
      rw [hs] at hrun
      have hm' : ∀ m ∈ ms, (∃ u r, m = .readable u r) ∨ (∃ d, m = .peerSends d) ∨ m = .peerCloses := fun x hx => hm x (by simp [hx])
      have key : s1.regIn = false ∧ readDones 0 s1.log = 0 := by
        unfold step at hs
        split at hs
        · cases hs
        · rcases hm m (by simp) with ⟨u, r, e⟩ | ⟨d, e⟩ | e
          · subst e
            cases hst : s.stack with
            | nil => rw [hst] at hs; simp [h5] at hs
            | cons i k => rw [hst] at hs; cases i <;> simp at hs
          · subst e
            simp only at hs
            split at hs
            · cases hs
            · injection hs with hs; subst hs
              exact ⟨h5, by rw [readDones_append, h6]; simp [readDones]⟩
          · subst e
            injection hs with hs; subst hs
            exact ⟨h5, by rw [readDones_append, h6]; simp [readDones]⟩
      exact ih s1 key.1 key.2 s' hm' hrun

/-- After `cio_socket_close` with a timeout only one chunk of up to 20 bytes is read: if the peer had sent more before it closed, its
closing is not noticed and the socket stays open until the timer expires, which resets the connection. -/
theorem peer_close_unnoticed : ∃ s, Reach Rules true s ∧ .peerClosed ∈ s.log ∧ .closeCalled ∈ s.log ∧ s.alive = true ∧ s.stack = [] ∧
    ∀ u r, step s (.readable u r) = none := by
  have hr : ∃ s, runRules (initial true) [.enter, .close true true false true, .leave, .peerSends [1], .readable true (.bytes 1), .peerCloses] = some s ∧
      .peerClosed ∈ s.log ∧ .closeCalled ∈ s.log ∧ s.alive = true ∧ s.stack = [] ∧ s.regIn = false :=
    ⟨_, rfl, by decide, by decide, by decide, by decide, by decide⟩
  obtain ⟨s, h1, h2, h3, h4, h5, h6⟩ := hr
  refine ⟨s, runRules_reach .init h1, h2, h3, h4, h5, ?_⟩
  intro u r
  unfold step
  split
  · rfl
  · rw [h5]; simp [h6]

/-- If the close timer expires while it is being armed, the socket is used after its close hook was called. -/
theorem timer_at_once_is_used_after_close : ∃ s, run (initial true) [.enter, .close true true true true, .leave, .continue true] = some s ∧
    .hook ∈ s.log ∧ s.ub = true := ⟨_, rfl, by decide, by decide⟩

/-- A read into a buffer that is full is reported as the end of the stream, although the peer has not closed. -/
theorem full_buffer_reported_as_end : ∃ s, run (initial true) [.enter, .read 0 true, .leave, .peerSends [1], .readable true (.bytes 1)] = some s ∧
    .readDone 0 EOF [] ∈ s.log ∧ .peerClosed ∉ s.log ∧ sent s.log = [1] ∧ delivered s.log = [] :=
  ⟨_, rfl, by decide, by decide, by decide, by decide⟩

/-- A read that was refused because epoll_ctl failed stays set; its handler may be called later (if the descriptor is registered by another
operation).  The machine shows the registration that is left behind. -/
theorem refused_read_stays : ∃ s, run (initial true) [.enter, .read 4 false] = some s ∧ .readRefused EPOLL_FAILED ∈ s.log ∧ s.regIn = true ∧
    s.pendRead = some (0, 4) := ⟨_, rfl, by decide, by decide, by decide⟩

/-- A write that has to wait while a connect is pending takes over the connect's callback: the connect handler is never called and the write
handler is told the result of the connect. -/
theorem write_forgets_connect : ∃ s, run (initial true) [.enter, .connect .inProgress true, .write [1] .again true, .leave, .writable none, .leave] = some s ∧
    connects s.log = 1 ∧ s.regOut = false ∧ .writeDone 0 SUCCESS 0 ∈ s.log := ⟨_, rfl, by decide, by decide, by decide⟩

end Cio.Socket
