import Verif.StreamSocket.Lemmas
/-
What single moves of the socket do.
-/
namespace Cio.StreamSocket
open Socket (St Obs Move)

theorem sock_peer {s k : St} {d : List UInt8} (h : Socket.step s (.peerSends d) = some k) :
    s.incomingEnd = false ∧ k = { s with incoming := s.incoming ++ d, log := s.log ++ [.peerSent d] } := by
  unfold Socket.step at h
  split at h
  · cases h
  · dsimp only at h
    split at h
    · cases h
    · next hn =>
      cases h
      exact ⟨by simpa using hn, rfl⟩

theorem sock_fin {s k : St} (h : Socket.step s .peerCloses = some k) : k = { s with incomingEnd := true, log := s.log ++ [.peerClosed] } := by
  unfold Socket.step at h
  split at h
  · cases h
  · cases h; rfl

/-- The stack at a move that needs it empty, or with user code on top. -/
theorem sock_stack {s k : St} {m : Move} (h : Socket.step s m = some k) :
    ((m = .enter ∨ m = .timeout ∨ (∃ u r, m = .readable u r) ∨ (∃ e, m = .writable e)) → s.stack = []) ∧
    ((m = .leave ∨ (∃ n b, m = .read n b) ∨ (∃ d r b, m = .write d r b) ∨ (∃ a b c d, m = .close a b c d)) → ∃ k, s.stack = .user :: k) := by
  unfold Socket.step at h
  split at h
  · cases h
  · cases hst : s.stack with
    | nil =>
      rw [hst] at h
      refine ⟨fun _ => rfl, ?_⟩
      rintro (e | ⟨n, b, e⟩ | ⟨d, r, b, e⟩ | ⟨a, b, c, d, e⟩) <;> subst e <;> cases h
    | cons i k =>
      rw [hst] at h
      refine ⟨?_, ?_⟩
      · rintro (e | e | ⟨u, r, e⟩ | ⟨e, he⟩)
        · subst e; cases h
        · subst e; cases h
        · subst e; cases h
        · subst he; cases h
      · cases i with
        | user => exact fun _ => ⟨k, rfl⟩
        | afterArm => rintro (e | ⟨n, b, e⟩ | ⟨d, r, b, e⟩ | ⟨a, b, c, d, e⟩) <;> subst e <;> cases h

theorem sock_ub {s k : St} {m : Move} (h : Socket.step s m = some k) : s.ub = false := by
  unfold Socket.step at h
  split at h
  · cases h
  · next hu => simpa using hu

theorem sock_enter {s k : St} (h : Socket.step s .enter = some k) : k = { s with stack := [.user] } := by
  have hst := (sock_stack h).1 (Or.inl rfl)
  have hu := sock_ub h
  unfold Socket.step at h
  rw [if_neg (by rw [hu]; simp), hst] at h
  cases h; rfl

theorem sock_leave {s k : St} (h : Socket.step s .leave = some k) : ∃ st, k = { s with stack := st } := by
  obtain ⟨st, hst⟩ := (sock_stack h).2 (Or.inl rfl)
  have hu := sock_ub h
  unfold Socket.step at h
  rw [if_neg (by rw [hu]; simp), hst] at h
  cases h; exact ⟨st, rfl⟩

/-- The socket is closed by the operating system's `close`. -/
def dead (s : St) : St :=
  { s with regIn := false, inLoop := false, timerArmed := false, alive := false, log := s.log ++ [.fdClosed, .hook], stack := .user :: s.stack }

theorem closeSocket_eq {s : St} (ha : s.alive = true) : Socket.closeSocket s = dead s := by
  unfold Socket.closeSocket Socket.guarded
  rw [if_pos ha]; rfl

theorem sock_timeout {s k : St} (ha : s.timerArmed = true → s.alive = true) (h : Socket.step s .timeout = some k) :
    s.timerArmed = true ∧ k = dead s := by
  have hst := (sock_stack h).1 (Or.inr (Or.inl rfl))
  have hu := sock_ub h
  unfold Socket.step at h
  rw [if_neg (by rw [hu]; simp), hst] at h
  dsimp only at h
  split at h
  · next ht =>
    cases h
    refine ⟨ht, ?_⟩
    unfold Socket.resetConnection
    rw [closeSocket_eq (by exact ha ht)]
    simp only [dead, hst]
  · cases h

theorem sock_read {s k : St} {n : Nat} (h : Socket.step s (.read n true) = some k) :
    s.alive = true ∧ k = { s with readCb := .read, pendRead := some (s.nextRead, n), nextRead := s.nextRead + 1, regIn := true, log := s.log ++ [.readStarted s.nextRead] } := by
  obtain ⟨st, hst⟩ := (sock_stack h).2 (Or.inr (Or.inl ⟨_, _, rfl⟩))
  have hu := sock_ub h
  unfold Socket.step at h
  rw [if_neg (by rw [hu]; simp), hst] at h
  dsimp only at h
  split at h
  · next ha => cases h; exact ⟨ha, rfl⟩
  · cases h

/-- The read is accepted whenever user code runs and the socket is open. -/
theorem sock_read_possible {s : St} (hu : s.ub = false) {st : List Socket.Item} (hst : s.stack = .user :: st) (ha : s.alive = true) (n : Nat) :
    ∃ k, Socket.step s (.read n true) = some k := by
  unfold Socket.step
  rw [if_neg (by rw [hu]; simp), hst]
  dsimp only
  rw [if_pos ha]
  exact ⟨_, rfl⟩

/-- Closing: the socket lingers or is closed at once. -/
theorem sock_close {s k : St} {a b d : Bool} (h : Socket.step s (.close a b false d) = some k) :
    s.alive = true ∧ ((s.closeTimeout = true ∧ k = { s with readCb := .drain, timerArmed := true, regIn := true, log := s.log ++ [.closeCalled] }) ∨
      ∃ cb, k = dead { s with readCb := cb, log := s.log ++ [.closeCalled] }) := by
  obtain ⟨st, hst⟩ := (sock_stack h).2 (Or.inr (Or.inr (Or.inr ⟨_, _, _, _, rfl⟩)))
  have hu := sock_ub h
  unfold Socket.step at h
  rw [if_neg (by rw [hu]; simp), hst] at h
  dsimp only at h
  split at h
  case isFalse => cases h
  next ha =>
  cases h
  refine ⟨ha, ?_⟩
  unfold Socket.close
  dsimp only
  split
  · refine Or.inr ⟨s.readCb, ?_⟩
    rw [closeSocket_eq (by exact ha)]
  · split
    · next hc =>
      unfold Socket.shutdownSocket
      dsimp only
      split
      · refine Or.inr ⟨s.readCb, ?_⟩
        unfold Socket.resetConnection
        rw [closeSocket_eq (by exact ha)]
      · split
        · refine Or.inr ⟨.drain, ?_⟩
          unfold Socket.resetConnection
          rw [closeSocket_eq (by exact ha)]
        · rw [if_neg (by simp)]
          unfold Socket.shutdownTail Socket.guarded
          dsimp only
          rw [if_pos ha]
          split
          · exact Or.inl ⟨hc, rfl⟩
          · refine Or.inr ⟨.drain, ?_⟩
            unfold Socket.resetConnection
            rw [closeSocket_eq (by exact ha)]
            rfl
    · refine Or.inr ⟨s.readCb, ?_⟩
      rw [closeSocket_eq (by exact ha)]

theorem sock_close_possible {s : St} (hu : s.ub = false) {st : List Socket.Item} (hst : s.stack = .user :: st) (ha : s.alive = true) (a b c d : Bool) :
    ∃ k, Socket.step s (.close a b c d) = some k := by
  unfold Socket.step
  rw [if_neg (by rw [hu]; simp), hst]
  dsimp only
  rw [if_pos ha]
  exact ⟨_, rfl⟩

/-- What `sendmsg` leads to. -/
inductive Sent (s : St) (d : List UInt8) : Socket.SendRes → St → Prop
  | now (n m : Nat) (hm : m ≤ d.length) : Sent s d (.sent n) { s with nextWrite := s.nextWrite + 1, outgoing := s.outgoing ++ d.take m, log := s.log ++ [.writeStarted s.nextWrite d] ++ [.writeDone s.nextWrite SUCCESS m], stack := .user :: s.stack }
  | later : Sent s d .again { s with nextWrite := s.nextWrite + 1, writeCb := .write, pendWrite := s.nextWrite, regOut := true, log := s.log ++ [.writeStarted s.nextWrite d] }
  | fails (e : Err) : Sent s d (.error e) { s with nextWrite := s.nextWrite + 1, log := s.log ++ [.writeRefused s.nextWrite e] }

theorem sock_write {s k : St} {d : List UInt8} {r : Socket.SendRes} (h : Socket.step s (.write d r true) = some k) : s.alive = true ∧ Sent s d r k := by
  obtain ⟨st, hst⟩ := (sock_stack h).2 (Or.inr (Or.inr (Or.inl ⟨_, _, _, rfl⟩)))
  have hu := sock_ub h
  unfold Socket.step at h
  rw [if_neg (by rw [hu]; simp), hst] at h
  dsimp only at h
  split at h
  case isFalse => cases h
  next ha =>
  cases h
  refine ⟨ha, ?_⟩
  cases r with
  | sent n => exact Sent.now n _ (Nat.min_le_right n d.length)
  | again => exact Sent.later
  | error e => exact Sent.fails e

theorem sock_write_possible {s : St} (hu : s.ub = false) {st : List Socket.Item} (hst : s.stack = .user :: st) (ha : s.alive = true) (d : List UInt8)
    (r : Socket.SendRes) : ∃ k, Socket.step s (.write d r true) = some k := by
  unfold Socket.step
  rw [if_neg (by rw [hu]; simp), hst]
  dsimp only
  rw [if_pos ha]
  exact ⟨_, rfl⟩

/-- The socket becomes writable while a write waits. -/
theorem sock_writable {s k : St} {err : Option Err} (hw : s.regOut = true → s.writeCb = .write) (h : Socket.step s (.writable err) = some k) :
    s.inLoop = true ∧ s.regOut = true ∧ k = { s with regOut := false, log := s.log ++ [.writeDone s.pendWrite (err.getD SUCCESS) 0], stack := .user :: s.stack } := by
  have hst := (sock_stack h).1 (Or.inr (Or.inr (Or.inr ⟨_, rfl⟩)))
  have hu := sock_ub h
  unfold Socket.step at h
  rw [if_neg (by rw [hu]; simp), hst] at h
  dsimp only at h
  split at h
  · next hg =>
    simp only [Bool.and_eq_true] at hg
    cases h
    refine ⟨hg.1, hg.2, ?_⟩
    unfold Socket.writeCallback
    dsimp only
    rw [hw hg.2]
    simp only [Socket.call, hst]
  · cases h

/-- What a readable socket leads to. -/
inductive Got (s : St) : Socket.ReadRes → St → Prop
  | again (r : Socket.ReadRes) (t n : Nat) (hp : s.pendRead = some (t, n)) (hr : Socket.osRead s n r = .again) : Got s r { s with regIn := false }
  | error (t n : Nat) (e : Err) (hp : s.pendRead = some (t, n)) : Got s (.error e) { s with regIn := false, pendRead := none, log := s.log ++ [.readDone t e []], stack := .user :: s.stack }
  | eof (t n m : Nat) (hp : s.pendRead = some (t, n)) (he : 0 < n → s.incoming = [] ∧ s.incomingEnd = true) :
    Got s (.bytes m) { s with regIn := false, pendRead := none, peerClosed := true, log := s.log ++ [.readDone t EOF []], stack := .user :: s.stack }
  | data (t n m : Nat) (d rest : List UInt8) (hp : s.pendRead = some (t, n)) (hd : s.incoming = d ++ rest) (h1 : d ≠ []) (h2 : d.length ≤ n) :
    Got s (.bytes m) { s with regIn := false, pendRead := none, incoming := rest, log := s.log ++ [.readDone t SUCCESS d], stack := .user :: s.stack }

theorem sock_readable {s k : St} {r : Socket.ReadRes} (hcb : s.readCb = .read) (hp : s.regIn = true → ∃ x, s.pendRead = some x)
    (h : Socket.step s (.readable true r) = some k) : Got s r k := by
  have hst := (sock_stack h).1 (Or.inr (Or.inr (Or.inl ⟨_, _, rfl⟩)))
  have hu := sock_ub h
  unfold Socket.step at h
  rw [if_neg (by rw [hu]; simp), hst] at h
  dsimp only at h
  split at h
  case isFalse => cases h
  next hg =>
  simp only [Bool.and_eq_true] at hg
  obtain ⟨⟨t, n⟩, hp⟩ := hp hg.2
  rw [hcb, hp] at h
  dsimp only at h
  cases h
  unfold Socket.readCallback
  dsimp only
  rw [if_neg (by simp)]
  have ho : Socket.osRead { s with regIn := false } n r = Socket.osRead s n r := rfl
  rw [ho]
  cases hr : Socket.osRead s n r with
  | again => exact Got.again r t n hp hr
  | error e =>
    have hre : r = .error e := by
      cases r with
      | bytes m => unfold Socket.osRead at hr; dsimp only at hr; split at hr <;> cases hr
      | again => cases hr
      | error e' => exact hr
    subst hre
    exact Got.error t n e hp
  | bytes m =>
    have hre : r = .bytes m ∧ ¬ (n ≠ 0 ∧ s.incoming = [] ∧ s.incomingEnd = false) := by
      cases r with
      | bytes m' =>
        unfold Socket.osRead at hr; dsimp only at hr
        split at hr
        · cases hr
        · next hn => cases hr; exact ⟨rfl, hn⟩
      | again => cases hr
      | error e' => cases hr
    obtain ⟨hre, hne⟩ := hre
    subst hre
    dsimp only
    have htk : Socket.taken { s with regIn := false } n m = s.incoming.take (min n (max m 1)) := rfl
    rw [htk]
    split
    · next hl =>
      refine Got.eof t n m hp (fun hn => ?_)
      rw [List.length_take] at hl
      have hi : s.incoming = [] := by
        apply List.length_eq_zero_iff.1
        have : 0 < min n (max m 1) := by omega
        omega
      refine ⟨hi, ?_⟩
      cases he : s.incomingEnd with
      | true => rfl
      | false => exact absurd ⟨by omega, hi, he⟩ hne
    · next hl =>
      have e : s.incoming.drop (s.incoming.take (min n (max m 1))).length = s.incoming.drop (min n (max m 1)) := by
        rw [List.length_take]
        by_cases hle : min n (max m 1) ≤ s.incoming.length
        · rw [Nat.min_eq_left hle]
        · rw [Nat.min_eq_right (by omega), List.drop_eq_nil_of_le (Nat.le_refl _), List.drop_eq_nil_of_le (by omega)]
      have g : Got s (.bytes m) _ := Got.data t n m (s.incoming.take (min n (max m 1))) (s.incoming.drop (min n (max m 1))) hp (List.take_append_drop _ _).symm
        (fun h => hl (by rw [h]; rfl)) (by rw [List.length_take]; omega)
      rw [← e] at g
      simp only [Socket.call]
      exact g

/-- The socket waits for the peer's end after it was closed. -/
theorem sock_drain {s k : St} {r : Socket.ReadRes} (hcb : s.readCb = .drain) (ha : s.regIn = true → s.inLoop = true → s.alive = true)
    (h : Socket.step s (.readable true r) = some k) :
    s.inLoop = true ∧ ((∃ d rest, s.incoming = d ++ rest ∧ k = { s with regIn := false, incoming := rest }) ∨ k = dead s) := by
  have hst := (sock_stack h).1 (Or.inr (Or.inr (Or.inl ⟨_, _, rfl⟩)))
  have hu := sock_ub h
  unfold Socket.step at h
  rw [if_neg (by rw [hu]; simp), hst] at h
  dsimp only at h
  split at h
  case isFalse => cases h
  next hg =>
  simp only [Bool.and_eq_true] at hg
  have hal := ha hg.2 hg.1
  rw [hcb] at h
  dsimp only at h
  cases h
  refine ⟨hg.1, ?_⟩
  unfold Socket.drainCallback
  dsimp only
  rw [if_neg (by simp)]
  split
  · exact Or.inl ⟨[], s.incoming, rfl, rfl⟩
  · right
    unfold Socket.cancelAndReset Socket.resetConnection
    rw [closeSocket_eq (by exact hal)]
    rfl
  · split
    · right
      rw [closeSocket_eq (by exact hal)]
      rfl
    · refine Or.inl ⟨s.incoming.take (Socket.taken { s with regIn := false } Socket.readCloseBufferSize _).length, _, (List.take_append_drop _ _).symm, rfl⟩

end Cio.StreamSocket
