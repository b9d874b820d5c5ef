import Verif.Echo.Props
import Verif.StreamSocket.Examples
/-
C98: connections the server forgets, and runs of the server.
-/
namespace Cio.Echo
open BufferedRead (UAct Handler Job World Call)
open StreamSocket (Sys Ev Write step Allowed follow settle answer)
open BufferedWrite (FirstEndsEarly flat)

/-- From one state of the server to a later one. -/
inductive Later (unit : Nat) (quiet : Bool) (p : Phase) (s : Sys) : Phase → Sys → Prop
  | refl : Later unit quiet p s p s
  | step {p' p'' : Phase} {s' s'' : Sys} {e : Ev} (h : Later unit quiet p s p' s') (ha : Allowed quiet s' e) (hs : step readHandler s' e = some s'')
    (hp : next unit p' s' s'' e = some p'') : Later unit quiet p s p'' s''

theorem later_reach {unit : Nat} {quiet c : Bool} {mem : List UInt8} {p p' : Phase} {s s' : Sys} (h : Reach unit quiet c mem p s) (hl : Later unit quiet p s p' s') :
    Reach unit quiet c mem p' s' := by
  induction hl with
  | refl => exact h
  | step _ ha hs hp ih => exact .step ih ha hs hp

theorem failed_stopped {unit : Nat} {p : Phase} {s : Sys} (i : Inv unit p s) (hx : ∃ x ∈ s.done, ¬ ToldSuccess x) : p = .stopped ∧ s.br.closed = false := by
  obtain ⟨x, hx, hn⟩ := hx
  obtain ⟨good, rest, g1, g2, -, g4⟩ := i.hist
  have hr : x ∈ rest := by
    rw [g1] at hx
    rcases List.mem_append.1 hx with q | q
    · exact absurd (g2 x q) hn
    · exact q
  cases p with
  | stopped =>
    rcases g4 with ⟨e, -⟩ | ⟨y, -, -, -, e⟩
    · rw [e] at hr; cases hr
    · exact ⟨rfl, e⟩
  | toConsume => obtain ⟨y, e1, e2, -⟩ := g4; rw [e1, List.mem_singleton] at hr; subst hr; exact absurd e2 hn
  | start => rw [show rest = [] from g4] at hr; cases hr
  | reading => rw [show rest = [] from g4] at hr; cases hr
  | toWrite d => rw [show rest = [] from g4] at hr; cases hr
  | writing => rw [show rest = [] from g4] at hr; cases hr
  | toRead => rw [show rest = [] from g4] at hr; cases hr

theorem stopped_step {unit : Nat} {p' : Phase} {s s' : Sys} {e : Ev} (i : Inv unit .stopped s) (hs : step readHandler s e = some s') (hp : next unit .stopped s s' e = some p') :
    s'.br.closed = s.br.closed ∧ s'.cur = none ∧ s'.done = s.done ∧ s'.br.received = s.br.received ∧ s'.br.calls = s.br.calls := by
  have hcur : s.cur = none := by
    cases hx : s.cur with
    | none => rfl
    | some x => have := i.cur.1 (by rw [hx]; rfl); cases this
  have hw : s.br.waiting = false := by
    cases hw : s.br.waiting with
    | false => rfl
    | true => have := i.wait hw; cases this
  have sock : ∀ {m : Socket.Move}, (Socket.step s.sock m).map (fun k => { s with sock := k }) = some s' →
      s'.br.closed = s.br.closed ∧ s'.cur = none ∧ s'.done = s.done ∧ s'.br.received = s.br.received ∧ s'.br.calls = s.br.calls := fun {m} hm => by
    cases hk : Socket.step s.sock m with
    | none => rw [hk] at hm; cases hm
    | some k => rw [hk] at hm; injection hm with hm; subst hm; exact ⟨rfl, hcur, rfl, rfl, rfl⟩
  cases e with
  | peerSends d => exact sock hs
  | peerCloses => exact sock hs
  | enter => exact sock hs
  | timeout => exact sock hs
  | leave =>
    unfold step at hs
    dsimp only at hs
    split at hs
    · cases hs
    · exact sock hs
  | user a os => cases a <;> cases hp
  | loop os =>
    unfold step at hs
    dsimp only at hs
    split at hs
    · cases hs
    cases hb : BufferedRead.step readHandler s.br (.loop SUCCESS) with
    | none => rw [hb] at hs; cases hs
    | some w =>
      rw [hb, Option.bind_some] at hs
      obtain ⟨f1, f2, f3, -⟩ := follow_eq hs
      have hw' := loop_idle i.job hb
      rw [f1, f2, f3, hw']
      exact ⟨rfl, hcur, rfl, rfl, rfl⟩
  | readable r =>
    unfold step at hs
    dsimp only at hs
    cases hk : Socket.step s.sock (.readable true r) with
    | none => rw [hk] at hs; cases hs
    | some k =>
      rw [hk, Option.bind_some] at hs
      split at hs
      · next t er d _ =>
        have : BufferedRead.step readHandler s.br (if er = SUCCESS then .deliver d else .fail er) = none := by
          by_cases hee : er = SUCCESS
          · rw [if_pos hee]; unfold BufferedRead.step; dsimp only; rw [hw]; rfl
          · rw [if_neg hee]; unfold BufferedRead.step; dsimp only; rw [hw]; rfl
        rw [this] at hs; cases hs
      · injection hs with hs; subst hs; exact ⟨rfl, hcur, rfl, rfl, rfl⟩
  | write chain => cases hp
  | send r =>
    unfold step at hs
    dsimp only at hs
    rw [hcur] at hs
    cases hs
  | writable er =>
    unfold step at hs
    dsimp only at hs
    cases hk : Socket.step s.sock (.writable er) with
    | none => rw [hk] at hs; cases hs
    | some k =>
      rw [hk, Option.bind_some, hcur] at hs
      cases hs

/-- C98: a connection is forgotten when a write on it fails: the stream is never closed, and nothing is read or written any more, whatever happens; the descriptor stays open. -/
theorem failed_write_forgotten {quiet c : Bool} {mem : List UInt8} {unit : Nat} (hmem : mem ≠ []) (hu : unit ≤ mem.length) {p : Phase} {s : Sys} (h : Reach unit quiet c mem p s)
    (hx : ∃ x ∈ s.done, ¬ ToldSuccess x) {p' : Phase} {s' : Sys} (hl : Later unit quiet p s p' s') :
    .closeCalled ∉ s'.sock.log ∧ s'.sock.alive = true ∧ s'.sock.outgoing = s.sock.outgoing ∧ s'.br.received = s.br.received ∧ s'.br.calls = s.br.calls := by
  obtain ⟨hp, hcl⟩ := failed_stopped (reach_both hmem hu h).2 hx
  have key : s'.br.closed = false ∧ s'.done = s.done ∧ s'.br.received = s.br.received ∧ s'.br.calls = s.br.calls := by
    induction hl with
    | refl => exact ⟨hcl, rfl, rfl, rfl⟩
    | @step p1 p2 s1 s2 e hl ha hs hn ih =>
      obtain ⟨i1, i2, i3, i4⟩ := ih
      have j := (reach_both hmem hu (later_reach h hl)).2
      obtain ⟨q, -⟩ := failed_stopped j (by rw [i2]; exact hx)
      subst q
      obtain ⟨k1, -, k3, k4, k5⟩ := stopped_step j hs hn
      exact ⟨k1.trans i1, k3.trans i2, k4.trans i3, k5.trans i4⟩
  obtain ⟨k1, k2, k3, k4⟩ := key
  have hr' := later_reach h hl
  obtain ⟨r1, j1⟩ := reach_both hmem hu h
  obtain ⟨r2, j2⟩ := reach_both hmem hu hr'
  have i1 := StreamSocket.reach_inv hmem r1
  have i2 := StreamSocket.reach_inv hmem r2
  obtain ⟨o1, o2, -⟩ := i2.open_alive k1
  refine ⟨o1, o2, ?_, k3, k4⟩
  have hc : ∀ {p : Phase} {s : Sys}, Inv unit p s → p = .stopped → s.cur = none := fun {p s} j hp => by
    cases hx : s.cur with
    | none => rfl
    | some x => have := j.cur.1 (by rw [hx]; rfl); rw [hp] at this; cases this
  rw [i1.out, i2.out, k2, hc j1 hp, hc j2 (failed_stopped j2 (by rw [k2]; exact hx)).1]

/-! ### Runs -/

/-- A run of the server within the rules. -/
def runOk (unit : Nat) (quiet : Bool) : Phase → Sys → List Ev → Option (Phase × Sys)
  | p, s, [] => some (p, s)
  | p, s, e :: es =>
    if StreamSocket.okEv quiet s e then
      (step readHandler s e).bind fun s' => (next unit p s s' e).bind fun p' => runOk unit quiet p' s' es
    else none

theorem runOk_reach {unit : Nat} {quiet c : Bool} {mem : List UInt8} (es : List Ev) {p p' : Phase} {s s' : Sys} (h : Reach unit quiet c mem p s)
    (hr : runOk unit quiet p s es = some (p', s')) : Reach unit quiet c mem p' s' := by
  induction es generalizing p s with
  | nil => injection hr with hr; injection hr with h1 h2; subst h1; subst h2; exact h
  | cons e es ih =>
    unfold runOk at hr
    split at hr
    · next hok =>
      cases hs : step readHandler s e with
      | none => rw [hs] at hr; cases hr
      | some s1 =>
        rw [hs, Option.bind_some] at hr
        cases hn : next unit p s s1 e with
        | none => rw [hn] at hr; cases hr
        | some p1 => rw [hn, Option.bind_some] at hr; exact ih (.step h (StreamSocket.okEv_allowed hok) hs hn) hr
    · cases hr

open StreamSocket (fine)

/-- "HELLO" with its terminating zero, in two pieces and together with the first bytes of the next one; then the client closes. -/
def session : List Ev :=
  [.enter, .user (.read (.atLeast 6)) fine, .loop fine, .leave,
   .peerSends [72, 69, 76], .readable (.bytes 128), .loop fine, .leave,
   .peerSends [76, 79, 0, 72, 69], .readable (.bytes 128), .loop fine, .loop fine,
   .write [⟨elem, [72, 69, 76, 76, 79, 0]⟩], .send (.sent 6), .user (.consume 6) fine, .user (.read (.atLeast 6)) fine, .loop fine, .leave, .leave]

def closing : List Ev := [.peerCloses, .readable (.bytes 128), .loop fine, .leave, .leave]

/-- What can be seen. -/
structure View where
  phase : Phase
  outgoing : List UInt8        -- what was sent back
  unread : List UInt8          -- what waits in the read buffer
  results : List Err           -- what the write handler was told
  closed : Bool
  alive : Bool                 -- the descriptor is open
deriving DecidableEq

def view (x : Phase × Sys) : View :=
  ⟨x.1, x.2.sock.outgoing, x.2.br.rb.unread, x.2.done.flatMap (fun x => x.world.calls.map (·.1)), x.2.br.closed, x.2.sock.alive⟩

/-- From a run to an execution. -/
theorem run_exec {unit : Nat} {quiet c : Bool} {mem : List UInt8} {es : List Ev} {α : Type} {f : Phase × Sys → α} {v : α}
    (h : (runOk unit quiet .start (StreamSocket.initial c mem) es).map f = some v) : ∃ p s, Reach unit quiet c mem p s ∧ f (p, s) = v := by
  cases hr : runOk unit quiet .start (StreamSocket.initial c mem) es with
  | none => rw [hr] at h; cases h
  | some x =>
    obtain ⟨p, s⟩ := x
    rw [hr] at h
    injection h with h
    exact ⟨p, s, runOk_reach es .init hr, h⟩

/-- `FirstEndsEarly`, computed. -/
def early (x : Write) : Bool :=
  match x.answers.head? with
  | some (.ok n) => decide (n = (flat x.chain).length ∨ n < (flat x.chain.dropLast).length)
  | _ => true

theorem early_iff {x : Write} (h : early x = true) : FirstEndsEarly x.chain x.answers := by
  intro n hn
  unfold early at h
  rw [hn] at h
  simpa using h

set_option maxRecDepth 100000 in
theorem session_view : (runOk 6 true .start (StreamSocket.initial false (List.replicate 8 0)) session).map (fun x => (view x, x.2.sock.stack.isEmpty, x.2.sock.incoming, x.2.writes.all early)) =
    some (⟨.reading, [72, 69, 76, 76, 79, 0], [72, 69], [SUCCESS], false, true⟩, true, [], true) := by decide +kernel

set_option maxRecDepth 100000 in
theorem closing_view : (runOk 6 true .start (StreamSocket.initial false (List.replicate 8 0)) (session ++ closing)).map view =
    some ⟨.stopped, [72, 69, 76, 76, 79, 0], [72, 69], [SUCCESS], true, false⟩ := by decide +kernel

/-- The hypotheses of `echoes_partial`, `at_rest` and `echoes_all_partial` are met by the session. -/
example : ∃ p s, Reach 6 true false (List.replicate 8 0) p s ∧ p = .reading ∧ s.sock.stack = [] ∧ s.sock.incoming = [] ∧ s.sock.outgoing = [72, 69, 76, 76, 79, 0] ∧
    ∀ x ∈ s.writes, FirstEndsEarly x.chain x.answers := by
  obtain ⟨p, s, h, hv⟩ := run_exec session_view
  simp only [Prod.mk.injEq] at hv
  obtain ⟨v1, v2, v3, v4⟩ := hv
  unfold view at v1
  injection v1 with v5 v6 v7 v8 v9
  exact ⟨p, s, h, v5, List.isEmpty_iff.1 v2, v3, v6, fun x hx => early_iff (List.all_eq_true.1 v4 x hx)⟩

/-- The client sends six bytes, and the send buffer of the socket is full. -/
def full : List Ev :=
  [.enter, .user (.read (.atLeast 6)) fine, .loop fine, .leave,
   .peerSends [1, 2, 3, 4, 5, 6], .readable (.bytes 128), .loop fine, .loop fine,
   .write [⟨elem, [1, 2, 3, 4, 5, 6]⟩], .send .again, .leave,
   .writable none, .send (.sent 100), .user (.consume 6) fine, .user (.read (.atLeast 6)) fine, .loop fine, .leave, .leave]

set_option maxRecDepth 100000 in
theorem full_view : (runOk 6 true .start (StreamSocket.initial false (List.replicate 8 0)) full).map (fun x => (view x, x.2.sock.stack.isEmpty, Socket.sent x.2.sock.log)) =
    some (⟨.reading, [1, 2, 3, 4, 5, 6, 1, 2, 3, 4, 5, 6], [], [SUCCESS], false, true⟩, true, [1, 2, 3, 4, 5, 6]) := by decide +kernel

/-- C98: the full claim is false: the client sends six bytes and gets twelve back. -/
theorem bytes_echoed_twice : ∃ p s, Reach 6 true false (List.replicate 8 0) p s ∧ Socket.sent s.sock.log = [1, 2, 3, 4, 5, 6] ∧ s.sock.outgoing = [1, 2, 3, 4, 5, 6, 1, 2, 3, 4, 5, 6] ∧
    ¬ s.sock.outgoing <+: Socket.sent s.sock.log := by
  obtain ⟨p, s, h, hv⟩ := run_exec full_view
  simp only [Prod.mk.injEq] at hv
  obtain ⟨v1, v2, v3⟩ := hv
  unfold view at v1
  injection v1 with v5 v6 v7 v8 v9
  dsimp only at v6 v3
  refine ⟨p, s, h, v3, v6, ?_⟩
  rw [v3, v6]
  decide

/-- Sending fails with ECONNRESET. -/
def reset : List Ev :=
  [.enter, .user (.read (.atLeast 6)) fine, .loop fine, .leave,
   .peerSends [1, 2, 3, 4, 5, 6], .readable (.bytes 128), .loop fine, .loop fine,
   .write [⟨elem, [1, 2, 3, 4, 5, 6]⟩], .send (.error (-104)), .leave]

/-- A write has been answered and its handler was not told of success. -/
def failed (x : Write) : Bool := match x.world.calls.getLast? with | some (e, _) => decide (e ≠ SUCCESS) | none => true

theorem failed_iff {x : Write} (h : failed x = true) : ¬ ToldSuccess x := by
  rintro ⟨ch, hch⟩
  unfold failed at h
  rw [hch] at h
  simp at h

set_option maxRecDepth 100000 in
theorem reset_view : (runOk 6 true .start (StreamSocket.initial false (List.replicate 8 0)) reset).map (fun x => (view x, x.2.sock.stack.isEmpty, x.2.done.any failed)) =
    some (⟨.stopped, [], [1, 2, 3, 4, 5, 6], [], false, true⟩, true, true) := by decide +kernel

/-- C98: there are such connections: back in the event loop after a failed `sendmsg`, the server has not been told and never closes the stream. -/
theorem forgotten_connection : ∃ p s, Reach 6 true false (List.replicate 8 0) p s ∧ s.sock.stack = [] ∧ (∃ x ∈ s.done, ¬ ToldSuccess x) ∧
    ∀ p' s', Later 6 true p s p' s' → .closeCalled ∉ s'.sock.log ∧ s'.sock.alive = true := by
  obtain ⟨p, s, h, hv⟩ := run_exec reset_view
  simp only [Prod.mk.injEq] at hv
  obtain ⟨v1, v2, v3⟩ := hv
  obtain ⟨x, hx, hf⟩ := List.any_eq_true.1 v3
  refine ⟨p, s, h, List.isEmpty_iff.1 v2, ⟨x, hx, failed_iff hf⟩, fun p' s' hl => ?_⟩
  obtain ⟨k1, k2, -⟩ := failed_write_forgotten (List.cons_ne_nil _ _) (by decide) h ⟨x, hx, failed_iff hf⟩ hl
  exact ⟨k1, k2⟩

end Cio.Echo
