import Verif.PingPong.Always
import Verif.Echo.Examples
/-
C114-C116: runs of the ping-pong client, alone and with the server.
-/
namespace Cio.PingPong
open BufferedRead (UAct Handler Job World Call)
open StreamSocket (Sys Ev Write step Allowed follow settle answer fine)
open BufferedWrite (FirstEndsEarly flat)
open Echo (ToldSuccess elem early early_iff failed failed_iff)

/-! ### Runs of the client -/

def runOk (hello : List UInt8) (max : Nat) (quiet : Bool) : Phase → Sys → List Ev → Option (Phase × Sys)
  | p, s, [] => some (p, s)
  | p, s, e :: es =>
    if StreamSocket.okEv quiet s e then
      (step (readHandler max) s e).bind fun s' => (next hello max p s s' e).bind fun p' => runOk hello max quiet p' s' es
    else none

theorem runOk_reach {hello : List UInt8} {max : Nat} {quiet c : Bool} {mem : List UInt8} (es : List Ev) {p p' : Phase} {s s' : Sys} (h : Reach hello max quiet c mem p s)
    (hr : runOk hello max quiet p s es = some (p', s')) : Reach hello max quiet c mem p' s' := by
  induction es generalizing p s with
  | nil => injection hr with hr; injection hr with h1 h2; subst h1; subst h2; exact h
  | cons e es ih =>
    unfold runOk at hr
    split at hr
    · next hok =>
      cases hs : step (readHandler max) s e with
      | none => rw [hs] at hr; cases hr
      | some s1 =>
        rw [hs, Option.bind_some] at hr
        cases hn : next hello max p s s1 e with
        | none => rw [hn] at hr; cases hr
        | some p1 => rw [hn, Option.bind_some] at hr; exact ih (.step h (StreamSocket.okEv_allowed hok) hs hn) hr
    · cases hr

theorem run_exec {hello : List UInt8} {max : Nat} {quiet c : Bool} {mem : List UInt8} {es : List Ev} {α : Type} {f : Phase × Sys → α} {v : α}
    (h : (runOk hello max quiet .start (StreamSocket.initial c mem) es).map f = some v) : ∃ p s, Reach hello max quiet c mem p s ∧ f (p, s) = v := by
  cases hr : runOk hello max quiet .start (StreamSocket.initial c mem) es with
  | none => rw [hr] at h; cases h
  | some x =>
    obtain ⟨p, s⟩ := x
    rw [hr] at h
    injection h with h
    exact ⟨p, s, runOk_reach es .init hr, h⟩

/-- What can be seen. -/
structure View where
  phase : Phase
  outgoing : List UInt8            -- what was sent
  unread : List UInt8              -- what waits in the read buffer
  reads : List (Err × List UInt8)  -- what the read handler was told
  results : List Err               -- what the write handlers were told
  closed : Bool
  resting : Bool                   -- control is back in the event loop
deriving DecidableEq

def view (x : Phase × Sys) : View :=
  ⟨x.1, x.2.sock.outgoing, x.2.br.rb.unread, x.2.br.calls.map (fun y => (y.err, y.view.take y.num)), x.2.done.flatMap (fun x => x.world.calls.map (·.1)), x.2.br.closed, x.2.sock.stack.isEmpty⟩

/-- Three bytes as a greeting. -/
def hi : List UInt8 := [72, 73, 0]

/-- The client connects and greets. -/
def greet : List Ev := [.enter, .write [⟨elem, hi⟩], .send (.sent 3), .user (.consume 0) fine, .user (.read (.atLeast 3)) fine, .loop fine, .leave, .leave]

/-- A message is received and sent back. -/
def back (d : List UInt8) : List Ev :=
  [.peerSends d, .readable (.bytes 128), .loop fine, .loop fine, .write [⟨elem, d⟩], .send (.sent 3), .user (.consume 3) fine, .user (.read (.atLeast 3)) fine, .loop fine, .leave, .leave]

/-- The last message is received. -/
def last (d : List UInt8) : List Ev := [.peerSends d, .readable (.bytes 128), .loop fine, .leave, .leave]

set_option maxRecDepth 100000 in
theorem two_view : (runOk hi 2 true .start (StreamSocket.initial false (List.replicate 8 0)) (greet ++ back [1, 2, 3])).map (fun x => (view x, x.2.sock.incoming, x.2.writes.all early, Socket.sent x.2.sock.log)) =
    some (⟨.reading, [72, 73, 0, 1, 2, 3], [], [(SUCCESS, [1, 2, 3])], [SUCCESS, SUCCESS], false, true⟩, [], true, [1, 2, 3]) := by decide +kernel

/-- The hypotheses of `sends_partial`, `at_rest` and `sends_all_partial` are met: this client has greeted and sent back three bytes that are not a greeting. -/
example : ∃ p s, Reach hi 2 true false (List.replicate 8 0) p s ∧ p = .reading ∧ s.sock.stack = [] ∧ s.sock.incoming = [] ∧ s.sock.outgoing = [72, 73, 0, 1, 2, 3] ∧
    ∀ x ∈ s.writes, FirstEndsEarly x.chain x.answers := by
  obtain ⟨p, s, h, hv⟩ := run_exec two_view
  simp only [Prod.mk.injEq] at hv
  obtain ⟨v1, v2, v3, v4⟩ := hv
  unfold view at v1
  injection v1 with v5 v6 v7 v8 v9 v10 v11
  exact ⟨p, s, h, v5, List.isEmpty_iff.1 v11, v2, v6, fun x hx => early_iff (List.all_eq_true.1 v3 x hx)⟩

set_option maxRecDepth 100000 in
theorem done_view : (runOk hi 2 true .start (StreamSocket.initial false (List.replicate 8 0)) (greet ++ back hi ++ last hi)).map (fun x => (view x, x.2.done.any failed)) =
    some (⟨.stopped, hi ++ hi, hi, [(SUCCESS, hi), (SUCCESS, hi)], [SUCCESS, SUCCESS], true, true⟩, false) := by decide +kernel

/-- With `max_pings` 0 one message is read. -/
theorem zero_view : (runOk hi 0 true .start (StreamSocket.initial false (List.replicate 8 0)) (greet ++ last hi)).map view = some ⟨.stopped, hi, hi, [(SUCCESS, hi)], [SUCCESS], true, true⟩ := by decide +kernel

theorem told_of_not_failed {x : Write} (h : failed x = false) : ToldSuccess x := by
  unfold failed at h
  unfold ToldSuccess
  cases hl : x.world.calls.getLast? with
  | none => rw [hl] at h; cases h
  | some z =>
    obtain ⟨e, ch⟩ := z
    rw [hl] at h
    have : e = SUCCESS := by simpa using h
    subst this
    exact ⟨ch, rfl⟩

/-- The hypotheses of `finished` are met. -/
example : ∃ p s, Reach hi 2 true false (List.replicate 8 0) p s ∧ s.br.closed = true ∧ (∀ x ∈ s.br.calls, x.err = SUCCESS) ∧ (∀ x ∈ s.done, ToldSuccess x) ∧ s.br.calls.length = 2 := by
  obtain ⟨p, s, h, hv⟩ := run_exec done_view
  simp only [Prod.mk.injEq] at hv
  obtain ⟨v1, v2⟩ := hv
  unfold view at v1
  injection v1 with v5 v6 v7 v8 v9 v10 v11
  dsimp only at v8 v10
  refine ⟨p, s, h, v10, fun x hx => ?_, fun x hx => ?_, ?_⟩
  · have : (x.err, x.view.take x.num) ∈ [(SUCCESS, hi), (SUCCESS, hi)] := by rw [← v8]; exact List.mem_map.2 ⟨x, hx, rfl⟩
    simp only [List.mem_cons, Prod.mk.injEq, List.not_mem_nil, or_false, or_self] at this
    exact this.1
  · refine told_of_not_failed ?_
    have := List.any_eq_false.1 v2 x hx
    simpa using this
  · have := congrArg List.length v8
    rw [List.length_map] at this
    exact this

/-- Sending the greeting back fails: `cio_buffered_stream_write` returns an error, and nobody looks. -/
def lost : List Ev := greet ++ [.peerSends hi, .readable (.bytes 128), .loop fine, .loop fine, .write [⟨elem, hi⟩], .send (.error (-104)), .leave]

set_option maxRecDepth 100000 in
theorem lost_view : (runOk hi 2 true .start (StreamSocket.initial false (List.replicate 8 0)) lost).map view = some ⟨.stopped, hi, hi, [(SUCCESS, hi)], [SUCCESS], false, true⟩ := by decide +kernel

/-- C114: a client that cannot send its answer neither closes nor reads any more (only its end of the event loop, which its close hook would cancel, is lost with it). -/
theorem client_hangs : ∃ p s, Reach hi 2 true false (List.replicate 8 0) p s ∧ s.sock.stack = [] ∧ s.br.closed = false ∧ p = .stopped ∧ s.br.job = none ∧
    ∀ s' a os, next hi 2 p s s' (.user a os) = none := by
  obtain ⟨p, s, h, hv⟩ := run_exec lost_view
  unfold view at hv
  injection hv with v5 v6 v7 v8 v9 v10 v11
  dsimp only at v5
  subst v5
  refine ⟨_, s, h, List.isEmpty_iff.1 v11, v10, rfl, (reach_both (by decide) (by decide) h).2.job, fun s' a os => ?_⟩
  unfold next
  rfl

/-- The first send finds the buffer full. -/
def twice : List Ev := [.enter, .write [⟨elem, hi⟩], .send .again, .leave, .writable none, .send (.sent 100), .user (.consume 0) fine, .user (.read (.atLeast 3)) fine, .loop fine, .leave, .leave]

set_option maxRecDepth 100000 in
theorem twice_view : (runOk hi 1 true .start (StreamSocket.initial false (List.replicate 8 0)) twice).map view = some ⟨.reading, hi ++ hi, [], [], [SUCCESS], false, true⟩ := by decide +kernel

/-- C114: the full claim is false: nothing has been received, and the greeting has been sent twice. -/
theorem greeting_sent_twice : ∃ p s, Reach hi 1 true false (List.replicate 8 0) p s ∧ s.br.calls = [] ∧ s.sock.outgoing = hi ++ hi := by
  obtain ⟨p, s, h, hv⟩ := run_exec twice_view
  unfold view at hv
  injection hv with v5 v6 v7 v8 v9 v10 v11
  exact ⟨p, s, h, List.map_eq_nil_iff.1 v8, v6⟩

/-! ### Client and server -/

/-- `Arrives`, computed. -/
def arrives (self other : Sys) : Ev → Bool
  | .peerSends d => (Socket.sent self.sock.log ++ d).isPrefixOf other.sock.outgoing
  | .peerCloses => other.br.closed && decide (Socket.sent self.sock.log = other.sock.outgoing)
  | _ => true

theorem arrives_iff {self other : Sys} {e : Ev} (h : arrives self other e = true) : Arrives self other e := by
  cases e with
  | peerSends d => exact List.isPrefixOf_iff_prefix.1 h
  | peerCloses =>
    unfold arrives at h
    simp only [Bool.and_eq_true, decide_eq_true_eq] at h
    exact h
  | _ => trivial

/-- A run of both: `true` is the client. -/
def runBoth (hello : List UInt8) (max : Nat) (quiet : Bool) : Pair → List (Bool × Ev) → Option Pair
  | x, [] => some x
  | x, (true, e) :: es =>
    if StreamSocket.okEv quiet x.c e ∧ arrives x.c x.s e then
      (step (readHandler max) x.c e).bind fun c' => (next hello max x.pc x.c c' e).bind fun p' => runBoth hello max quiet { x with pc := p', c := c' } es
    else none
  | x, (false, e) :: es =>
    if StreamSocket.okEv quiet x.s e ∧ arrives x.s x.c e then
      (step Echo.readHandler x.s e).bind fun s' => (Echo.next hello.length x.ps x.s s' e).bind fun p' => runBoth hello max quiet { x with ps := p', s := s' } es
    else none

theorem runBoth_together {hello : List UInt8} {max : Nat} {quiet ct : Bool} {memc mems : List UInt8} (es : List (Bool × Ev)) {x x' : Pair} (h : Together hello max quiet ct memc mems x)
    (hr : runBoth hello max quiet x es = some x') : Together hello max quiet ct memc mems x' := by
  induction es generalizing x with
  | nil => injection hr with hr; subst hr; exact h
  | cons e es ih =>
    obtain ⟨b, e⟩ := e
    cases b with
    | true =>
      unfold runBoth at hr
      split at hr
      · next hok =>
        cases hs : step (readHandler max) x.c e with
        | none => rw [hs] at hr; cases hr
        | some s1 =>
          rw [hs, Option.bind_some] at hr
          cases hn : next hello max x.pc x.c s1 e with
          | none => rw [hn] at hr; cases hr
          | some p1 => rw [hn, Option.bind_some] at hr; exact ih (.client h (arrives_iff hok.2) (StreamSocket.okEv_allowed hok.1) hs hn) hr
      · cases hr
    | false =>
      unfold runBoth at hr
      split at hr
      · next hok =>
        cases hs : step Echo.readHandler x.s e with
        | none => rw [hs] at hr; cases hr
        | some s1 =>
          rw [hs, Option.bind_some] at hr
          cases hn : Echo.next hello.length x.ps x.s s1 e with
          | none => rw [hn] at hr; cases hr
          | some p1 => rw [hn, Option.bind_some] at hr; exact ih (.server h (arrives_iff hok.2) (StreamSocket.okEv_allowed hok.1) hs hn) hr
      · cases hr

def client (l : List Ev) : List (Bool × Ev) := l.map fun e => (true, e)
def server (l : List Ev) : List (Bool × Ev) := l.map fun e => (false, e)

/-- Two messages each way; the client closes, and the server sees it. -/
def match2 : List (Bool × Ev) :=
  client greet ++ server [.enter, .user (.read (.atLeast 3)) fine, .loop fine, .leave] ++ server (back hi) ++ client (back hi) ++ server (back hi) ++ client (last hi) ++
    server [.peerCloses, .readable (.bytes 128), .loop fine, .leave, .leave]

def both (x : Pair) : View × View × Bool := (view (x.pc, x.c), ⟨if x.ps = .stopped then .stopped else .reading, x.s.sock.outgoing, x.s.br.rb.unread, x.s.br.calls.map (fun y => (y.err, y.view.take y.num)),
  x.s.done.flatMap (fun x => x.world.calls.map (·.1)), x.s.br.closed, x.s.sock.stack.isEmpty⟩, x.c.writes.all early && x.s.writes.all early && !x.c.done.any failed && !x.s.done.any failed &&
    decide (x.c.sock.incoming = []) && decide (x.s.sock.incoming = []) && decide (Socket.sent x.c.sock.log = x.s.sock.outgoing) && decide (Socket.sent x.s.sock.log = x.c.sock.outgoing) &&
    x.c.cur.isNone && x.s.cur.isNone && x.ps != .start)

def begin2 : Pair := ⟨.start, StreamSocket.initial false (List.replicate 8 0), .start, StreamSocket.initial false (List.replicate 8 0)⟩

set_option maxRecDepth 100000 in
theorem match_view : (runBoth hi 2 true begin2 match2).map both =
    some (⟨.stopped, hi ++ hi, hi, [(SUCCESS, hi), (SUCCESS, hi)], [SUCCESS, SUCCESS], true, true⟩,
      ⟨.stopped, hi ++ hi, [], [(SUCCESS, hi), (SUCCESS, hi), (EOF, [])], [SUCCESS, SUCCESS], true, true⟩, true) := by decide +kernel

/-- The hypotheses of `only_greetings_partial` and `finishes_partial` are met by this run. -/
example : ∃ x, Together hi 2 true false (List.replicate 8 0) (List.replicate 8 0) x ∧ AllEarly x ∧ Quiescent x ∧ x.pc ≠ .start ∧ x.ps ≠ .start ∧ (x.c.cur = none ∧ x.s.cur = none) ∧
    ((∀ w ∈ x.c.done, ToldSuccess w) ∧ ∀ w ∈ x.s.done, ToldSuccess w) ∧ OnlyEof x := by
  have hm := match_view
  cases hr : runBoth hi 2 true begin2 match2 with
  | none => rw [hr] at hm; cases hm
  | some x =>
    rw [hr, Option.map_some] at hm
    injection hm with hv
    unfold both at hv
    simp only [Prod.mk.injEq, Bool.and_eq_true, decide_eq_true_eq] at hv
    obtain ⟨v1, v2, ⟨⟨⟨⟨⟨⟨⟨⟨⟨⟨a1, a2⟩, a3⟩, a4⟩, a5⟩, a6⟩, a7⟩, a8⟩, a9⟩, a10⟩, a11⟩⟩ := hv
    unfold view at v1
    injection v1 with v5 v6 v7 v8 v9 v10 v11
    injection v2 with u5 u6 u7 u8 u9 u10 u11
    dsimp only at v5 v8 v11
    have told : ∀ {l : List Write}, (!l.any failed) = true → ∀ w ∈ l, ToldSuccess w := fun {l} q w hw => by
      rw [Bool.not_eq_true'] at q
      refine told_of_not_failed ?_
      have := List.any_eq_false.1 q w hw
      simpa using this
    refine ⟨x, runBoth_together match2 .init hr, ⟨fun w hw => early_iff (List.all_eq_true.1 a1 w hw), fun w hw => early_iff (List.all_eq_true.1 a2 w hw)⟩,
      ⟨List.isEmpty_iff.1 v11, List.isEmpty_iff.1 u11, fun _ => ⟨a5, a7⟩, fun _ => ⟨a6, a8⟩⟩, by rw [v5]; exact (fun q => by cases q), (fun q => by rw [q] at a11; cases a11), ⟨Option.isNone_iff_eq_none.1 a9, Option.isNone_iff_eq_none.1 a10⟩,
      ⟨told a3, told a4⟩, fun y hy he => ?_, fun y hy he => ?_⟩
    · have : (y.err, y.view.take y.num) ∈ [(SUCCESS, hi), (SUCCESS, hi)] := by rw [← v8]; exact List.mem_map.2 ⟨y, hy, rfl⟩
      simp only [List.mem_cons, Prod.mk.injEq, List.not_mem_nil, or_false, or_self] at this
      exact absurd this.1 he
    · have : (y.err, y.view.take y.num) ∈ [(SUCCESS, hi), (SUCCESS, hi), (EOF, [])] := by rw [← u8]; exact List.mem_map.2 ⟨y, hy, rfl⟩
      simp only [List.mem_cons, Prod.mk.injEq, List.not_mem_nil, or_false] at this
      rcases this with q | q | q
      · exact absurd q.1 he
      · exact absurd q.1 he
      · exact q.1

/-- One message is asked for, and the client's first send finds the buffer full. -/
def doubled : List (Bool × Ev) :=
  client twice ++ server [.enter, .user (.read (.atLeast 3)) fine, .loop fine, .leave] ++ server (back hi) ++ server (back hi) ++ client (last hi)

set_option maxRecDepth 100000 in
theorem doubled_view : (runBoth hi 1 true begin2 doubled).map (fun x => (x.c.br.closed, x.c.sock.outgoing, x.s.sock.outgoing, x.c.sock.stack.isEmpty && x.s.sock.stack.isEmpty)) = some (true, times 2 hi, times 2 hi, true) := by
  decide +kernel

/-- C116: without the assumption on the sends, more is exchanged than was asked for: the greeting goes to and fro twice, although the client was to exchange one. -/
theorem greetings_doubled : ∃ x, Together hi 1 true false (List.replicate 8 0) (List.replicate 8 0) x ∧ x.c.br.closed = true ∧ x.c.sock.outgoing = times 2 hi ∧ x.s.sock.outgoing = times 2 hi := by
  have hm := doubled_view
  cases hr : runBoth hi 1 true begin2 doubled with
  | none => rw [hr] at hm; cases hm
  | some x =>
    rw [hr, Option.map_some] at hm
    injection hm with hv
    simp only [Prod.mk.injEq] at hv
    exact ⟨x, runBoth_together doubled .init hr, hv.1, hv.2.1, hv.2.2.1⟩

/-- The hypotheses of `finishes` are met by that run too: the client has read once, and twice as many greetings were sent. -/
example : ∃ x, Together hi 1 true false (List.replicate 8 0) (List.replicate 8 0) x ∧ Quiescent x ∧ x.pc ≠ .start ∧ x.ps ≠ .start ∧ (x.c.cur = none ∧ x.s.cur = none) ∧
    ((∀ w ∈ x.c.done, ToldSuccess w) ∧ ∀ w ∈ x.s.done, ToldSuccess w) ∧ OnlyEof x ∧ x.c.sock.outgoing = times 2 hi := by
  have hm : (runBoth hi 1 true begin2 doubled).map (fun x => (view (x.pc, x.c), x.s.br.calls.all (fun y => decide (y.err = SUCCESS)) && x.c.br.calls.all (fun y => decide (y.err = SUCCESS)) &&
      !x.c.done.any failed && !x.s.done.any failed && x.s.sock.stack.isEmpty && decide (x.s.sock.incoming = []) && decide (Socket.sent x.s.sock.log = x.c.sock.outgoing) &&
      x.c.cur.isNone && x.s.cur.isNone && x.ps != .start)) = some (⟨.stopped, hi ++ hi, hi, [(SUCCESS, hi)], [SUCCESS], true, true⟩, true) := by
    set_option maxRecDepth 100000 in decide +kernel
  cases hr : runBoth hi 1 true begin2 doubled with
  | none => rw [hr] at hm; cases hm
  | some x =>
    rw [hr, Option.map_some] at hm
    injection hm with hv
    simp only [Prod.mk.injEq, Bool.and_eq_true, decide_eq_true_eq] at hv
    obtain ⟨v1, ⟨⟨⟨⟨⟨⟨⟨⟨⟨a1, a2⟩, a3⟩, a4⟩, a5⟩, a6⟩, a7⟩, a8⟩, a9⟩, a10⟩⟩ := hv
    unfold view at v1
    injection v1 with v5 v6 v7 v8 v9 v10 v11
    dsimp only at v5 v6 v10 v11
    have told : ∀ {l : List Write}, (!l.any failed) = true → ∀ w ∈ l, ToldSuccess w := fun {l} q w hw => by
      rw [Bool.not_eq_true'] at q
      refine told_of_not_failed ?_
      have := List.any_eq_false.1 q w hw
      simpa using this
    refine ⟨x, runBoth_together doubled .init hr, ⟨List.isEmpty_iff.1 v11, List.isEmpty_iff.1 a5, fun q => by (rw [v10] at q; cases q), fun _ => ⟨a6, a7⟩⟩, by rw [v5]; exact (fun q => by cases q),
      (fun q => by rw [q] at a10; cases a10), ⟨Option.isNone_iff_eq_none.1 a8, Option.isNone_iff_eq_none.1 a9⟩, ⟨told a3, told a4⟩, ⟨fun y hy he => ?_, fun y hy he => ?_⟩, v6⟩
    · exact absurd (by simpa using List.all_eq_true.1 a2 y hy) he
    · exact absurd (by simpa using List.all_eq_true.1 a1 y hy) he

end Cio.PingPong
