import Verif.PlainEcho.Props
/-
C100: runs of the echo server of examples/socket_echo.c with its read buffer of 128 bytes.
-/
namespace Cio.PlainEcho
open BufferedWrite (Elem Resp flat)
open StreamSocket (Write Os)
open Socket (St Obs sent delivered)

/-- `Allowed`, computed. -/
def okEv (s : Sys) : Ev → Bool
  | .close os => !os.soon
  | .readable r => (!s.sock.incoming.isEmpty || s.sock.incomingEnd) && (match r with | .again => false | .error e => decide (e < 0) | .bytes _ => true)
  | .send r => match r with | .error e => decide (e < 0) | _ => true
  | _ => true

theorem okEv_allowed {s : Sys} {e : Ev} (h : okEv s e = true) : Allowed s e := by
  cases e with
  | close os => simpa [okEv, Allowed] using h
  | readable r =>
    unfold okEv at h
    dsimp only at h
    rw [Bool.and_eq_true, Bool.or_eq_true] at h
    obtain ⟨h1, h2⟩ := h
    refine ⟨h1.imp (fun g => ?_) id, ?_, ?_⟩
    · intro q; rw [q] at g; cases g
    · intro q; subst q; cases h2
    · intro e q; subst q; exact of_decide_eq_true h2
  | send r =>
    intro e q
    subst q
    exact of_decide_eq_true h
  | peerSends d => trivial
  | peerCloses => trivial
  | enter => trivial
  | leave => trivial
  | timeout => trivial
  | read => trivial
  | write => trivial
  | writable err => trivial

def runOk (size : Nat) : Sys → List Ev → Option Sys
  | s, [] => some s
  | s, e :: es => if okEv s e then (step size s e).bind fun s => runOk size s es else none

theorem runOk_reach {size : Nat} {c : Bool} (es : List Ev) {s s' : Sys} (h : Reach size c s) (hr : runOk size s es = some s') : Reach size c s' := by
  induction es generalizing s with
  | nil => injection hr with hr; subst hr; exact h
  | cons e es ih =>
    unfold runOk at hr
    split at hr
    · next hok =>
      cases hs : step size s e with
      | none => rw [hs] at hr; cases hr
      | some s1 => rw [hs, Option.bind_some] at hr; exact ih (.step h (okEv_allowed hok) hs) hr
    · cases hr

theorem run_exec {size : Nat} {c : Bool} {es : List Ev} {α : Type} {f : Sys → α} {v : α} (h : (runOk size (initial c) es).map f = some v) : ∃ s, Reach size c s ∧ f s = v := by
  cases hr : runOk size (initial c) es with
  | none => rw [hr] at h; cases h
  | some s =>
    rw [hr] at h
    injection h with h
    exact ⟨s, runOk_reach es .init hr, h⟩

/-- `TakenAtOnce`, computed. -/
def atOnce (x : Write) : Bool := match x.answers.head? with | some (.ok n) => decide (n = (flat x.chain).length) | _ => true

theorem atOnce_iff {x : Write} (h : atOnce x = true) : TakenAtOnce x := by
  intro n hn
  unfold atOnce at h
  rw [hn] at h
  simpa using h

/-- A write was not successful. -/
def failed (x : Write) : Bool := match x.world.calls.getLast? with | some (e, _) => decide (e ≠ SUCCESS) | none => true

theorem failed_iff {x : Write} (h : failed x = true) : ¬ ToldSuccess x := by
  rintro ⟨ch, hch⟩
  unfold failed at h
  rw [hch] at h
  simp at h

def fine : Os := ⟨true, true, false, true⟩

/-- The handler is accepted and reads. -/
def begin_ : List Ev := [.enter, .read, .leave]

/-- Some bytes arrive and are echoed. -/
def echo (d : List UInt8) : List Ev := [.peerSends d, .readable (.bytes 200), .write, .send (.sent 200), .read, .leave, .leave]

set_option maxRecDepth 100000 in
set_option synthInstance.maxSize 1000 in
theorem session_view : (runOk 128 (initial true) (begin_ ++ echo [1, 2, 3] ++ echo [4, 5])).map (fun s => (s.phase, s.sock.outgoing, s.sock.incoming, sent s.sock.log, s.sock.stack.isEmpty, s.writes.all atOnce)) =
    some (.reading, [1, 2, 3, 4, 5], [], [1, 2, 3, 4, 5], true, true) := by decide +kernel

/-- The hypotheses of `echoes_partial`, `echoes_all_partial` and `at_rest` are met by this session. -/
example : ∃ s, Reach 128 true s ∧ s.phase = .reading ∧ s.sock.stack = [] ∧ s.sock.incoming = [] ∧ s.sock.outgoing = [1, 2, 3, 4, 5] ∧ ∀ x ∈ s.writes, TakenAtOnce x := by
  obtain ⟨s, h, hv⟩ := run_exec session_view
  simp only [Prod.mk.injEq] at hv
  obtain ⟨v1, v2, v3, v4, v5, v6⟩ := hv
  exact ⟨s, h, v1, List.isEmpty_iff.1 v5, v3, v2, fun x hx => atOnce_iff (List.all_eq_true.1 v6 x hx)⟩

/-- A client that sends 100 bytes, gets them back, sends 29 more, gets 28 of them back. -/
def longSession : List Ev := begin_ ++ echo (List.replicate 100 7) ++ echo (List.replicate 29 8)

set_option maxRecDepth 100000 in
set_option synthInstance.maxSize 1000 in
theorem long_view : (runOk 128 (initial true) longSession).map (fun s => (s.phase, (delivered s.sock.log).length, s.sock.incoming, s.sock.stack.isEmpty)) = some (.reading, 128, [8], true) := by decide +kernel

/-- The hypotheses of `full_buffer_is_end` are met. -/
example : ∃ s, Reach 128 true s ∧ s.sock.stack = [] ∧ s.phase = .reading ∧ (delivered s.sock.log).length = 128 ∧ s.sock.incoming ≠ [] := by
  obtain ⟨s, h, hv⟩ := run_exec long_view
  simp only [Prod.mk.injEq] at hv
  obtain ⟨v1, v2, v3, v4⟩ := hv
  exact ⟨s, h, List.isEmpty_iff.1 v4, v1, v2, by rw [v3]; simp⟩

set_option maxRecDepth 100000 in
set_option synthInstance.maxSize 1000 in
theorem long_closed_view : (runOk 128 (initial true) (longSession ++ [.readable (.bytes 1), .close fine, .leave, .leave])).map
    (fun s => (s.sock.outgoing.length, (sent s.sock.log).length, decide (.closeCalled ∈ s.sock.log), decide (.peerClosed ∈ s.sock.log), s.sock.alive, s.writes.all atOnce)) = some (128, 129, true, false, false, true) := by decide +kernel

/-- C100: the full claim is false: a client sends 129 bytes and does not close; the server closes the connection when it has sent 128 of them back. -/
theorem closed_after_128 : ∃ s, Reach 128 true s ∧ (sent s.sock.log).length = 129 ∧ s.sock.outgoing.length = 128 ∧ .closeCalled ∈ s.sock.log ∧ .peerClosed ∉ s.sock.log ∧ ∀ x ∈ s.writes, TakenAtOnce x := by
  obtain ⟨s, h, hv⟩ := run_exec long_closed_view
  simp only [Prod.mk.injEq] at hv
  obtain ⟨v1, v2, v3, v4, v5, v6⟩ := hv
  exact ⟨s, h, v2, v1, of_decide_eq_true v3, of_decide_eq_false v4, fun x hx => atOnce_iff (List.all_eq_true.1 v6 x hx)⟩

set_option maxRecDepth 100000 in
set_option synthInstance.maxSize 1000 in
theorem twice_view : (runOk 128 (initial true) (begin_ ++ [.peerSends [1, 2, 3], .readable (.bytes 200), .write, .send .again, .leave, .writable none, .send (.sent 200), .read, .leave, .leave])).map
    (fun s => (s.sock.outgoing, sent s.sock.log)) = some ([1, 2, 3, 1, 2, 3], [1, 2, 3]) := by decide +kernel

/-- C100: the full claim is false: if the client is slow it gets everything twice. -/
theorem bytes_echoed_twice : ∃ s, Reach 128 true s ∧ sent s.sock.log = [1, 2, 3] ∧ s.sock.outgoing = [1, 2, 3, 1, 2, 3] := by
  obtain ⟨s, h, hv⟩ := run_exec twice_view
  simp only [Prod.mk.injEq] at hv
  exact ⟨s, h, hv.2, hv.1⟩

set_option maxRecDepth 100000 in
set_option synthInstance.maxSize 1000 in
theorem read_fails_view : (runOk 128 (initial true) (begin_ ++ [.peerSends [1], .readable (.error (-104)), .leave])).map (fun s => (decide (.closeCalled ∈ s.sock.log), decide (.readDone 0 (-104) [] ∈ s.sock.log))) =
    some (false, true) := by decide +kernel

/-- C100: connections are forgotten: reading fails with ECONNRESET, and the connection is never closed. -/
theorem forgotten_connection : ∃ s, Reach 128 true s ∧ GivenUp s ∧ ∀ s', Later 128 s s' → .closeCalled ∉ s'.sock.log ∧ s'.sock.alive = true := by
  obtain ⟨s, h, hv⟩ := run_exec read_fails_view
  simp only [Prod.mk.injEq] at hv
  have hg : GivenUp s := ⟨of_decide_eq_false hv.1, Or.inl ⟨0, -104, by decide, of_decide_eq_true hv.2⟩⟩
  exact ⟨s, h, hg, fun s' hl => ⟨(failure_forgotten h hg hl).1, (failure_forgotten h hg hl).2.1⟩⟩

set_option maxRecDepth 100000 in
set_option synthInstance.maxSize 1000 in
theorem write_fails_view : (runOk 128 (initial true) (begin_ ++ [.peerSends [1], .readable (.bytes 200), .write, .send (.error (-104)), .leave])).map (fun s => (decide (.closeCalled ∈ s.sock.log), s.done.any failed)) =
    some (false, true) := by decide +kernel

example : ∃ s, Reach 128 true s ∧ GivenUp s ∧ ∃ x ∈ s.done, ¬ ToldSuccess x := by
  obtain ⟨s, h, hv⟩ := run_exec write_fails_view
  simp only [Prod.mk.injEq] at hv
  obtain ⟨x, hx, hf⟩ := List.any_eq_true.1 hv.2
  exact ⟨s, h, ⟨of_decide_eq_false hv.1, Or.inr ⟨x, hx, failed_iff hf⟩⟩, x, hx, failed_iff hf⟩

end Cio.PlainEcho
