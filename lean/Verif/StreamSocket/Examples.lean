import Verif.StreamSocket.Progress
/-
Runs of a buffered stream on a socket: the theorems are about something, and what is missing from the partial ones is missing for a reason.
-/
namespace Cio.StreamSocket
open BufferedRead (UAct Handler World Call)
open BufferedWrite (Elem Resp flat)
open Socket (St Obs)

/-- `Allowed`, computed. -/
def okEv (quiet : Bool) (s : Sys) : Ev → Bool
  | .user _ os => !os.soon
  | .loop os => !os.soon
  | .readable r =>
    (match r with | .error e => decide (e < 0) | _ => true) &&
      (!quiet || match s.sock.pendRead with | some (_, n) => decide (Socket.osRead s.sock n r ≠ .again) | none => true)
  | .write chain => chain.all fun e => decide (e.addr ≠ BufferedWrite.temp)
  | .send r => match r with | .error e => decide (e < 0) | _ => true
  | _ => true

theorem okEv_allowed {quiet : Bool} {s : Sys} {e : Ev} (h : okEv quiet s e = true) : Allowed quiet s e := by
  cases e with
  | user a os => unfold okEv at h; unfold Allowed; simpa using h
  | loop os => unfold okEv at h; unfold Allowed; simpa using h
  | readable r =>
    unfold okEv at h
    simp only [Bool.and_eq_true, Bool.or_eq_true, Bool.not_eq_true'] at h
    obtain ⟨h1, h2⟩ := h
    refine ⟨fun e he => ?_, fun hq t n hp => ?_⟩
    · subst he; simpa using h1
    · rcases h2 with g | g
      · rw [hq] at g; cases g
      · rw [hp] at g; simpa using g
  | write chain =>
    unfold okEv at h
    intro e he
    have := List.all_eq_true.1 h e he
    simpa using this
  | send r =>
    unfold okEv at h
    intro e he
    subst he; simpa using h
  | _ => exact trivial

/-- A run within the rules. -/
def runOk (quiet : Bool) (H : Handler) (c : Bool) : Sys → List Ev → Option Sys
  | s, [] => some s
  | s, e :: es =>
    if okEv quiet s e then
      (step H s e).bind fun s' =>
        if s'.br.misuse = false ∧ (s'.br.closed = true → s.br.closed = false → s'.cur.isNone = true ∨ c = false) then runOk quiet H c s' es else none
    else none

theorem runOk_reach {quiet : Bool} {H : Handler} {c : Bool} {mem : List UInt8} (es : List Ev) {s s' : Sys} (h : Reach quiet H c mem s) (hr : runOk quiet H c s es = some s') :
    Reach quiet H c mem s' := by
  induction es generalizing s with
  | nil => injection hr with hr; subst hr; exact h
  | cons e es ih =>
    unfold runOk at hr
    split at hr
    · next hok =>
      cases hs : step H s e with
      | none => rw [hs] at hr; cases hr
      | some s1 =>
        rw [hs, Option.bind_some] at hr
        split at hr
        · next hg =>
          refine ih (.step h (okEv_allowed hok) hs hg.1 (fun g1 g2 => ?_)) hr
          rcases hg.2 g1 g2 with g | g
          · exact Or.inl (Option.isNone_iff_eq_none.1 g)
          · exact Or.inr g
        · cases hr
    · cases hr

/-- The operating system's calls succeed. -/
def fine : Os := { shutOk := true, armOk := true, soon := false, regOk := true }

/-- A line arrives in two pieces and is delivered, a chain of two elements is written with a short write and waiting, the peer closes, the
handler is told, and the stream is closed. -/
def session : List Ev :=
  [.enter, .user (.read (.until [10])) fine, .loop fine, .leave,
   .peerSends [65], .readable (.bytes 5), .loop fine, .leave,
   .peerSends [66, 10, 67], .readable (.bytes 5), .loop fine, .loop fine,
   .write [⟨7, [1, 2, 3]⟩, ⟨8, [4]⟩], .send (.sent 2), .send .again, .leave, .leave,
   .writable none, .send (.sent 9), .leave, .leave,
   .peerCloses, .readable (.bytes 5), .loop fine, .loop fine, .user .close fine, .leave, .leave]

/-- What can be seen at the end. -/
structure View where
  given : List (Err × List UInt8)      -- what the read handler was given
  outgoing : List UInt8                -- what the operating system got for the peer
  results : List Err                   -- what the write handlers were told
  closed : Bool
  alive : Bool
  hooks : Nat
deriving DecidableEq

def view (s : Sys) : View :=
  ⟨s.br.calls.map (fun x => (x.err, x.view.take x.num)), s.sock.outgoing, s.done.flatMap (fun x => x.world.calls.map (·.1)), s.br.closed, s.sock.alive, s.sock.log.count .hook⟩

set_option maxRecDepth 40000 in
theorem session_view : (runOk true BufferedRead.lineReader false (initial false [0, 0, 0, 0]) session).map view =
    some ⟨[(SUCCESS, [65, 66, 10]), (EOF, [])], [1, 2, 3, 4], [SUCCESS], true, false, 1⟩ := by decide +kernel

/-- The session is one of the executions the theorems are about. -/
example : ∃ s, Reach true BufferedRead.lineReader false [0, 0, 0, 0] s ∧ view s = ⟨[(SUCCESS, [65, 66, 10]), (EOF, [])], [1, 2, 3, 4], [SUCCESS], true, false, 1⟩ := by
  have h := session_view
  cases hr : runOk true BufferedRead.lineReader false (initial false [0, 0, 0, 0]) session with
  | none => rw [hr] at h; cases h
  | some s =>
    rw [hr] at h
    injection h with h
    exact ⟨s, runOk_reach session .init hr, h⟩

/-- The defect of `buffered_stream.c` on a real socket: a write of one element finds the send buffer of the socket full (`EAGAIN`), waits, and
is then sent twice; its handler is told of success once. -/
def twice : List Ev := [.enter, .write [⟨7, [1, 2, 3]⟩], .send .again, .leave, .writable none, .send (.sent 100), .leave, .leave]

set_option maxRecDepth 40000 in
theorem twice_view : (runOk true BufferedRead.lineReader true (initial true [0]) twice).map (fun s => (s.sock.outgoing, s.done.flatMap Write.asked, s.done.flatMap (fun x => x.world.calls.map (·.1)), s.cur.isNone)) =
    some ([1, 2, 3, 1, 2, 3], [1, 2, 3], [SUCCESS], true) := by decide +kernel

/-- C65: the full claim about writes is false: the peer gets the three bytes of a single successful write twice. -/
theorem one_element_sent_twice : ∃ s, Reach true BufferedRead.lineReader true [0] s ∧ s.cur = none ∧ s.done.flatMap Write.asked = [1, 2, 3] ∧
    s.done.flatMap (fun x => x.world.calls.map (·.1)) = [SUCCESS] ∧ s.sock.outgoing = [1, 2, 3, 1, 2, 3] := by
  have h := twice_view
  cases hr : runOk true BufferedRead.lineReader true (initial true [0]) twice with
  | none => rw [hr] at h; cases h
  | some s =>
    rw [hr] at h
    injection h with h
    simp only [Prod.mk.injEq] at h
    exact ⟨s, runOk_reach twice .init hr, Option.isNone_iff_eq_none.1 h.2.2.2, h.2.1, h.2.2.1, h.1⟩

/-- Why a stream whose socket lingers must not be closed while a write is under way: the write goes on after the application has closed the stream, and its
handler is called. -/
def afterClose : List Ev := [.enter, .write [⟨7, [1, 2, 3]⟩, ⟨8, [4]⟩], .send .again, .user .close fine, .leave, .writable none, .send (.sent 100)]

set_option maxRecDepth 40000 in
theorem write_goes_on_after_close : (run BufferedRead.lineReader (initial true [0]) afterClose).map (fun s => (s.br.closed, s.sock.log, s.done.flatMap (fun x => x.world.calls.map (·.1)))) =
    some (true, [.writeStarted 0 [1, 2, 3, 4], .closeCalled, .writeDone 0 SUCCESS 0, .writeStarted 1 [1, 2, 3, 4], .writeDone 1 SUCCESS 4], [SUCCESS]) := by decide +kernel

end Cio.StreamSocket
