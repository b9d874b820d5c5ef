import Verif.WsTcp.Complete
import Verif.StreamSocket.Examples
/-
Runs of two WebSockets over two connected sockets: the theorems are about something, and what is missing from the partial ones is missing for a reason.
-/
namespace Cio.WsTcp
open StreamSocket (Sys Write okEv okEv_allowed)
open BufferedWrite (FirstEndsEarly Resp)
open WsStream (Env handler shown jobOf exClient exSent)
open WsRecv (Seen seen)
open WsRoundTrip (Out1 delivered wire)

/-- `Proper`, computed. -/
def okProper (e : Env) (s : Sys) : StreamSocket.Ev → Bool
  | .user (.read j) _ => s.br.job.isNone && decide ((e.sess s.br).rx.cont ≠ .stopped) && decide (j = jobOf (e.sess s.br).rx)
  | .user (.consume _) _ => false
  | _ => true

theorem okProper_proper {e : Env} {s : Sys} {x : StreamSocket.Ev} (h : okProper e s x = true) : Proper e s x := by
  cases x with
  | user a os =>
    cases a with
    | read j =>
      unfold okProper at h
      simp only [Bool.and_eq_true, decide_eq_true_eq, Option.isNone_iff_eq_none] at h
      exact ⟨h.1.1, h.1.2, h.2⟩
    | consume k => cases h
    | close => exact trivial
  | _ => exact trivial

/-- A run within the rules. -/
def runOk (quiet : Bool) (E : Bool → Env) (c : Bool → Bool) : Net → List Ev → Option Net
  | n, [] => some n
  | n, .app i x :: es =>
    if okEv quiet (n.sys i) x && okProper (E i) (n.sys i) x then
      (step E n (.app i x)).bind fun n' =>
        if !(n'.sys i).br.closed || (n.sys i).br.closed || (n'.sys i).cur.isNone || !c i then runOk quiet E c n' es else none
    else none
  | n, x :: es => (step E n x).bind fun n' => runOk quiet E c n' es

theorem runOk_reach {quiet : Bool} {E : Bool → Env} {c : Bool → Bool} {mem : Bool → List UInt8} (es : List Ev) : ∀ {n n' : Net}, Reach quiet E c mem n →
    runOk quiet E c n es = some n' → Reach quiet E c mem n' := by
  induction es with
  | nil => intro n n' h hr; injection hr with hr; subst hr; exact h
  | cons x es ih =>
    intro n n' h hr
    cases x with
    | app i x =>
      unfold runOk at hr
      split at hr
      case isFalse => cases hr
      next hok =>
      rw [Bool.and_eq_true] at hok
      cases hs : step E n (.app i x) with
      | none => rw [hs] at hr; cases hr
      | some n1 =>
        rw [hs, Option.bind_some] at hr
        split at hr
        case isFalse => cases hr
        next hg =>
        refine ih (.step h (x := .app i x) ⟨okEv_allowed hok.1, okProper_proper hok.2, fun s' hs' g1 g2 => ?_⟩ hs) hr
        have : n1.sys i = s' := by
          unfold step at hs
          dsimp only at hs
          split at hs
          · cases hs
          · rw [hs'] at hs
            cases hs
            exact set_same _ _ _
        rw [this, g1, g2] at hg
        simpa [Option.isNone_iff_eq_none] using hg
    | carry i k =>
      unfold runOk at hr
      cases hs : step E n (.carry i k) with
      | none => rw [hs] at hr; cases hr
      | some n1 => rw [hs, Option.bind_some] at hr; exact ih (.step h (x := .carry i k) trivial hs) hr
    | fin i =>
      unfold runOk at hr
      cases hs : step E n (.fin i) with
      | none => rw [hs] at hr; cases hr
      | some n1 => rw [hs, Option.bind_some] at hr; exact ih (.step h (x := .fin i) trivial hs) hr

/-- Side `true` is a client, side `false` a server; both sockets linger. -/
def exServer : Env := ⟨.little, 8192, true, false, ⟨0, 0⟩, fun _ => true, fun _ => false⟩
def exE : Bool → Env := fun i => if i then exClient else exServer
def exC : Bool → Bool := fun _ => true
def exMem : Bool → List UInt8 := fun _ => List.replicate 125 0

/-- The client starts to read.  The server writes the two frames of `WsStream.exSent`, the first one with a short write and waiting; three bytes have arrived when the client reads two of them. -/
def exWritten : List Ev :=
  [.app true .enter, .app true (.user (.read (.atLeast 1)) fine), .app true (.loop fine), .app true .leave,
   .app false .enter, .app false (.write [⟨7, [0x82, 5]⟩, ⟨8, [10, 11, 12]⟩, ⟨9, [20, 21]⟩]), .app false (.send (.sent 4)), .carry false 3, .app false (.send .again),
   .app false .leave, .app false .leave,
   .app true (.readable (.bytes 2)), .app true (.loop fine), .app true (.loop fine), .app true (.loop fine), .app true .leave,
   .app false (.writable none), .app false (.send (.sent 100)), .app false (.write [⟨7, [0x89, 1]⟩, ⟨8, [7]⟩]), .app false (.send (.sent 100)), .app false .leave]

/-- The rest arrives and is read. -/
def exRead : List Ev :=
  exWritten ++ [.carry false 100, .app true (.readable (.bytes 100)), .app true (.loop fine), .app true (.loop fine), .app true (.user (.read (.atLeast 1)) fine),
    .app true (.loop fine), .app true (.loop fine), .app true (.loop fine), .app true (.loop fine), .app true (.user (.read (.atLeast 1)) fine), .app true (.loop fine), .app true .leave]

/-- The server closes; the client is told. -/
def exEnded : List Ev :=
  exRead ++ [.app false (.user .close fine), .fin false, .app true (.readable (.bytes 100)), .app true (.loop fine), .app true (.loop fine), .app true .leave]

/-- What the theorems ask about the state. -/
structure View where
  asked : List UInt8
  results : List (List Err)
  early : Bool
  flying : List UInt8
  incoming : List UInt8
  waiting : Bool
  closed : Bool
  errs : List Err
  busy : Bool
  shown : List Seen
deriving DecidableEq

def earlyB (x : Write) : Bool :=
  match x.answers.head? with
  | some (.ok n) => n == (BufferedWrite.flat x.chain).length || decide (n < (BufferedWrite.flat x.chain.dropLast).length)
  | _ => true

theorem early_of (x : Write) (h : earlyB x = true) : FirstEndsEarly x.chain x.answers := by
  intro n hn
  unfold earlyB at h
  rw [hn] at h
  simpa using h

def view (n : Net) : View :=
  ⟨(n.sys false).writes.flatMap Write.asked, (n.sys false).writes.map (fun x => x.world.calls.map (·.1)), (n.sys false).writes.all earlyB, n.flying false,
   (n.sys true).sock.incoming, (n.sys true).br.waiting, (n.sys true).br.closed, (n.sys true).br.transportErrs, (n.sys true).busy, seen (shown (exE true) (n.sys true).br)⟩

theorem written_of_view {n : Net} {bytes : List UInt8} {rs : List (List Err)} (h1 : (view n).asked = bytes) (h2 : (view n).results = rs) (h3 : (view n).early = true) (h4 : ∀ r ∈ rs, SUCCESS ∈ r) :
    AllWritten (n.sys false) bytes := by
  refine ⟨h1, fun x hx => ?_, fun x hx => early_of x (List.all_eq_true.1 h3 x hx)⟩
  have hm : x.world.calls.map (·.1) ∈ rs := by
    rw [← h2]; exact List.mem_map.2 ⟨x, hx, rfl⟩
  obtain ⟨⟨a, ch⟩, ha, hb⟩ := List.mem_map.1 (h4 _ hm)
  dsimp only at hb
  subst hb
  exact ⟨ch, ha⟩

def exBytes : List UInt8 := [0x82, 5, 10, 11, 12, 20, 21, 0x89, 1, 7]
example : wire .little true (Random.srandom 1 2) exSent = some exBytes := by decide +kernel

set_option maxRecDepth 40000 in
theorem written_view : (runOk true exE exC (initial exC exMem) exWritten).map view =
    some ⟨exBytes, [[SUCCESS], [SUCCESS]], true, [11, 12, 20, 21, 0x89, 1, 7], [10], true, false, [], false, []⟩ := by decide +kernel

set_option maxRecDepth 40000 in
theorem read_view : (runOk true exE exC (initial exC exMem) exRead).map view =
    some ⟨exBytes, [[SUCCESS], [SUCCESS]], true, [], [], true, false, [], false, delivered none (exSent.map Out1.frame)⟩ := by decide +kernel

set_option maxRecDepth 40000 in
theorem ended_view : (runOk true exE exC (initial exC exMem) exEnded).map view =
    some ⟨exBytes, [[SUCCESS], [SUCCESS]], true, [], [], false, false, [EOF], false, delivered none (exSent.map Out1.frame) ++ [.other (.fail 1000)]⟩ := by decide +kernel

theorem reached {es : List Ev} {v : View} (h : (runOk true exE exC (initial exC exMem) es).map view = some v) : ∃ n, Reach true exE exC exMem n ∧ view n = v := by
  cases hr : runOk true exE exC (initial exC exMem) es with
  | none => rw [hr] at h; cases h
  | some n =>
    rw [hr] at h
    injection h with h
    exact ⟨n, runOk_reach es .init hr, h⟩

/-- A state in which the hypotheses of `everything_can_arrive_partial` hold and nothing was seen yet. -/
example : ∃ n, Reach true exE exC exMem n ∧ (exE !false).server = !true ∧ AllWritten (n.sys false) exBytes ∧ (n.sys !false).br.closed = false ∧ (n.sys !false).br.transportErrs = [] ∧
    (n.sys !false).busy = false ∧ seen (shown (exE !false) (n.sys !false).br) = [] := by
  obtain ⟨n, h1, h2⟩ := reached written_view
  exact ⟨n, h1, rfl, written_of_view (congrArg View.asked h2) (congrArg View.results h2) (congrArg View.early h2) (by decide), congrArg View.closed h2, congrArg View.errs h2,
    congrArg View.busy h2, congrArg View.shown h2⟩

/-- A state in which the hypotheses of `binary_messages_arrive_partial` hold, of both of its parts. -/
example : ∃ n, Reach true exE exC exMem n ∧ AllWritten (n.sys false) exBytes ∧ n.flying false = [] ∧ (n.sys !false).sock.incoming = [] ∧ (n.sys !false).br.waiting = true ∧
    (n.sys !false).br.closed = false ∧ seen (shown (exE !false) (n.sys !false).br) = delivered none (exSent.map Out1.frame) := by
  obtain ⟨n, h1, h2⟩ := reached read_view
  exact ⟨n, h1, written_of_view (congrArg View.asked h2) (congrArg View.results h2) (congrArg View.early h2) (by decide), congrArg View.flying h2, congrArg View.incoming h2,
    congrArg View.waiting h2, congrArg View.closed h2, congrArg View.shown h2⟩

/-- A state in which the hypotheses of `nothing_lost_before_end_partial` and `end_is_true` hold. -/
example : ∃ n, Reach true exE exC exMem n ∧ AllWritten (n.sys false) exBytes ∧ .other (.fail 1000) ∈ seen (shown (exE !false) (n.sys !false).br) ∧ EOF ∈ (n.sys !false).br.transportErrs := by
  obtain ⟨n, h1, h2⟩ := reached ended_view
  refine ⟨n, h1, written_of_view (congrArg View.asked h2) (congrArg View.results h2) (congrArg View.early h2) (by decide), ?_, ?_⟩
  · have : seen (shown (exE !false) (n.sys !false).br) = _ := congrArg View.shown h2
    rw [this]; exact List.mem_append_right _ (List.mem_singleton.2 rfl)
  · have : (n.sys !false).br.transportErrs = _ := congrArg View.errs h2
    rw [this]; exact List.mem_singleton.2 rfl

/-- A server writes one message of two bytes; sendmsg accepts all but the last byte at first. -/
def exDouble : List Ev :=
  [.app true .enter, .app true (.user (.read (.atLeast 1)) fine), .app true (.loop fine), .app true .leave,
   .app false .enter, .app false (.write [⟨7, [0x82, 2]⟩, ⟨8, [0x82, 1]⟩]), .app false (.send (.sent 3)), .app false (.send (.sent 100)), .carry false 100,
   .app true (.readable (.bytes 100)), .app true (.loop fine), .app true (.loop fine), .app true (.loop fine), .app true (.loop fine),
   .app true (.user (.read (.atLeast 1)) fine), .app true (.loop fine), .app true (.loop fine), .app true (.loop fine), .app true (.loop fine)]

/-- The message, as sent. -/
def exOne : List Out1 := [{ type := .binary, fin := true, hdr := List.replicate 14 0, mem := fun a => if a = 0 then 0x82 else 1, saved := fun _ => 0, chain := [(0, 2)] }]

set_option maxRecDepth 40000 in
theorem double_view : (runOk true exE exC (initial exC exMem) exDouble).map view =
    some ⟨[0x82, 2, 0x82, 1], [[SUCCESS]], false, [], [], false, false, [], false,
      delivered none (exOne.map Out1.frame) ++ delivered none (exOne.map Out1.frame)⟩ := by decide +kernel

/-- C66: without `Asked.early` the claim is false.  The application of the one side sends one message and is told of success; nothing goes wrong but for one short write, and the application
of the other side gets the message twice. -/
theorem message_seen_twice : ∃ n, Reach true exE exC exMem n ∧ wire .little true (Random.srandom 1 2) exOne = some ((n.sys false).writes.flatMap Write.asked) ∧
    (∀ x ∈ (n.sys false).writes, Succeeded x) ∧ (n.sys true).br.transportErrs = [] ∧
    seen (shown (exE true) (n.sys true).br) = [.byte 0x82 2 true true, .byte 1 2 true true, .frameEnd 2 true true, .byte 0x82 2 true true, .byte 1 2 true true, .frameEnd 2 true true] := by
  obtain ⟨n, h1, h2⟩ := reached double_view
  refine ⟨n, h1, ?_, fun x hx => ?_, congrArg View.errs h2, (congrArg View.shown h2).trans (by decide +kernel)⟩
  · have : (n.sys false).writes.flatMap Write.asked = _ := congrArg View.asked h2
    rw [this]; decide +kernel
  · have hm : x.world.calls.map (·.1) ∈ [[SUCCESS]] := by
      rw [← show (view n).results = [[SUCCESS]] from congrArg View.results h2]; exact List.mem_map.2 ⟨x, hx, rfl⟩
    rw [List.mem_singleton] at hm
    obtain ⟨⟨a, ch⟩, ha, hb⟩ := List.mem_map.1 (show SUCCESS ∈ x.world.calls.map (·.1) by rw [hm]; exact List.mem_singleton.2 rfl)
    dsimp only at hb
    subst hb
    exact ⟨ch, ha⟩

end Cio.WsTcp
