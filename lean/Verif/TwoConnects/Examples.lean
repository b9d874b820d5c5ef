import Verif.TwoConnects.Prog
import Verif.PingPong.Examples
/-
C125: runs of the two connects example.
-/
namespace Cio.TwoConnects
open BufferedRead (UAct Handler Job World Call)
open StreamSocket (Sys Ev Write step Allowed fine)
open BufferedWrite (FirstEndsEarly flat)
open Echo (ToldSuccess elem early early_iff failed)

/-- One step of a connection; `true`: of the client.  The close hook of the client is called (`true`) or not. -/
def moveOf (hello : List UInt8) (quiet : Bool) : Client → Bool → Ev → Option (Client × Bool)
  | .up real x, true, e =>
    if StreamSocket.okEv quiet x.c e ∧ PingPong.arrives x.c x.s e then
      (step noReads x.c e).bind fun c' => (next hello x.p x.c c' e).map fun p' => (.up real { x with p := p', c := c' }, hooked x.c c')
    else none
  | .up true x, false, e =>
    if StreamSocket.okEv quiet x.s e ∧ PingPong.arrives x.s x.c e then
      (step (serverReads hello.length) x.s e).bind fun s' => (serverNext hello.length x.b e).map fun b' => (.up true { x with b := b', s := s' }, false)
    else none
  | _, _, _ => none

theorem moveOf_moves {hello : List UInt8} {quiet : Bool} {c c' : Client} {side h : Bool} {e : Ev} (hm : moveOf hello quiet c side e = some (c', h)) : Moves hello quiet c c' h := by
  unfold moveOf at hm
  split at hm
  · split at hm
    · next ok =>
      obtain ⟨c1, h1, hm⟩ := Option.bind_eq_some_iff.1 hm
      obtain ⟨p1, h2, hm⟩ := Option.map_eq_some_iff.1 hm
      injection hm with e1 e2
      subst e1; subst e2
      exact .client (PingPong.arrives_iff ok.2) (StreamSocket.okEv_allowed ok.1) h1 h2
    · cases hm
  · split at hm
    · next ok =>
      obtain ⟨c1, h1, hm⟩ := Option.bind_eq_some_iff.1 hm
      obtain ⟨p1, h2, hm⟩ := Option.map_eq_some_iff.1 hm
      injection hm with e1 e2
      subst e1; subst e2
      exact .server (PingPong.arrives_iff ok.2) (StreamSocket.okEv_allowed ok.1) h1 h2
    · cases hm
  · cases hm

/-- What happens to the program. -/
inductive Act where
  | answered1 (real : Bool)
  | answered2 (real : Bool)
  | first (side : Bool) (e : Ev) (r : Start)     -- `r`: what comes of the second client if the close hook is called
  | second (side : Bool) (e : Ev)
  | signal
  | stop

def isConnecting : Client → Bool
  | .connecting => true
  | _ => false

theorem isConnecting_iff {c : Client} (h : isConnecting c = true) : c = .connecting := by cases c <;> first | rfl | cases h

def act (hello : List UInt8) (quiet ct : Bool) (memc mems : List UInt8) (x : Prog) : Act → Option Prog
  | .answered1 real => if x.ended = false ∧ isConnecting x.first then some { x with first := begun ct memc mems real } else none
  | .answered2 real => if x.ended = false ∧ isConnecting x.second then some { x with second := begun ct memc mems real } else none
  | .first side e r =>
    if x.ended = false then
      match moveOf hello quiet x.first side e with
      | some (c, false) => some { x with first := c }
      | some (c, true) => some { x with first := c, second := r.client ct memc mems, launched := some r, cancels := x.cancels + r.cancels }
      | none => none
    else none
  | .second side e =>
    if x.ended = false then
      match moveOf hello quiet x.second side e with
      | some (c, false) => some { x with second := c }
      | some (c, true) => some { x with second := c, cancels := x.cancels + 1 }
      | none => none
    else none
  | .signal => some { x with cancels := x.cancels + 1, signals := x.signals + 1 }
  | .stop => if 0 < x.cancels then some { x with ended := true } else none

def runProg (hello : List UInt8) (quiet ct : Bool) (memc mems : List UInt8) : Prog → List Act → Option Prog
  | x, [] => some x
  | x, a :: as => (act hello quiet ct memc mems x a).bind fun x => runProg hello quiet ct memc mems x as

theorem act_reach {hello : List UInt8} {quiet ct : Bool} {memc mems : List UInt8} {x x' : Prog} {a : Act} (h : Reach hello quiet ct memc mems x) (ha : act hello quiet ct memc mems x a = some x') :
    Reach hello quiet ct memc mems x' := by
  cases a with
  | answered1 real =>
    simp only [act] at ha
    split at ha
    · next g => injection ha with ha; subst ha; exact .answered1 h g.1 (isConnecting_iff g.2) real
    · cases ha
  | answered2 real =>
    simp only [act] at ha
    split at ha
    · next g => injection ha with ha; subst ha; exact .answered2 h g.1 (isConnecting_iff g.2) real
    · cases ha
  | first side e r =>
    simp only [act] at ha
    split at ha
    · next g =>
      split at ha
      · next hm => injection ha with ha; subst ha; exact .first h g (moveOf_moves hm)
      · next hm => injection ha with ha; subst ha; exact .hook1 h g (moveOf_moves hm) r
      · cases ha
    · cases ha
  | second side e =>
    simp only [act] at ha
    split at ha
    · next g =>
      split at ha
      · next hm => injection ha with ha; subst ha; exact .second h g (moveOf_moves hm)
      · next hm => injection ha with ha; subst ha; exact .hook2 h g (moveOf_moves hm)
      · cases ha
    · cases ha
  | signal => injection ha with ha; subst ha; exact .signal h
  | stop =>
    simp only [act] at ha
    split at ha
    · next g => injection ha with ha; subst ha; exact .stop h g
    · cases ha

theorem runProg_reach {hello : List UInt8} {quiet ct : Bool} {memc mems : List UInt8} (as : List Act) {x x' : Prog} (h : Reach hello quiet ct memc mems x)
    (hr : runProg hello quiet ct memc mems x as = some x') : Reach hello quiet ct memc mems x' := by
  induction as generalizing x with
  | nil => injection hr with hr; subst hr; exact h
  | cons a as ih =>
    obtain ⟨y, h1, h2⟩ := Option.bind_eq_some_iff.1 hr
    exact ih (act_reach h h1) h2

/-- "hi" with its zero. -/
def hi : List UInt8 := [104, 105, 0]

/-- A client greets and closes its end; the server reads and closes its end; the client sees that. -/
def talk (r : Socket.SendRes) (l : List (Bool × Ev)) : List (Bool × Ev) :=
  [(true, .enter), (true, .write [⟨elem, hi⟩]), (true, .send r)] ++ l ++
    [(false, .enter), (false, .user (.read (.atLeast 3)) fine), (false, .loop fine), (false, .leave)]

def heard : List (Bool × Ev) := [(false, .peerSends hi), (false, .readable (.bytes 128)), (false, .loop fine), (false, .loop fine), (false, .leave)]

def over : List (Bool × Ev) :=
  [(false, .peerCloses), (false, .readable (.bytes 128)), (false, .loop fine), (false, .leave), (true, .peerCloses), (true, .readable (.bytes 128))]

/-- The kernel takes everything at once. -/
def plain : List (Bool × Ev) := talk (.sent 100) [(true, .user .close fine), (true, .leave), (true, .leave)] ++ heard ++ over

/-- The send buffer of the socket is full; then it is not. -/
def blocked : List (Bool × Ev) :=
  talk .again [(true, .leave), (true, .writable none), (true, .send (.sent 100)), (true, .user .close fine), (true, .leave), (true, .leave)] ++ heard ++ heard ++ over

def inFirst (l : List (Bool × Ev)) (r : Start) : List Act := l.map fun (b, e) => .first b e r
def inSecond (l : List (Bool × Ev)) : List Act := l.map fun (b, e) => .second b e

def mem0 : List UInt8 := List.replicate 8 0
def prog0 (atOnce : Bool) : Prog := ⟨if atOnce then begun true mem0 mem0 true else .connecting, .unused, none, 0, 0, false⟩

/-- What can be seen of a client and the server on its connection. -/
structure View where
  p : Phase
  sent : List UInt8
  got : List UInt8
  reads : List (Err × List UInt8)
  hooks : Nat
  serverClosed : Bool
  told : Bool        -- the write succeeded
  early : Bool       -- its first `sendmsg` took everything
deriving DecidableEq

def Client.view : Client → Option View
  | .up _ x => some ⟨x.p, x.c.sock.outgoing, x.s.br.consumed, x.s.br.calls.map (fun y => (y.err, y.view.take y.num)), x.c.sock.log.count .hook, x.s.br.closed,
      decide (x.c.done ≠ []) && !x.c.done.any failed, x.c.writes.all early⟩
  | _ => none

def Prog.view (x : Prog) : Option View × Option View × Option Start × Nat × Bool := (x.first.view, x.second.view, x.launched, x.cancels, x.ended)

/-- The whole program: the first client's greeting is taken at once, the second one's send buffer is full at first. -/
def whole : List Act := [.answered1 true] ++ inFirst plain .later ++ [.answered2 true] ++ inSecond blocked ++ [.stop]

set_option maxRecDepth 100000 in
theorem whole_view : (runProg hi true true mem0 mem0 (prog0 false) whole).map Prog.view =
    some (some ⟨.closed, hi, hi, [(SUCCESS, hi), (EOF, [])], 1, true, true, true⟩,
      some ⟨.closed, hi ++ hi, hi ++ hi, [(SUCCESS, hi), (SUCCESS, hi), (EOF, [])], 1, true, true, false⟩, some .later, 1, true) := by decide +kernel

/-- The attempt of the first client fails: its socket is closed, and the second one connects at once; then a signal arrives. -/
def unlucky : List Act := [.answered1 false] ++ inFirst [(true, .enter), (true, .user .close { fine with shutOk := false })] .atOnce ++ [.signal, .stop]

set_option maxRecDepth 100000 in
theorem unlucky_view : (runProg hi true true mem0 mem0 (prog0 false) unlucky).map Prog.view =
    some (some ⟨.closed, [], [], [], 1, false, false, true⟩, some ⟨.start, [], [], [], 0, false, false, true⟩, some .atOnce, 1, true) := by decide +kernel

/-- The second client cannot be connected: it is closed, and the program ends. -/
def refusedRun : List Act := inFirst plain .refused ++ inSecond [(true, .enter), (true, .user .close { fine with shutOk := false })] ++ [.stop]

set_option maxRecDepth 100000 in
theorem refused_view : (runProg hi true true mem0 mem0 (prog0 true) refusedRun).map Prog.view =
    some (some ⟨.closed, hi, hi, [(SUCCESS, hi), (EOF, [])], 1, true, true, true⟩, some ⟨.closed, [], [], [], 1, false, false, true⟩, some .refused, 2, true) := by decide +kernel

theorem of_view {b : Bool} {as : List Act} {v} (h : (runProg hi true true mem0 mem0 (prog0 b) as).map Prog.view = some v) : ∃ x, Reach hi true true mem0 mem0 x ∧ x.view = v := by
  obtain ⟨x, h1, h2⟩ := Option.map_eq_some_iff.1 h
  refine ⟨x, runProg_reach as (x := prog0 b) ?_ h1, h2⟩
  cases b
  · exact Reach.init false
  · exact Reach.init true

theorem view_up {c : Client} {v : View} (h : c.view = some v) : ∃ real y, c = .up real y ∧
    v = ⟨y.p, y.c.sock.outgoing, y.s.br.consumed, y.s.br.calls.map (fun y => (y.err, y.view.take y.num)), y.c.sock.log.count .hook, y.s.br.closed,
      decide (y.c.done ≠ []) && !y.c.done.any failed, y.c.writes.all early⟩ := by
  cases c with
  | up real y => injection h with h; exact ⟨real, y, rfl, h.symm⟩
  | unused => cases h
  | connecting => cases h

/-- C125: the full claim is false: a server can read the greeting twice on the connection of a client that wrote it once. -/
theorem greeting_read_twice : ∃ x real y, Reach hi true true mem0 mem0 x ∧ x.ended = true ∧ x.signals = 0 ∧ x.second = .up real y ∧ y.c.writes.length ≤ 1 ∧ y.s.br.consumed = hi ++ hi := by
  obtain ⟨x, h, hv⟩ := of_view whole_view
  unfold Prog.view at hv
  simp only [Prod.mk.injEq] at hv
  obtain ⟨-, v2, v3, v4, v5⟩ := hv
  obtain ⟨real, y, hy, v⟩ := view_up v2
  injection v with w1 w2 w3 w4 w5 w6 w7 w8
  have i := prog_inv (List.cons_ne_nil _ _) (List.cons_ne_nil _ _) (by decide) h
  have hk := i.cancels
  rw [v3, v4, hy] at hk
  have hk : 1 = x.signals + 0 + y.c.sock.log.count .hook := hk
  refine ⟨x, real, y, h, v5, by omega, hy, ?_, w3.symm⟩
  exact (client_sends (List.cons_ne_nil _ _) (List.cons_ne_nil _ _) (by decide) (both_clients (List.cons_ne_nil _ _) (List.cons_ne_nil _ _) (by decide) h (Or.inr hy))).1

theorem told_of_not_failed {w : Write} (h : failed w = false) : ToldSuccess w := by
  unfold failed at h
  split at h
  · next e ch hx => exact ⟨ch, by simp only [decide_eq_false_iff_not, Classical.not_not] at h; rw [hx, h]⟩
  · cases h

/-- The hypotheses of `server_reads_all`, `one_greeting_partial` and `one_after_the_other` are met by the first client of this run. -/
example : ∃ x real y w z, Reach hi true true mem0 mem0 x ∧ x.first = .up real y ∧ x.launched = some .later ∧ w ∈ y.c.done ∧ ToldSuccess w ∧ FirstEndsEarly w.chain w.answers ∧
    z ∈ y.s.br.calls ∧ z.err = EOF ∧ y.s.br.consumed = hi := by
  obtain ⟨x, h, hv⟩ := of_view whole_view
  unfold Prog.view at hv
  simp only [Prod.mk.injEq] at hv
  obtain ⟨v1, -, v3, -, -⟩ := hv
  obtain ⟨real, y, hy, v⟩ := view_up v1
  injection v with w1 w2 w3 w4 w5 w6 w7 w8
  have w7 := w7.symm
  rw [Bool.and_eq_true, decide_eq_true_eq, Bool.not_eq_true'] at w7
  obtain ⟨w, hw⟩ := List.exists_mem_of_ne_nil _ w7.1
  have hf : failed w = false := by have := List.any_eq_false.1 w7.2 w hw; simpa using this
  have he : (EOF, ([] : List UInt8)) ∈ y.s.br.calls.map (fun y => (y.err, y.view.take y.num)) := by rw [← w4]; simp
  obtain ⟨z, hz, ez⟩ := List.mem_map.1 he
  injection ez with ez _
  exact ⟨x, real, y, w, z, h, hy, v3, hw, told_of_not_failed hf, early_iff (List.all_eq_true.1 w8.symm w (List.mem_append_left _ hw)), hz, ez, w3.symm⟩

end Cio.TwoConnects
