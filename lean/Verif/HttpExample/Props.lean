import Verif.HttpExample.Answers
/-
C104: the example HTTP server.
-/
namespace Cio.HttpExample
open HttpLife (State Choice Act Kind Item World Ev Cb Url Timer)

/-! ### Connections of the server are runs of a connection -/

def connRun : Conn → List Choice → Option Conn
  | k, [] => some k
  | k, c :: cs => (connStep k c).bind fun k => connRun k cs

theorem connRun_snoc {k k1 k2 : Conn} {cs : List Choice} {c : Choice} (h : connRun k cs = some k1) (h' : connStep k1 c = some k2) :
    connRun k (cs ++ [c]) = some k2 := by
  induction cs generalizing k with
  | nil =>
    simp only [connRun, Option.some.injEq] at h
    subst h
    simp [connRun, h']
  | cons d ds ih =>
    simp only [connRun, List.cons_append] at h ⊢
    cases hd : connStep k d with
    | none => rw [hd] at h; cases h
    | some k' => rw [hd] at h; exact ih h

/-- Something holds for every connection of every reachable state of the program if it holds for new ones and is kept by their steps. -/
theorem conns_induction {P : Conn → Prop} (h0 : P newConn) (hs : ∀ k c k', P k → connStep k c = some k' → P k') {s s' : Srv} {as : List SAct}
    (h : ∀ k ∈ s.conns, P k) (hr : run s as = some s') : ∀ k ∈ s'.conns, P k := by
  induction as generalizing s with
  | nil => simp only [run, Option.some.injEq] at hr; subst hr; exact h
  | cons a as ih =>
    simp only [run] at hr
    cases ha : step s a with
    | none => rw [ha] at hr; cases hr
    | some s1 =>
      rw [ha] at hr
      refine ih ?_ hr
      unfold step at ha
      split at ha
      · cases ha
      cases a with
      | accept =>
        simp only at ha
        split at ha
        · simp only [Option.some.injEq] at ha
          subst ha
          intro k hk
          rcases List.mem_append.mp hk with hk | hk
          · exact h k hk
          · rw [List.mem_singleton.mp hk]; exact h0
        · cases ha
      | acceptError =>
        simp only at ha
        split at ha
        · simp only [Option.some.injEq] at ha; subst ha; exact h
        · cases ha
      | signal => simp only [Option.some.injEq] at ha; subst ha; exact h
      | stop =>
        simp only at ha
        split at ha
        · simp only [Option.some.injEq] at ha; subst ha; exact h
        · cases ha
      | conn i c =>
        simp only at ha
        cases hi : s.conns[i]? with
        | none => rw [hi] at ha; cases ha
        | some k =>
          rw [hi] at ha
          simp only at ha
          cases hk : connStep k c with
          | none => rw [hk] at ha; cases ha
          | some k' =>
            rw [hk] at ha
            simp only [Option.some.injEq] at ha
            subst ha
            intro j hj
            rcases List.mem_or_eq_of_mem_set hj with hj | rfl
            · exact h j hj
            · exact hs k c _ (h k (List.mem_of_getElem? hi)) hk

/-- Every connection of the program is a run of the library. -/
theorem conns_are_runs {s : Srv} {as : List SAct} (hr : run initial as = some s) : ∀ k ∈ s.conns, ∃ cs, connRun newConn cs = some k :=
  conns_induction ⟨[], rfl⟩ (fun _ _ _ ⟨cs, h⟩ hs => ⟨cs ++ [_], connRun_snoc h hs⟩) (by simp [initial]) hr

theorem conns_inv {s : Srv} {as : List SAct} (hr : run initial as = some s) : ∀ k ∈ s.conns, CInv k ∧ HttpLife.LogInv k.st.w :=
  conns_induction ⟨cinv_new, HttpLife.logInv_init⟩
    (fun k c k' ⟨h1, h2⟩ hs => ⟨cinv_step h1 h2 hs, by
      obtain ⟨_, st, hst, rfl⟩ := connStep_some hs
      exact HttpLife.logInv_step h2 c hst⟩) (by simp [initial]) hr

/-! ### The program -/

/-- C104: on every connection, whatever the peers and the operating system do, each complete request whose URL is that of the location (each call of
`on_message_complete`) is answered at once with 200, before anything else happens on the connection, or the timer for the response could not be armed and `on_error` is called; when the library is idle no
request is left without that. -/
theorem every_request_is_answered (as : List SAct) {s : Srv} (hr : run initial as = some s) {k : Conn} (hk : k ∈ s.conns) :
    Answered k.st.w.log ∧ (k.st.stack = [] → pend k.st.w.log = false) := by
  obtain ⟨h, _⟩ := conns_inv hr k hk
  cases h with
  | good h _ => exact ⟨h.calm.ans, fun _ => h.calm.np⟩
  | waiting h _ =>
    refine ⟨h.ans, fun hst => ?_⟩
    obtain ⟨_, _, _, ht⟩ := h.top
    rw [hst] at ht; cases ht

/-- C104: the program never switches protocols, whatever it is asked. -/
theorem never_upgrades (as : List SAct) {s : Srv} (hr : run initial as = some s) {k : Conn} (hk : k ∈ s.conns) :
    Ev.response .switching ∉ k.st.w.log := by
  obtain ⟨h, _⟩ := conns_inv hr k hk
  cases h with
  | good h _ => exact h.calm.ns
  | waiting h _ => exact h.ns

/-- C104: at most one response per request. -/
theorem one_response_per_request (as : List SAct) {s : Srv} (hr : run initial as = some s) {k : Conn} (hk : k ∈ s.conns) {a b c : List Ev}
    {x y : Kind} (hl : k.st.w.log = a ++ .response y :: b ++ .response x :: c) : Ev.restarted ∈ b := by
  obtain ⟨_, h⟩ := conns_inv hr k hk
  exact HttpLife.okLog_split h.ok (Or.inl ⟨_, rfl⟩) hl

/-! ### The shutdown in `serve_error` -/

theorem run_append {s : Srv} (a b : List SAct) : run s (a ++ b) = (run s a).bind fun s' => run s' b := by
  induction a generalizing s with
  | nil => rfl
  | cons x a ih =>
    simp only [List.cons_append, run]
    cases step s x with
    | none => rfl
    | some s1 => exact ih

/-- A step on the connection accepted last. -/
theorem step_last {cs : List Conn} {n : Nat} {b : Bool} {k k' : Conn} {c : Choice} (h : connStep k c = some k') :
    step { conns := cs ++ [k], shutdowns := n, cancelled := b, ended := false } (.conn cs.length c) =
      some { conns := cs ++ [k'], shutdowns := n + (errors k'.st - errors k.st), cancelled := b || decide (0 < errors k'.st - errors k.st), ended := false } := by
  simp [step, h, serveErrors]

/-- Along these steps the number of calls of `on_error` does not decrease (computed). -/
def mono : Conn → List Choice → Bool
  | _, [] => true
  | k, c :: cs => match connStep k c with
    | none => false
    | some k' => errors k.st ≤ errors k'.st && mono k' cs

/-- What a single connection does is done to the server. -/
theorem run_last {cs : List Conn} {n : Nat} {b : Bool} {k k' : Conn} (l : List Choice) (h : connRun k l = some k') (hm : mono k l = true) :
    run { conns := cs ++ [k], shutdowns := n, cancelled := b, ended := false } (l.map (SAct.conn cs.length)) =
      some { conns := cs ++ [k'], shutdowns := n + (errors k'.st - errors k.st), cancelled := b || decide (0 < errors k'.st - errors k.st), ended := false } ∧
    errors k.st ≤ errors k'.st := by
  induction l generalizing k n b with
  | nil =>
    simp only [connRun, Option.some.injEq] at h
    subst h
    simp [run]
  | cons c l ih =>
    simp only [connRun] at h
    cases h1 : connStep k c with
    | none => rw [h1] at h; cases h
    | some k1 =>
      rw [h1] at h
      simp only [mono, h1, Bool.and_eq_true, decide_eq_true_eq] at hm
      have hle := hm.1
      obtain ⟨h2, h3⟩ := ih (n := n + (errors k1.st - errors k.st)) (b := b || decide (0 < errors k1.st - errors k.st)) h hm.2
      refine ⟨?_, by omega⟩
      simp only [List.map_cons, run, step_last h1, Option.bind_some]
      rw [h2]
      congr 1
      have ha : n + (errors k1.st - errors k.st) + (errors k'.st - errors k1.st) = n + (errors k'.st - errors k.st) := by omega
      have hb : (b || decide (0 < errors k1.st - errors k.st) || decide (0 < errors k'.st - errors k1.st)) = (b || decide (0 < errors k'.st - errors k.st)) := by
        cases b
        · simp only [Bool.false_or, ← Bool.decide_or]
          apply decide_eq_decide.mpr
          omega
        · rfl
      rw [ha, hb]

/-- Whatever happens to a new client, if `on_error` is called for it, stops the program. -/
theorem client_stops_server (l : List Choice) {k : Conn} (h : connRun newConn l = some k) (hm : mono newConn l = true) (he : 0 < errors k.st)
    (s : Srv) (h1 : s.ended = false) (h2 : s.shutdowns = 0) :
    run s (.accept :: l.map (SAct.conn s.conns.length) ++ [.stop]) =
      some { conns := s.conns ++ [k], shutdowns := errors k.st, cancelled := true, ended := true } := by
  obtain ⟨cs, n, b, e⟩ := s
  simp only at h1 h2
  subst h1 h2
  have h0 : errors newConn.st = 0 := rfl
  have := (run_last (cs := cs) (n := 0) (b := b) l h hm).1
  rw [List.cons_append, run]
  have hacc : step { conns := cs, shutdowns := 0, cancelled := b, ended := false } .accept =
      some { conns := cs ++ [newConn], shutdowns := 0, cancelled := b, ended := false } := rfl
  rw [hacc, Option.bind_some, run_append, this]
  have hd : decide (0 < errors k.st) = true := by simp [he]
  simp [run, step, h0, hd]

private abbrev a : Act → Choice := HttpLife.Choice.of

/-- C104, negation of "a client can only harm itself": from every state of the running program, one new client that connects and resets its connection stops the whole
server: every other connection is left as it is, whatever was under way on it (129-133). -/
theorem one_reset_stops_the_server (s : Srv) (h1 : s.ended = false) (h2 : s.shutdowns = 0) :
    ∃ k, run s [.accept, .conn s.conns.length (a .readError), .conn s.conns.length (a .go), .stop] =
      some { conns := s.conns ++ [k], shutdowns := 1, cancelled := true, ended := true } := by
  have h : ∃ k, connRun newConn [a .readError, a .go] = some k ∧ mono newConn [a .readError, a .go] = true ∧ errors k.st = 1 := ⟨_, rfl, rfl, rfl⟩
  obtain ⟨k, h3, h4, h5⟩ := h
  have := client_stops_server _ h3 h4 (by omega) s h1 h2
  rw [h5] at this
  exact ⟨k, this⟩

/-- A GET request for the location, one line at a time, with keep-alive, up to the end of `on_message_complete`. -/
def get : List Choice :=
  [a .readData, a (.onUrl .ok), a .urlDone, a .parsed, a .go, a .go, a .readData, a (.onHeaders true false false false), a .go, a (.onMessage true),
   a (.respond .plain false), a .go, a .go, a .go, a (.ret .success), a .go]

/-- A whole request, answered; the connection waits for the next one. -/
def getDone : List Choice := get ++ [a .parsed, a .go, a .go, a .go]

/-- A second request that is parsed by the same call of the parser. -/
def pipelined : List Choice := [a (.onUrl .ok), a .urlDone, a (.onHeaders true false false false)]

set_option maxRecDepth 100000 in
/-- C104: a client that sends its requests without waiting for the responses (RFC 7230, 6.3.2) stops the whole server as well, from every state of the
running program: the header timer was not armed for the second request (http_server.c 371-375). -/
theorem pipelining_stops_the_server (s : Srv) (h1 : s.ended = false) (h2 : s.shutdowns = 0) :
    ∃ k, run s (.accept :: (get ++ pipelined ++ [a .go]).map (SAct.conn s.conns.length) ++ [.stop]) =
      some { conns := s.conns ++ [k], shutdowns := 1, cancelled := true, ended := true } := by
  have h : ∃ k, connRun newConn (get ++ pipelined ++ [a .go]) = some k ∧ mono newConn (get ++ pipelined ++ [a .go]) = true ∧ errors k.st = 1 := by
    have : ((connRun newConn (get ++ pipelined ++ [a .go])).any fun k => errors k.st == 1) = true ∧
        mono newConn (get ++ pipelined ++ [a .go]) = true := by decide +kernel
    cases hk : connRun newConn (get ++ pipelined ++ [a .go]) with
    | none => rw [hk] at this; cases this.1
    | some k =>
      rw [hk] at this
      exact ⟨k, rfl, this.2, by simpa using this.1⟩
  obtain ⟨k, h3, h4, h5⟩ := h
  have := client_stops_server _ h3 h4 (by omega) s h1 h2
  rw [h5] at this
  exact ⟨k, this⟩

/-- What is seen of a run: the logs of the connections (oldest first), whether there was undefined behaviour, the calls of `cio_http_server_shutdown`. -/
def seen (as : List SAct) : Option (List (List Ev × Bool) × Nat) :=
  (run initial as).map fun s => (s.conns.map fun k => (k.st.w.log.reverse, k.st.w.ub), s.shutdowns)

set_option maxRecDepth 100000 in
/-- C104: two clients that fail before the event loop looks whether it was cancelled: the server socket is shut down twice, so its descriptor is closed twice. -/
theorem two_failures_shut_down_twice :
    (seen ([.accept, .accept, .conn 0 (a .readError), .conn 1 (a .readError), .conn 0 (a .go), .conn 1 (a .go), .stop])).map (·.2) = some 2 := by
  decide +kernel

set_option maxRecDepth 100000 in
/-- C104: one client, if the timer for the response 500 can not be armed either: `on_error` is called twice for one failure (http_server.c 337-345, 268-276). -/
theorem one_failure_shuts_down_twice :
    (seen [.accept, .conn 0 (a .readError), .conn 0 { act := .go, arm := false }, .stop]).map (·.2) = some 2 := by decide +kernel

/-- The request with the response written later. -/
def getLater : List Choice :=
  [a .readData, a (.onUrl .ok), a .urlDone, a .parsed, a .go, a .go, a .readData, a (.onHeaders true false false false), a .go, a (.onMessage true),
   { act := .respond .plain false, out := .later }, a (.ret .success), a .go, a .parsed, a .go, a .go, a .go]

set_option maxRecDepth 100000 in
/-- C104: the program sets a close timeout (53), so the rule of C26 does not hold for it: a client that does not read its response makes the server close the
connection twice, and the failure of the late write stops the whole server. -/
theorem slow_client_closed_twice :
    seen ([.accept] ++ (getLater ++ [{ act := .responseTimeout, linger := true }, a (.writeDone false), a .go, a .go, { act := .go, linger := true }]).map (.conn 0)) =
      some ([([.handlerAlloc 0, .callback .message, .response .plain, .closing, .handlerFree 0, .onError, .closing], false)], 1) := by decide +kernel

set_option maxRecDepth 100000 in
/-- Two requests on one connection, answered, and a client that closes its side: nothing is left, and the server goes on. -/
theorem example_two_requests :
    seen ([.accept] ++ (getDone ++ getDone ++ [a .readEof, a .parsed, a .go, a .go]).map (.conn 0)) =
      some ([([.handlerAlloc 0, .callback .message, .response .plain, .handlerFree 0, .restarted,
        .handlerAlloc 1, .callback .message, .response .plain, .handlerFree 1, .restarted, .closing, .freed], false)], 0) := by decide +kernel

end Cio.HttpExample
