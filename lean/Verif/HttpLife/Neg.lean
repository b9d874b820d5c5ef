import Verif.HttpLife.Props
/-
Executions that meet the hypotheses of `Props`, and what happens when one of the rules is broken (all of these are behaviours of the code).
-/
namespace Cio.HttpLife

/-- `Rule`, computed. -/
def ruleB (s : State) (c : Choice) : Bool :=
  (match s.stack, c.act with
    | .userWritten _ :: _, .close => s.w.parsing != 0
    | _, _ => true) &&
  (match c.act with
    | .onUrl u => s.w.phase == .start && u != .noHandler && u != .noFree
    | _ => true) && (!s.w.writing || !c.linger)

theorem rule_of_ruleB {s : State} {c : Choice} (h : ruleB s c = true) : Rule s c := by
  obtain ⟨w, st⟩ := s
  obtain ⟨act, out, arm, cancel, linger, short⟩ := c
  simp only [ruleB, Bool.and_eq_true] at h
  obtain ⟨⟨h1, h2⟩, h3⟩ := h
  constructor
  · rintro ok rest hst hact
    simp only at hst hact
    subst hst hact
    simpa using h1
  · rintro u hact
    simp only at hact
    subst hact
    simp at h2
    exact h2.1.1
  · constructor
    · rintro hact
      simp only at hact
      subst hact
      simp at h2
    · rintro hact
      simp only at hact
      subst hact
      simp at h2
  · intro hw
    simp only at hw
    simpa [hw] using h3

/-- `Obeys`, computed. -/
def obeysB : State → List Choice → Bool
  | _, [] => true
  | s, c :: cs => ruleB s c && match step s c with
    | some s' => obeysB s' cs
    | none => true

theorem obeys_of_obeysB {s : State} {cs : List Choice} (h : obeysB s cs = true) : Obeys s cs := by
  induction cs generalizing s with
  | nil => trivial
  | cons c cs ih =>
    simp only [obeysB, Bool.and_eq_true] at h
    refine ⟨rule_of_ruleB h.1, ?_⟩
    intro s' hs
    rw [hs] at h
    exact ih h.2

/-- The log, oldest first, whether there was undefined behaviour, and whether the library is idle. -/
def seen (cs : List Choice) : Option (List Ev × Bool × Bool) :=
  (run init cs).map fun s => (s.w.log.reverse, s.w.ub, s.stack.isEmpty)

private abbrev a : Act → Choice := Choice.of

/-- A request up to the callback for the complete message. -/
def request (upgrade : Bool) : List Choice :=
  [a .readData, a (.onUrl .ok), a (.urlCall true), a (.ret .success), a .parsed, a .go, a .go,
   a .readData, a (.onField true), a (.ret .success), a .parsed, a .go, a .go,
   a .readData, a (.onHeaders true upgrade false false), a .go, a (.onMessage true)]

/-- A response with a callback, written at once. -/
def respondNow : List Choice := [a (.respond .plain true), a .go, a (.ret .success), a .go, a .go]

/-- A response that is written later. -/
def respondLater : List Choice := [{ act := .respond .plain true, out := .later }]

/-- The callback returns, and so does everything else. -/
def finish : List Choice := [a (.ret .success), a .go, a .parsed, a .go, a .go, a .go]

/-- The response has been written. -/
def writtenLater : List Choice := [a (.writeDone true), a .go, a (.ret .success), a .go, a .go]

set_option maxRecDepth 20000 in
/-- Two keep-alive requests, the second one answered later, then the end of the stream: all rules are obeyed, and everything is released. -/
theorem example_keepalive :
    obeysB init (request false ++ respondNow ++ finish ++ request false ++ respondLater ++ finish ++ writtenLater ++
      [a .readEof, a .parsed, a .go, a .go]) = true ∧
    seen (request false ++ respondNow ++ finish ++ request false ++ respondLater ++ finish ++ writtenLater ++ [a .readEof, a .parsed, a .go, a .go]) =
      some ([.handlerAlloc 0, .callback .url, .callback .field, .callback .message, .response .plain, .responseCb, .handlerFree 0, .restarted,
        .handlerAlloc 1, .callback .url, .callback .field, .callback .message, .response .plain, .responseCb, .handlerFree 1, .restarted, .closing, .freed],
        false, true) := by decide +kernel

set_option maxRecDepth 20000 in
/-- A request that comes too slowly: 408, then closed. -/
theorem example_timeout :
    obeysB init [a .readData, a (.onUrl .ok), a (.urlCall true), a (.ret .success), a .parsed, a .go, a .go, a .requestTimeout, a .go, a .go] = true ∧
    seen [a .readData, a (.onUrl .ok), a (.urlCall true), a (.ret .success), a .parsed, a .go, a .go, a .requestTimeout, a .go, a .go] =
      some ([.handlerAlloc 0, .callback .url, .response .closing, .closing, .handlerFree 0, .freed], false, true) := by decide +kernel

set_option maxRecDepth 20000 in
/-- The hypotheses of `upgraded_is_left_alone` are met behind a request line. -/
theorem example_upgrade : ∃ w, run init [a .readData, a (.onUrl .ok), a (.urlCall true), a (.ret .success), a .parsed, a .go, a .go, a .readData] =
    some ⟨w, [.exec false, .bsRet]⟩ ∧ Open w [.exec false, .bsRet] ∧ w.phase = .header ∧ w.dead = false ∧ w.toBeClosed = false ∧ w.fired = false ∧
    w.reqT.set = true := by
  have hr : ∃ w, run init [a .readData, a (.onUrl .ok), a (.urlCall true), a (.ret .success), a .parsed, a .go, a .go, a .readData] =
      some ⟨w, [.exec false, .bsRet]⟩ ∧ w.closes = 0 ∧ w.phase = .header ∧ w.dead = false ∧ w.toBeClosed = false ∧ w.fired = false ∧
      w.reqT.set = true := ⟨_, rfl, rfl, rfl, rfl, rfl, rfl, rfl⟩
  obtain ⟨w, h1, h0, h2⟩ := hr
  refine ⟨w, h1, ?_, h2⟩
  rcases inv_run inv_init _ (obeys_of_obeysB (by decide +kernel)) h1 with h | h
  · exact h
  · have := h.c1; simp only at this; omega

set_option maxRecDepth 20000 in
/-- C26, negation: a user who closes the client in the callback that tells that the response was written makes the library use the client it has just
released, http_server.c 172-192. -/
theorem close_in_written_callback_ub :
    seen (request false ++ respondLater ++ finish ++ [a (.writeDone true), a .go, a .close, a (.ret .success)]) =
      some ([.handlerAlloc 0, .callback .url, .callback .field, .callback .message, .response .plain, .responseCb, .closing, .handlerFree 0, .freed],
        true, true) := by decide +kernel

set_option maxRecDepth 20000 in
/-- C26, negation: if a response is not written in time and the socket waits for the peer when it is closed (a close timeout is set), the write ends
afterwards: the user's callback is called for a handler that was freed and the client is closed twice, http_server.c 107-132, 165-192. -/
theorem late_write_closes_twice :
    seen (request false ++ respondLater ++ finish ++ [{ act := .responseTimeout, linger := true }, a (.writeDone false), a .go, a (.ret .success), a .go, { act := .go, linger := true }]) =
      some ([.handlerAlloc 0, .callback .url, .callback .field, .callback .message, .response .plain, .closing, .handlerFree 0, .responseCb, .onError, .closing],
        false, true) := by decide +kernel

set_option maxRecDepth 20000 in
/-- C26, negation: if no handler can be allocated and the response 500 can not be written at once, the next header field is given to a handler that does
not exist, http_server.c 503-507, 408-418. -/
theorem failed_allocation_ub :
    seen [a .readData, a (.onUrl .noHandler), { act := .go, out := .later }, a .parsed, a .go, a .go, a .readData, a (.onField true)] =
      some ([.onError, .response .closing], true, true) := by decide +kernel

set_option maxRecDepth 20000 in
/-- C26, negation: if the response 101 is not written at once, the handler of the upgraded connection is freed and the server goes on reading HTTP
requests from it, http_server.c 136-163, 165-192. -/
theorem delayed_upgrade_lost :
    seen [a .readData, a (.onUrl .ok), a (.urlCall true), a (.ret .success), a .parsed, a .go, a .go,
      a .readData, a (.onHeaders true true true true), { act := .respond .switching true, out := .later }, a (.ret .skipBody), a (.onMessage false), a .go,
      a .parsed, a .go, a .go, a (.writeDone true), a .go, a (.ret .success), a .go, a .go] =
      some ([.handlerAlloc 0, .callback .url, .callback .headers, .response .switching, .responseCb, .handlerFree 0, .restarted], false, true) := by
  decide +kernel

set_option maxRecDepth 20000 in
/-- C26, negation: a request that offers an upgrade (RFC 7230, 6.7: a server may ignore it) and is answered in the ordinary way: the connection is kept, but
nothing is read from it any more; only the timer for the body of the request, which is complete, ends it, http_server.c 424-433, 606-608. -/
theorem offered_upgrade_stops_reading :
    (run init (request true ++ respondNow ++ [a (.ret .success), a .go, a .parsed, a .go, a .go])).map
      (fun s => (s.stack, s.w.reading, s.w.reqComplete && s.w.completed, s.w.reqT.armed, s.w.log.contains .restarted)) =
      some ([], false, true, true, false) := by decide +kernel

set_option maxRecDepth 20000 in
/-- C26, negation: a second request that is parsed in the same call of http_parser: the handler of the first one is never freed, http_server.c 503. -/
theorem pipelined_handler_leaked :
    seen (request false ++ respondNow ++ [a (.ret .success), a .go, a (.onUrl .ok), a .urlDone, a .parsed, a .go, a .go, a .go, a .readEof, a .parsed, a .go, a .go]) =
      some ([.handlerAlloc 0, .callback .url, .callback .field, .callback .message, .response .plain, .responseCb, .handlerAlloc 1, .handlerFree 1, .restarted,
        .closing, .freed], false, true) := by decide +kernel

end Cio.HttpLife
