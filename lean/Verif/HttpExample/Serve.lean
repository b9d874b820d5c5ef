import Verif.HttpExample.Props
/-
C104: the example HTTP server keeps serving as long as the operating system does what it is asked to do and no client resets its connection or
sends a request together with the end of the one before.
-/
namespace Cio.HttpExample
open HttpLife (State Choice Act Kind Item World Ev Cb Url Timer Open Closed Inv)

/-! ### Specification -/

/-- What is assumed about a step of a connection: timers can be set and cancelled, responses are written at once, reading does not fail, a handler can be
allocated, and a request does not arrive together with the end of the one before. -/
structure Fine (k : Conn) (c : Choice) : Prop where
  arm : c.arm = true
  cancel : c.cancel = true
  out : c.out = .now true
  read : c.act ≠ .readError
  alloc : c.act ≠ .onUrl .noHandler
  url : ∀ u, c.act = .onUrl u → k.st.w.phase = .start

/-- The same for all steps of the program: and `accept` does not fail, there is no signal. -/
def AllFine : Srv → List SAct → Prop
  | _, [] => True
  | s, a :: as =>
    (match a with
      | .acceptError | .signal => False
      | .conn i c => ∀ k, s.conns[i]? = some k → Fine k c
      | _ => True) ∧ ∀ s', step s a = some s' → AllFine s' as

/-! ### Invariant -/

/-- What can be below the piece of the library that runs. -/
def base : List Item → Bool
  | [] => true
  | [.bsRet] => true
  | [.exec _, .bsRet] => true
  | [.tail _ _, .bsRet] => true
  | [.user .message _ _, .exec _, .bsRet] => true
  | _ => false

def shp : List Item → Bool
  | .written ok :: l => ok && base l
  | .writtenEnd c ok :: l => c && ok && base l
  | .restart :: l => base l
  | .urlNext :: l | .headersEnd _ :: l => HttpLife.topExec l && base l
  | .messageEnd r :: l => r == .success && HttpLife.topExec l && base l
  | l => base l

def topWr : List Item → Bool
  | .written _ :: _ => true
  | _ => false

def topEnd : List Item → Bool
  | .writtenEnd _ _ :: _ => true
  | _ => false

def topMsg : List Item → Bool
  | .messageEnd _ :: _ => true
  | _ => false

def topHdr : List Item → Bool
  | .headersEnd _ :: _ => true
  | _ => false

def hasUser : List Item → Bool
  | [] => false
  | .user .. :: _ => true
  | _ :: l => hasUser l

structure Q (w : World) (st : List Item) (pc : Pc) : Prop where
  wr : w.writing = false
  ne : Ev.onError ∉ w.log
  sh : shp st = true
  fw : w.fired = w.written
  ci : w.closes = 0 → w.closeImm = true → topWr st = true ∨ topEnd st = true
  t1 : w.closes = 0 → w.closeImm = false → w.phase = .start ∨ w.phase = .header → w.reqT.set = true
  t2 : w.closes = 0 → w.closeImm = false → w.phase = .body → topHdr st = true ∨ w.reqT.set = true
  rt : topWr st = true → w.respT.set = true
  me : topMsg st = true → w.written = true
  us : hasUser st = true → pc ≠ .respond → w.written = true
  rc : w.respCb = false
  cp : w.closes = 0 → w.closeImm = true → w.parsing = 0

theorem q_new : Q newConn.st.w newConn.st.stack newConn.pc := by
  constructor <;> simp [newConn, HttpLife.init, shp, base, topWr, topMsg, hasUser]

/-- Closing. -/
theorem q_close {w : World} (h1 : w.writing = false) (h2 : Ev.onError ∉ w.log) (h3 : w.fired = w.written) (h4 : w.respCb = false) (l : Bool) {st : List Item}
    (hst : st = [] ∨ st = [.bsRet]) (pc : Pc) : Q (HttpLife.closeClient w l) st pc := by
  have hc : (HttpLife.closeClient w l).closes = w.closes + 1 := by
    cases hh : w.handler <;> cases l <;> by_cases hr : w.running = 0 <;> simp [HttpLife.closeClient, HttpLife.freeHandler, HttpLife.bsClose, HttpLife.streamClose, World.ev, hh, hr]
  have hn : (HttpLife.closeClient w l).closes ≠ 0 := by omega
  refine ⟨?_, ?_, ?_, ?_, fun h => absurd h hn, fun h => absurd h hn, fun h => absurd h hn, ?_, ?_, ?_, ?_, fun h => absurd h hn⟩
  · cases hh : w.handler <;> cases l <;> by_cases hr : w.running = 0 <;> simp [HttpLife.closeClient, HttpLife.freeHandler, HttpLife.bsClose, HttpLife.streamClose, World.ev, hh, hr, h1]
  · cases hh : w.handler <;> cases l <;> by_cases hr : w.running = 0 <;> simp [HttpLife.closeClient, HttpLife.freeHandler, HttpLife.bsClose, HttpLife.streamClose, World.ev, hh, hr, h2]
  · rcases hst with rfl | rfl <;> rfl
  · cases hh : w.handler <;> cases l <;> by_cases hr : w.running = 0 <;> simp [HttpLife.closeClient, HttpLife.freeHandler, HttpLife.bsClose, HttpLife.streamClose, World.ev, hh, hr, h3]
  · rcases hst with rfl | rfl <;> simp [topWr]
  · rcases hst with rfl | rfl <;> simp [topMsg]
  · rcases hst with rfl | rfl <;> simp [hasUser]
  · cases hh : w.handler <;> cases l <;> by_cases hr : w.running = 0 <;> simp [HttpLife.closeClient, HttpLife.freeHandler, HttpLife.bsClose, HttpLife.streamClose, World.ev, hh, hr, h4]

/-- The steps of a connection that was closed. -/
theorem q_closed {w : World} {st : List Item} {pc pc' : Pc} (h : Q w st pc) (hc : Closed w st) {c : Choice} {s' : State}
    (hs : HttpLife.step ⟨w, st⟩ c = some s') (hu : c.act ≠ .userClose ∧ ∀ k b, c.act ≠ .userRespond k b) : Q s'.w s'.stack pc' := by
  obtain ⟨c1, nu, p0, rq, rs, hd, hst⟩ := hc
  rcases hst with ⟨rfl, hrun, hsock, hrd, hwr⟩ | ⟨rfl, hrun, hsock, hsc⟩
  · simp only [HttpLife.step, nu, Bool.false_eq_true, if_false, HttpLife.eventStep, hrd, hwr, rq, rs] at hs
    split at hs <;> try (cases hs; done)
    · split at hs
      · simp only [Option.some.injEq] at hs
        subst hs
        obtain ⟨⟩ := h
        constructor <;> simp_all [World.ev, shp, base, topWr, topMsg, hasUser]
      · cases hs
    · exact absurd (by assumption) hu.1
    · exact absurd (by assumption) (hu.2 _ _)
  · simp only [HttpLife.step, nu, hsock, hsc, Bool.false_eq_true, if_false, if_true, reduceCtorEq, Option.some.injEq] at hs
    subst hs
    obtain ⟨⟩ := h
    cases hl : c.linger <;> constructor <;> simp_all [World.ev, shp, base, topWr, topMsg, hasUser, HttpLife.streamClose]

theorem below {w : World} {x : Item} {rest : List Item} {pc : Pc} (ho : Open w (x :: rest)) (hx : HttpLife.strip (x :: rest) = rest)
    (hp : w.parsing = 0) (_h : Q w (x :: rest) pc) : rest = [] ∨ rest = [.bsRet] := by
  rcases ho.shape with h | h | h
  · omega
  · rw [hx] at h; exact .inl h.2.2
  · rw [hx] at h; exact .inr h.2.2

theorem q_event {w : World} {pc pc' : Pc} {eof : Bool} (ho : Open w []) (h : Q w [] pc) {c : Choice} (hf : Fine ⟨⟨w, []⟩, pc, eof⟩ c) {s' : State}
    (ha : allowed ⟨⟨w, []⟩, pc, eof⟩ c = true) (hs : HttpLife.eventStep w c = some s') : Q s'.w s'.stack pc' := by
  have hp : w.parsing = 0 := by rcases ho.shape with h | h | h <;> simp_all [HttpLife.deep]
  have hci : w.closeImm = false := by
    cases hc : w.closeImm with
    | false => rfl
    | true => have := h.ci ho.c0 hc; simp [topWr, topEnd] at this
  obtain ⟨harm, hcan, hout, hread, halloc, hurl⟩ := hf
  have key : ∀ v : World, v.writing = false → Ev.onError ∉ v.log → v.fired = v.written → v.respCb = false → v.parsing = 0 →
      Q (HttpLife.respondOrMark v c).1 (HttpLife.respondOrMark v c).2 pc' := by
    intro v h1 h2 h3 h4 h5
    unfold HttpLife.respondOrMark HttpLife.writeResponse
    cases hw : v.written with
    | true =>
      simp only [if_true]
      unfold HttpLife.mark
      rw [if_pos h5]
      exact q_close h1 h2 h3 h4 _ (.inl rfl) _
    | false =>
      simp only [hout, harm, if_true, Bool.false_eq_true, if_false]
      constructor <;> simp_all [World.ev, shp, base, topWr, topEnd, topMsg, hasUser, Timer.arm]
  obtain ⟨⟩ := h
  unfold HttpLife.eventStep at hs
  split at hs
  · split at hs <;> simp at hs
    subst hs
    constructor <;> simp_all [HttpLife.parseStart, shp, base, topWr, topHdr, topMsg, hasUser]
  · split at hs <;> simp at hs
    subst hs
    constructor <;> simp_all [HttpLife.parseStart, shp, base, topWr, topHdr, topMsg, hasUser]
  · exact absurd (by assumption) hread
  · split at hs <;> simp_all
  · split at hs <;> simp at hs
    subst hs
    exact key _ (by assumption) (by assumption) (by assumption) (by assumption) hp
  · split at hs <;> simp at hs
    subst hs
    exact key _ (by assumption) (by assumption) (by assumption) (by assumption) hp
  · simp [ho.so] at hs
  · simp_all [allowed]
  · simp_all [allowed]
  · cases hs

theorem q_tail {w : World} {pc pc' : Pc} {e b : Bool} {rest : List Item} (ho : Open w (.tail e b :: rest)) (h : Q w (.tail e b :: rest) pc)
    {c : Choice} (harm : c.arm = true) (hout : c.out = .now true) : Q (HttpLife.tailStep w e b c rest).w (HttpLife.tailStep w e b c rest).stack pc' := by
  have hp : w.parsing = 1 := HttpLife.parsing_of ho (by simp [HttpLife.strip]) (by simp)
  have hr : rest = [.bsRet] := HttpLife.deep_tail (HttpLife.deep_of ho hp)
  subst hr
  have hci : w.closeImm = false := by
    cases hc : w.closeImm with
    | false => rfl
    | true => have := h.cp ho.c0 hc; omega
  have hcl : ∀ l, Q (HttpLife.closeClient { w with parsing := w.parsing - 1 } l) [.bsRet] pc' :=
    fun l => q_close (w := { w with parsing := w.parsing - 1 }) h.wr h.ne h.fw h.rc l (.inr rfl) _
  have hc0 := ho.c0
  unfold HttpLife.tailStep
  simp only
  split
  · exact hcl _
  split
  · unfold HttpLife.respondOrClose HttpLife.writeResponse
    cases hw : w.written with
    | true =>
      simp only [if_true]
      have := hcl c.linger
      rw [hw] at this
      exact this
    | false =>
      obtain ⟨⟩ := h
      simp only [hout, harm, if_true, Bool.false_eq_true, if_false]
      constructor <;> simp_all [World.ev, shp, base, topWr, topEnd, topMsg, hasUser, Timer.arm]
  split
  · exact hcl _
  obtain ⟨⟩ := h
  split
  · constructor <;> simp_all [shp, base, topWr, topHdr, topMsg, hasUser]
  split <;> constructor <;> simp_all [shp, base, topWr, topHdr, topMsg, hasUser]

theorem q_exec {w : World} {pc : Pc} {eof e : Bool} {rest : List Item} (ho : Open w (.exec e :: rest)) (h : Q w (.exec e :: rest) pc)
    {c : Choice} (hf : Fine ⟨⟨w, .exec e :: rest⟩, pc, eof⟩ c) {s' : State}
    (ha : allowed ⟨⟨w, .exec e :: rest⟩, pc, eof⟩ c = true) (hs : HttpLife.execStep w e c rest = some s') : Q s'.w s'.stack .respond := by
  have hp : w.parsing = 1 := HttpLife.parsing_of ho (by simp [HttpLife.strip]) (by simp)
  have hr : rest = [.bsRet] := HttpLife.deep_exec (HttpLife.deep_of ho hp)
  subst hr
  have hci : w.closeImm = false := by
    cases hc : w.closeImm with
    | false => rfl
    | true => have := h.cp ho.c0 hc; omega
  have hc0 := ho.c0
  obtain ⟨harm, hcan, hout, hread, halloc, hurl⟩ := hf
  have ha : _ := (Bool.and_eq_true _ _ ▸ ha).2
  have h0 := h
  obtain ⟨q1, q2, q3, q4, q5, q6, q7, q8, q9, q10, q11, q12⟩ := h
  unfold HttpLife.execStep at hs
  by_cases hd : w.dead = true
  · rw [if_pos hd] at hs
    simp only [Option.some.injEq] at hs
    subst hs
    constructor <;> simp_all [shp, base, topWr, topHdr, topMsg, hasUser]
  rw [if_neg hd] at hs
  have hd : w.dead = false := by simpa using hd
  have call0 : ∀ cb i, Q (HttpLife.callHandler w cb i [.exec e] false [.bsRet]).w (HttpLife.callHandler w cb i [.exec e] false [.bsRet]).stack .respond := by
    intro cb i
    unfold HttpLife.callHandler
    split
    · constructor <;> simp_all [shp, base, topWr, topHdr, topMsg, hasUser]
    split
    · constructor <;> simp_all [shp, base, topWr, topHdr, topMsg, hasUser]
    · constructor <;> simp_all [shp, base, topWr, topHdr, topMsg, hasUser]
  split at hs
  · next u hact =>
    have hph := hurl u hact
    simp only at hph
    rw [if_pos (.inl hph), Option.some.injEq] at hs
    subst hs
    have ht := q6 hc0 hci (.inl hph)
    cases u with
    | bad => constructor <;> simp_all [HttpLife.onUrl, shp, base, topWr, topHdr, topMsg, hasUser]
    | noHandler => exact absurd hact halloc
    | noFree => simp [hact] at ha
    | noCallbacks => simp [hact] at ha
    | ok => constructor <;> simp_all [HttpLife.onUrl, HttpLife.newHandler, World.ev, shp, base, topWr, topHdr, topMsg, hasUser, HttpLife.topExec]
    | noLocation =>
      unfold HttpLife.onUrl HttpLife.writeResponse
      cases hw : w.written with
      | true => simp only [if_true]; constructor <;> simp_all [shp, base, topWr, topHdr, topMsg, hasUser]
      | false =>
        simp only [hout, harm, if_true, Bool.false_eq_true, if_false]
        constructor <;> simp_all [World.ev, shp, base, topWr, topEnd, topMsg, hasUser, Timer.arm]
  · next call hact =>
    have hc : call = false := by simpa [hact] using ha
    subst hc
    split at hs
    · split at hs
      · split at hs
        · simp only [Option.some.injEq] at hs; subst hs
          constructor <;> simp_all [shp, base, topWr, topHdr, topMsg, hasUser]
        · simp only [Option.some.injEq] at hs; subst hs
          exact call0 _ _
      · simp only [Option.some.injEq] at hs; subst hs
        constructor <;> simp_all [shp, base, topWr, topHdr, topMsg, hasUser]
    · cases hs
  · next ka up body call hact =>
    have hc : call = false := by simpa [hact] using ha
    subst hc
    split at hs
    · next hph =>
      simp only [Option.some.injEq] at hs
      subst hs
      have ht := q6 hc0 hci (.inr hph)
      unfold HttpLife.onHeaders HttpLife.mark
      have hp' : ¬ w.parsing = 0 := by omega
      simp only [hp', if_false]
      have hv : ∀ tb : Bool, Q (HttpLife.callHandler { w with phase := .body, upgrade := up, keepAlive := ka, toBeClosed := tb, reqT := {} } .headers
          [.user .headers false body, .exec e] [.headersEnd body, .exec e] false [.bsRet]).w
          (HttpLife.callHandler { w with phase := .body, upgrade := up, keepAlive := ka, toBeClosed := tb, reqT := {} } .headers
          [.user .headers false body, .exec e] [.headersEnd body, .exec e] false [.bsRet]).stack .respond := by
        intro tb
        have hh := ho.hn hd (.inl hph)
        unfold HttpLife.callHandler
        split
        · constructor <;> simp_all [shp, base, topWr, topHdr, topMsg, hasUser, HttpLife.topExec]
        · next hfi =>
          have hfi : w.fired = false := by simpa using hfi
          rw [if_neg (hh (.inl hfi))]
          constructor <;> simp_all [shp, base, topWr, topHdr, topMsg, hasUser, HttpLife.topExec]
      split
      · simp only [Timer.cancel, ht, hcan, Bool.and_self, if_true]
        exact hv true
      · simp only [Timer.cancel, ht, hcan, Bool.and_self, if_true]
        exact hv w.toBeClosed
    · cases hs
  · next call hact =>
    have hc : call = false := by simpa [hact] using ha
    subst hc
    split at hs
    · simp only [Option.some.injEq] at hs; subst hs
      exact call0 _ _
    · cases hs
  · next call hact =>
    have hc : call = true := by simpa [hact] using ha
    subst hc
    split at hs
    · next hph =>
      simp only [Option.some.injEq] at hs
      subst hs
      have ht : w.reqT.set = true := by
        rcases q7 hc0 hci hph with h | h
        · simp [topHdr] at h
        · exact h
      have hv : ∀ t f, Q (HttpLife.callHandler { w with phase := .done, skip := false, reqT := t, finish := f } .message
          [.user .message false false, .exec e] [.messageEnd .success, .exec e] true [.bsRet]).w
          (HttpLife.callHandler { w with phase := .done, skip := false, reqT := t, finish := f } .message
          [.user .message false false, .exec e] [.messageEnd .success, .exec e] true [.bsRet]).stack .respond := by
        intro t f
        unfold HttpLife.callHandler
        split
        · constructor <;> simp_all [shp, base, topWr, topHdr, topMsg, hasUser, HttpLife.topExec]
        split
        · constructor <;> simp_all [shp, base, topWr, topHdr, topMsg, hasUser]
        · constructor <;> simp_all [World.ev, shp, base, topWr, topHdr, topMsg, hasUser]
      unfold HttpLife.onMessage
      simp only
      split
      · exact hv w.reqT w.finish
      · simp only [Timer.cancel, ht, hcan, Bool.and_self, if_true]
        exact hv {} .restart
    · cases hs
  · split at hs
    · simp only [Option.some.injEq] at hs; subst hs
      constructor <;> simp_all [shp, base, topWr, topHdr, topMsg, hasUser]
    · cases hs
  · split at hs
    · simp only [Option.some.injEq] at hs; subst hs
      constructor <;> simp_all [shp, base, topWr, topHdr, topMsg, hasUser]
    · cases hs
  · cases hs

/-- A response has been written, or something else in the library goes on. -/
theorem q_item {w : World} {pc : Pc} {eof : Bool} {i : Item} {rest : List Item} (ho : Open w (i :: rest)) (h : Q w (i :: rest) pc)
    {c : Choice} (hf : Fine ⟨⟨w, i :: rest⟩, pc, eof⟩ c) {s' : State} (ha : allowed ⟨⟨w, i :: rest⟩, pc, eof⟩ c = true)
    (hi : isAbove i = true) (hs : HttpLife.step ⟨w, i :: rest⟩ c = some s') : Q s'.w s'.stack pc := by
  have hc0 := ho.c0
  have hnu := ho.nu
  have hso := ho.so
  obtain ⟨harm, hcan, hout, hread, halloc, hurl⟩ := hf
  have ha : _ := (Bool.and_eq_true _ _ ▸ ha).2
  have hb : ∀ {x}, i = x → (HttpLife.strip (x :: rest) = rest) → w.parsing = 0 → rest = [] ∨ rest = [.bsRet] := by
    intro x hx hst hp
    subst hx
    exact below ho hst hp h
  have hrd := ho.rd
  have hq := h
  obtain ⟨q1, q2, q3, q4, q5, q6, q7, q8, q9, q10, q11, q12⟩ := h
  unfold HttpLife.step at hs
  simp only [hnu, hso, Bool.false_eq_true, if_false, reduceCtorEq] at hs
  have hbase : ∀ {l : List Item}, base l = true → shp l = true ∧ topWr l = false ∧ topHdr l = false ∧ topMsg l = false := by
    intro l hl
    unfold base at hl
    split at hl <;> first | (cases hl; done) | exact ⟨rfl, rfl, rfl, rfl⟩
  cases i with
  | user => cases hi
  | userWritten => cases hi
  | exec => cases hi
  | tail => cases hi
  | bsRet => cases hi
  | serverError => cases q3
  | urlNext =>
    have hact : c.act = .urlDone := by simpa using ha
    simp only [hact, Option.some.injEq] at hs
    subst hs
    simp only [shp, Bool.and_eq_true] at q3
    obtain ⟨b1, b2, b3, b4⟩ := hbase q3.2
    constructor <;> simp_all [topWr, topEnd, topHdr, hasUser]
  | headersEnd body =>
    simp only [Option.some.injEq] at hs
    subst hs
    simp only [shp, Bool.and_eq_true] at q3
    obtain ⟨b1, b2, b3, b4⟩ := hbase q3.2
    unfold HttpLife.headersEndStep
    simp only [harm, if_true, Timer.arm]
    constructor <;> simp_all [topWr, topEnd, topHdr, hasUser]
  | messageEnd r =>
    have hr : r = .success := by simpa [isAbove] using hi
    subst hr
    have hw := q9 rfl
    simp only [hw, Bool.not_true, Bool.false_eq_true, if_false, Option.some.injEq] at hs
    subst hs
    simp only [shp, Bool.and_eq_true] at q3
    obtain ⟨b1, b2, b3, b4⟩ := hbase q3.2
    constructor <;> simp_all [topWr, topEnd, topHdr, hasUser]
  | written ok =>
    simp only [Option.some.injEq] at hs
    subst hs
    have hr := q8 rfl
    simp only [shp, Bool.and_eq_true] at q3
    obtain ⟨rfl, q3⟩ := q3
    obtain ⟨b1, b2, b3, b4⟩ := hbase q3
    unfold HttpLife.writtenStep
    simp only [Timer.cancel, hr, hcan, Bool.and_self, if_true, q11, Bool.false_eq_true, if_false]
    constructor <;> simp_all [shp, topWr, topEnd, topHdr, topMsg, hasUser]
  | writtenEnd x ok =>
    simp only [Option.some.injEq] at hs
    subst hs
    simp only [shp, Bool.and_eq_true] at q3
    obtain ⟨⟨rfl, rfl⟩, q3⟩ := q3
    obtain ⟨b1, b2, b3, b4⟩ := hbase q3
    unfold HttpLife.writtenEndStep
    simp only [Bool.not_true, Bool.or_self, Bool.false_eq_true, if_false]
    split
    · unfold HttpLife.mark
      by_cases hp : w.parsing = 0
      · rw [if_pos hp]
        exact q_close q1 q2 q4 q11 _ (hb rfl rfl hp) _
      · rw [if_neg hp]
        have hcf : w.closeImm = false := by
          cases hc : w.closeImm with
          | false => rfl
          | true => exact absurd (q12 hc0 hc) hp
        constructor <;> simp_all [topWr, topEnd, topHdr, hasUser]
    · next hk =>
      have hk : w.closeImm = false ∧ w.keepAlive = true := by simpa using hk
      constructor <;> simp_all [shp, topWr, topEnd, topHdr, topMsg, hasUser]
  | restart =>
    simp only [Option.some.injEq] at hs
    subst hs
    simp only [shp] at q3
    obtain ⟨b1, b2, b3, b4⟩ := hbase q3
    have hcf : w.closeImm = false := by
      cases hc : w.closeImm with
      | false => rfl
      | true => have := q5 hc0 hc; simp [topWr, topEnd] at this
    unfold HttpLife.restartStep
    split
    · next hrc =>
      simp only [Bool.and_eq_true] at hrc
      have hp : w.parsing = 0 := by
        rcases ho.shape with h | h | h
        · have := hrd h.1 hrc.1; simp [HttpLife.topExec, HttpLife.topTail] at this
        · exact h.1
        · exact h.1
      have hu : hasUser rest = false := by rcases hb rfl rfl hp with rfl | rfl <;> rfl
      unfold HttpLife.freeHandler
      simp only [harm, if_true, Timer.arm]
      split <;> constructor <;> simp_all [World.ev, topEnd]
    · constructor <;> simp_all [topWr, topEnd, topHdr, hasUser]

theorem rule_of_fine {k : Conn} {c : Choice} (hf : Fine k c) (ha : allowed k c = true) (hq : Q k.st.w k.st.stack k.pc) : HttpLife.Rule k.st c := by
  have ha : _ := (Bool.and_eq_true _ _ ▸ ha).2
  refine ⟨?_, hf.url, ⟨hf.alloc, ?_⟩, ?_⟩
  · intro ok rest hst
    have := hq.sh
    rw [hst] at this
    cases this
  · intro hact
    simp only [hact] at ha
    cases hpc : k.pc <;> rw [hpc] at ha <;> split at ha <;> simp_all
  · intro h
    rw [hq.wr] at h; cases h

theorem q_step {k k' : Conn} {c : Choice} (hi : Inv k.st) (hq : Q k.st.w k.st.stack k.pc) (hci : CInv k) (hf : Fine k c) (hs : connStep k c = some k') :
    Q k'.st.w k'.st.stack k'.pc := by
  obtain ⟨ha, st, hst, rfl⟩ := connStep_some hs
  obtain ⟨⟨w, stack⟩, pc, eof⟩ := k
  simp only at hq hst ⊢
  rcases hi with ho | hc
  · simp only at ho
    cases stack with
    | nil =>
      exact q_event ho hq hf ha (by simpa [HttpLife.step, ho.nu] using hst)
    | cons i rest =>
      by_cases hk : isAbove i = true
      · rw [nextPc_above hk]
        exact q_item ho hq hf ha hk hst
      · have ha' : _ := (Bool.and_eq_true _ _ ▸ ha).2
        cases i with
        | exec e => exact q_exec ho hq hf ha (by simpa [HttpLife.step, ho.nu, ho.so] using hst)
        | tail e b =>
          have : st = HttpLife.tailStep w e b c rest := by
            simp only [HttpLife.step, ho.nu, ho.so, Bool.false_eq_true, if_false, reduceCtorEq, Option.some.injEq] at hst
            exact hst.symm
          subst this
          exact q_tail ho hq hf.arm hf.out
        | bsRet =>
          simp only [HttpLife.step, ho.nu, ho.so, ho.sc, Bool.false_eq_true, if_false, reduceCtorEq, Option.some.injEq] at hst
          subst hst
          have hr : rest = [] := by
            have := hq.sh
            cases rest with
            | nil => rfl
            | cons => cases this
          subst hr
          obtain ⟨⟩ := hq
          constructor <;> simp_all [shp, base, topWr, topEnd, topHdr, topMsg, hasUser]
        | user cb l b =>
          have hp : w.parsing = 1 := HttpLife.parsing_of ho (by simp [HttpLife.strip]) (by simp)
          have hcf : w.closeImm = false := by
            cases hc : w.closeImm with
            | false => rfl
            | true => have := hq.cp ho.c0 hc; omega
          have hsh : cb = .message ∧ ∃ e, rest = [.exec e, .bsRet] := by
            have := hq.sh
            simp only [shp] at this
            unfold base at this
            split at this <;> simp_all
          obtain ⟨rfl, e, rfl⟩ := hsh
          have hc0 := ho.c0
          have hnu := ho.nu
          have hso := ho.so
          have harm := hf.arm
          have hout := hf.out
          simp only [HttpLife.step, hnu, hso, Bool.false_eq_true, if_false, reduceCtorEq, HttpLife.userStep] at hst
          cases pc with
          | respond =>
            have hfi : w.fired = false := by
              cases hci with
              | good _ h => exact absurd rfl (h rfl)
              | waiting h _ => exact h.fired
            have hw : w.written = false := by rw [← hq.fw]; exact hfi
            have hact : c.act = .respond .plain false := by simpa using ha'
            have hn : nextPc ⟨⟨w, [.user .message l b, .exec e, .bsRet]⟩, .respond, eof⟩ c = .ret := by
              simp [nextPc, HttpLife.writeResponse, hw, harm, hout]
            rw [hn]
            simp only [hact, HttpLife.writeResponse, hw, harm, hout, Bool.false_eq_true, if_false, if_true, Option.some.injEq] at hst
            subst hst
            obtain ⟨⟩ := hq
            constructor <;> simp_all [World.ev, shp, base, topWr, topEnd, topHdr, topMsg, hasUser, Timer.arm]
          | close =>
            have hact : c.act = .close := by simpa using ha'
            have hp' : ¬ w.parsing = 0 := by omega
            simp only [hact, HttpLife.mark, hp', if_false, Option.some.injEq] at hst
            subst hst
            obtain ⟨⟩ := hq
            constructor <;> simp_all [shp, base, topWr, topEnd, topHdr, topMsg, hasUser]
          | ret =>
            have hact : c.act = .ret .success := by simpa using ha'
            simp only [hact, Option.some.injEq] at hst
            subst hst
            have hw := hq.us rfl (by simp)
            obtain ⟨⟩ := hq
            constructor <;> simp_all [shp, base, topWr, topEnd, topHdr, topMsg, hasUser, HttpLife.topExec]
        | userWritten ok => have := hq.sh; cases this
        | messageEnd r =>
          have := hq.sh
          simp only [shp, Bool.and_eq_true] at this
          exact absurd this.1.1 hk
        | urlNext => exact absurd rfl hk
        | headersEnd => exact absurd rfl hk
        | serverError => exact absurd rfl hk
        | written => exact absurd rfl hk
        | writtenEnd => exact absurd rfl hk
        | restart => exact absurd rfl hk
  · exact q_closed hq hc hst (by
      have ha' : _ := (Bool.and_eq_true _ _ ▸ ha).2
      rcases hc.st with ⟨h, _⟩ | ⟨h, _⟩ <;> simp only at h <;> subst h <;> constructor <;> intros <;> intro hact <;> simp [hact] at ha')

/-- Everything that is kept by the steps of a connection if all goes well. -/
structure Served (k : Conn) : Prop where
  inv : Inv k.st
  acc : HttpLife.Acc k.st.w
  q : Q k.st.w k.st.stack k.pc
  c : CInv k
  l : HttpLife.LogInv k.st.w

theorem served_new : Served newConn := ⟨HttpLife.full_init.inv, HttpLife.full_init.acc, q_new, cinv_new, HttpLife.logInv_init⟩

theorem served_step {k k' : Conn} {c : Choice} (h : Served k) (hf : Fine k c) (hs : connStep k c = some k') : Served k' := by
  have hq := q_step h.inv h.q h.c hf hs
  have hc := cinv_step h.c h.l hs
  obtain ⟨ha, st, hst, rfl⟩ := connStep_some hs
  have hr := rule_of_fine hf ha h.q
  have := HttpLife.full_step ⟨h.inv, h.acc⟩ c hr hst
  exact ⟨this.inv, this.acc, hq, hc, HttpLife.logInv_step h.l c hst⟩

theorem errors_zero {k : Conn} (h : Served k) : errors k.st = 0 := List.count_eq_zero.mpr h.q.ne

theorem serving {s s' : Srv} {as : List SAct} (h : ∀ k ∈ s.conns, Served k) (h1 : s.shutdowns = 0) (h2 : s.cancelled = false) (h3 : s.ended = false)
    (hf : AllFine s as) (hr : run s as = some s') :
    (∀ k ∈ s'.conns, Served k) ∧ s'.shutdowns = 0 ∧ s'.cancelled = false ∧ s'.ended = false := by
  induction as generalizing s with
  | nil => simp only [run, Option.some.injEq] at hr; subst hr; exact ⟨h, h1, h2, h3⟩
  | cons a as ih =>
    simp only [run] at hr
    cases ha : step s a with
    | none => rw [ha] at hr; cases hr
    | some s1 =>
      rw [ha] at hr
      have hf2 := hf.2 s1 ha
      have hf1 := hf.1
      unfold step at ha
      rw [h3] at ha
      simp only [Bool.false_eq_true, if_false] at ha
      cases a with
      | accept =>
        simp only [h1, if_true, Option.some.injEq] at ha
        subst ha
        refine ih ?_ ?_ ?_ ?_ hf2 hr
        rotate_left
        · rfl
        · exact h2
        · rfl
        intro k hk
        rcases List.mem_append.mp hk with hk | hk
        · exact h k hk
        · rw [List.mem_singleton.mp hk]; exact served_new
      | acceptError => exact hf1.elim
      | signal => exact hf1.elim
      | stop => simp [h2] at ha
      | conn i c =>
        simp only at ha hf1
        cases hi : s.conns[i]? with
        | none => rw [hi] at ha; cases ha
        | some k =>
          rw [hi] at ha
          simp only at ha
          cases hk : connStep k c with
          | none => rw [hk] at ha; cases ha
          | some k' =>
            have hs := served_step (h k (List.mem_of_getElem? hi)) (hf1 k hi) hk
            rw [hk] at ha
            simp only [Option.some.injEq, serveErrors, errors_zero hs, Nat.zero_sub] at ha
            subst ha
            refine ih ?_ ?_ ?_ ?_ hf2 hr
            rotate_left
            · simpa using h1
            · simpa using h2
            · rfl
            intro j hj
            rcases List.mem_or_eq_of_mem_set hj with hj | rfl
            · exact h j hj
            · exact hs

/-- C104: as long as the operating system does what it is asked to do, no client resets its connection and none sends a request together with the end of the one before,
the program goes on: `on_error` is called for no connection, whatever the clients send and whenever they close or stop sending, the server socket is not
shut down, every complete request for the location is answered with 200 at once, nothing undefined happens, every connection is closed and released at most once, and what was allocated for a connection that was released has been freed. -/
theorem keeps_serving_partial (as : List SAct) (hf : AllFine initial as) {s : Srv} (hr : run initial as = some s) :
    s.shutdowns = 0 ∧ s.ended = false ∧
    ∀ k ∈ s.conns, Ev.onError ∉ k.st.w.log ∧
      (∀ a e b, k.st.w.log = a ++ e :: .callback .message :: b → e = .response .plain) ∧ k.st.w.ub = false ∧ k.st.w.log.count .closing ≤ 1 ∧ k.st.w.log.count .freed ≤ 1 ∧
      (Ev.freed ∈ k.st.w.log → ∀ id, k.st.w.log.count (.handlerFree id) = k.st.w.log.count (.handlerAlloc id)) := by
  obtain ⟨h, h1, _, h3⟩ := serving (s := initial) (fun k hk => by cases hk) rfl rfl rfl hf hr
  refine ⟨h1, h3, fun k hk => ?_⟩
  have hk := h k hk
  refine ⟨hk.q.ne, ?_, ?_, ?_, ?_, ?_⟩
  · intro a e b hl
    have hans : Answered k.st.w.log := by
      cases hk.c with
      | good h _ => exact h.calm.ans
      | waiting h _ => exact h.ans
    rcases hans a e b hl with h | h
    · exact h
    · exact absurd (by rw [hl, h]; simp) hk.q.ne
  · rcases hk.inv with h | h
    · exact h.nu
    · exact h.nu
  · rw [hk.acc.cl]
    rcases hk.inv with h | h
    · rw [h.c0]; omega
    · rw [h.c1]; omega
  · by_cases hf : k.st.w.sock = .freed
    · rw [hk.acc.fd.1 hf]; omega
    · rw [hk.acc.fd.2 hf]; omega
  · intro hfr id
    have hfr : k.st.w.sock = .freed := by
      refine Classical.byContradiction fun hn => ?_
      have := hk.acc.fd.2 hn
      rw [List.count_eq_zero] at this
      exact this hfr
    have hh : k.st.w.handler = none := by
      rcases hk.inv with h | h
      · have := h.so; rw [hfr] at this; cases this
      · exact h.hd
    by_cases hid : id < k.st.w.allocs
    · rw [(hk.acc.al id).1 hid, (hk.acc.fr id).1 ⟨hid, by rw [hh]; simp⟩]
    · rw [(hk.acc.al id).2 hid, (hk.acc.fr id).2 (fun hh => hid hh.1)]

/-! ### Examples -/

/-- `Fine`, computed. -/
def fineB (k : Conn) (c : Choice) : Bool :=
  c.arm && c.cancel && c.out == .now true && c.act != .readError && c.act != .onUrl .noHandler &&
  (match c.act with
    | .onUrl _ => k.st.w.phase == .start
    | _ => true)

theorem fine_of_fineB {k : Conn} {c : Choice} (h : fineB k c = true) : Fine k c := by
  simp only [fineB, Bool.and_eq_true, bne_iff_ne, beq_iff_eq] at h
  obtain ⟨⟨⟨⟨⟨h1, h2⟩, h3⟩, h4⟩, h5⟩, h6⟩ := h
  refine ⟨h1, h2, h3, h4, h5, ?_⟩
  intro u hu
  rw [hu] at h6
  simpa using h6

/-- `AllFine`, computed. -/
def allFineB : Srv → List SAct → Bool
  | _, [] => true
  | s, a :: as =>
    (match a with
      | .acceptError | .signal => false
      | .conn i c => match s.conns[i]? with
        | some k => fineB k c
        | none => true
      | _ => true) && match step s a with
    | some s' => allFineB s' as
    | none => true

theorem allFine_of_allFineB {s : Srv} {as : List SAct} (h : allFineB s as = true) : AllFine s as := by
  induction as generalizing s with
  | nil => trivial
  | cons a as ih =>
    simp only [allFineB, Bool.and_eq_true] at h
    refine ⟨?_, ?_⟩
    · cases a with
      | accept => trivial
      | stop => trivial
      | acceptError => cases h.1
      | signal => cases h.1
      | conn i c =>
        intro k hk
        have := h.1
        simp only [hk] at this
        exact fine_of_fineB this
    · intro s' hs
      have := h.2
      rw [hs] at this
      exact ih this

private abbrev a : Act → Choice := HttpLife.Choice.of

/-- Three clients at once: one with two requests, one that sends nonsense, one that sends half a request and nothing more. -/
def threeClients : List SAct :=
  [.accept, .accept, .accept] ++ getDone.map (.conn 0) ++
  [a .readData, a .syntaxError, a .go, a .go, a .go, { act := .go, linger := true }, a .released].map (.conn 1) ++
  [a .readData, a (.onUrl .ok), a .urlDone, a .parsed, a .go, a .go, a .requestTimeout, a .go, { act := .go, linger := true }, a .released].map (.conn 2) ++
  getDone.map (.conn 0) ++ [a .readEof, a .parsed, a .go, a .go].map (.conn 0)

set_option maxRecDepth 100000 in
/-- The hypotheses of `keeps_serving_partial` are met by a run where three clients are served, refused (400) and timed out (408). -/
theorem example_three_clients : AllFine initial threeClients ∧
    seen threeClients = some ([
      ([.handlerAlloc 0, .callback .message, .response .plain, .handlerFree 0, .restarted,
        .handlerAlloc 1, .callback .message, .response .plain, .handlerFree 1, .restarted, .closing, .freed], false),
      ([.response .closing, .closing, .freed], false),
      ([.handlerAlloc 0, .response .closing, .closing, .handlerFree 0, .freed], false)], 0) :=
  ⟨allFine_of_allFineB (by decide +kernel), by decide +kernel⟩

end Cio.HttpExample
