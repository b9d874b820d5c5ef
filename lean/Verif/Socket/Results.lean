import Verif.Socket.Props
/-
C33, continued: what the operating system answers is what the caller or the handler is told, value by value.
-/
namespace Cio.Socket

/-- What a caller of `cio_socket_connect` sees at once, for each result of connect(2). -/
def connectSeen : ConnRes → List Obs
  | .done => [.connectStarted, .connectDone SUCCESS]
  | .inProgress => [.connectStarted]
  | .error e => [.connectRefused e]

/-- What a caller of `write_some` sees at once, for each result of sendmsg(2); `t` is the number of the write. -/
def writeSeen (t : Nat) (data : List UInt8) : SendRes → List Obs
  | .sent n => [.writeStarted t data, .writeDone t SUCCESS (min n data.length)]
  | .again => [.writeStarted t data]
  | .error e => [.writeRefused t e]

/-- C33 (part): the result of connect(2) is what the caller is told: success calls the handler at once, EINPROGRESS calls nothing, an error is
returned and no handler is called. -/
theorem connect_result_partial {c : Bool} {s s' : St} {r : ConnRes} {ok : Bool} (h : Reach Rules c s) (hr : Rules s (.connect r ok))
    (hs : step s (.connect r ok) = some s') : s'.log = s.log ++ connectSeen r := by
  obtain ⟨-, -, -, hok⟩ := hr
  subst hok
  obtain ⟨hb, -, -, -⟩ := reach_inv h
  unfold step at hs
  rw [if_neg (by rw [hb.ub]; simp)] at hs
  rcases hst : s.stack with _ | ⟨i, k⟩ <;> rw [hst] at hs
  · cases hs
  have hi : i = .user := hb.stack i (by rw [hst]; simp)
  subst hi
  simp only at hs
  split at hs
  · injection hs with hs; subst hs
    unfold connect call
    cases r <;> simp [connectSeen]
  · cases hs

/-- C33 (part): a connect in progress is answered when the socket becomes writable, with the error of the socket if there is one. -/
theorem connect_answered_partial {c : Bool} {s : St} (h : Reach Rules c s) (hp : connects s.log = 1) (ha : s.alive = true) (hst : s.stack = [])
    (e : Option Err) : ∃ s', step s (.writable e) = some s' ∧ s'.log = s.log ++ [.connectDone (e.getD SUCCESS)] ∧ connects s'.log = 0 := by
  obtain ⟨hb, _, _, hw⟩ := reach_inv h
  have hc := hw.conn
  rw [hp] at hc
  split at hc
  · rename_i hcc
    have e1 : (writeCallback { s with regOut := false } e).log = s.log ++ [.connectDone (e.getD SUCCESS)] := by
      unfold writeCallback call
      simp only [hcc.2]
    refine ⟨writeCallback { s with regOut := false } e, ?_, e1, ?_⟩
    · unfold step
      rw [if_neg (by rw [hb.ub]; simp), hst]
      simp only
      rw [if_pos (by rw [hb.live ha, hcc.1]; rfl)]
    · rw [e1, connects_append, hp]; simp [connects]
  · cases hc

/-- C33 (part): the result of sendmsg(2) is what the caller is told. -/
theorem write_result_partial {c : Bool} {s s' : St} {d : List UInt8} {r : SendRes} {ok : Bool} (h : Reach Rules c s) (hr : Rules s (.write d r ok))
    (hs : step s (.write d r ok) = some s') :
    ∃ t, (∀ x, .writeStarted t x ∉ s.log) ∧ writeDones t s.log = 0 ∧ s'.log = s.log ++ writeSeen t d r := by
  obtain ⟨-, -, -, hok⟩ := hr
  subst hok
  obtain ⟨hb, -, -, hw⟩ := reach_inv h
  refine ⟨s.nextWrite, (hw.fresh _ (Nat.le_refl _)).1, (hw.fresh _ (Nat.le_refl _)).2, ?_⟩
  unfold step at hs
  rw [if_neg (by rw [hb.ub]; simp)] at hs
  rcases hst : s.stack with _ | ⟨i, k⟩ <;> rw [hst] at hs
  · cases hs
  have hi : i = .user := hb.stack i (by rw [hst]; simp)
  subst hi
  simp only at hs
  split at hs
  · injection hs with hs; subst hs
    unfold streamWrite call
    cases r <;> simp [writeSeen]
  · cases hs

/-- C33 (part): if read(2) fails, the handler of the pending read is told this error and gets no bytes. -/
theorem read_error_reported_partial {c : Bool} {s : St} (h : Reach Rules c s) {t : Nat} (hm : .readStarted t ∈ s.log) (h0 : readDones t s.log = 0)
    (ho : .closeCalled ∉ s.log) {e : Err} {s' : St} (hs : step s (.readable true (.error e)) = some s') :
    s'.log = s.log ++ [.readDone t e []] := by
  obtain ⟨hb, -, hrd, -⟩ := reach_inv h
  have hp : ∃ n, s.pendRead = some (t, n) := by
    rcases hrd.start t hm with h | h
    · omega
    · exact h
  obtain ⟨n, hp⟩ := hp
  have ha : s.alive = true := by
    cases hal : s.alive
    · exact absurd (hb.dead hal).2.2 ho
    · rfl
  unfold step at hs
  rw [if_neg (by rw [hb.ub]; simp)] at hs
  rcases hst : s.stack with _ | ⟨i, k⟩ <;> rw [hst] at hs
  case cons =>
    have hi : i = .user := hb.stack i (by rw [hst]; simp)
    subst hi
    cases hs
  simp only at hs
  split at hs
  · rename_i hreg
    split at hs
    · rename_i hp'
      rw [hp] at hp'
      injection hp' with hp'; injection hp' with e1 e2; subst e1; subst e2
      injection hs with hs; subst hs
      simp [readCallback, osRead, call]
    · rename_i hcb
      exact absurd ((hb.drain ha).2 hcb) ho
    · rename_i hn hx
      exfalso
      cases hcb : s.readCb with
      | none => exact (hb.regIn ha (Bool.and_eq_true_iff.1 hreg).2).1 hcb
      | read => exact hx _ _ hcb hp
      | drain => exact hn hcb
  · cases hs

/-- C33 (part): if epoll_ctl(2) fails, the caller of `cio_socket_connect`, `write_some` or `read_some` is told so, exactly once, and no handler is called (the
stack of calls is unchanged), in every state. -/
theorem epoll_failure_told {s s' : St} {d : List UInt8} {n : Nat} :
    (step s (.connect .inProgress false) = some s' → s'.log = s.log ++ [.connectRefused EPOLL_FAILED] ∧ s'.stack = s.stack) ∧
    (step s (.write d .again false) = some s' → s'.log = s.log ++ [.writeRefused s.nextWrite EPOLL_FAILED] ∧ s'.stack = s.stack ∧ s'.outgoing = s.outgoing) ∧
    (step s (.read n false) = some s' → s'.log = s.log ++ [.readRefused EPOLL_FAILED] ∧ s'.stack = s.stack ∧ s'.incoming = s.incoming) := by
  refine ⟨fun h => ?_, fun h => ?_, fun h => ?_⟩
  all_goals
    unfold step at h
    split at h
    · cases h
    · split at h <;> rename_i hm _ <;> first | contradiction | (cases h; done) | (cases hm; done) | skip
      all_goals (try (split at h <;> first | (cases h; done) | skip))
      all_goals first | (cases hm; cases h; simp [connect, streamWrite, streamRead, EPOLL_FAILED]; done) | (cases h; simp [connect, streamWrite, streamRead]; done)

/-- A session in which connect(2) is in progress and then fails, sendmsg(2) fails, and read(2) fails. -/
example : ∃ s, runRules (initial true) [.enter, .connect .inProgress true, .leave, .writable (some (-111)), .write [1] (.error (-32)) true, .read 4 true,
    .leave, .readable true (.error (-104))] = some s ∧
    s.log = [.connectStarted, .connectDone (-111), .writeRefused 0 (-32), .readStarted 0, .readDone 0 (-104) []] := ⟨_, rfl, by decide⟩

end Cio.Socket
