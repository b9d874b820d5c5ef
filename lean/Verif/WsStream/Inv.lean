import Verif.WsStream.Lemmas
/-
The invariant of websocket and buffered stream together.
-/
namespace Cio.WsStream
open BufferedRead (Job UAct World Call Satisfied BsState Core)
open WsRecv (Rx Out pump streamOf)

variable (e : Env)

/-- The receiver with its read pointer where the buffer has it. -/
def at' (w : World) : Rx := { (e.sess w).rx with addr := e.base + w.rb.fetch }

/-- What is still to come from the bytes already in the buffer. -/
def togo (w : World) : Rx × List UInt8 × List Out := pump e.o (w.rb.unread.length + 1) (at' e w) w.rb.unread

/-- The receiver that gets its bytes in these pieces. -/
def ideal (ps : List (Nat × List UInt8)) : Rx × List UInt8 × List Out := WsRecv.run e.o (WsRecv.start e.server e.selfClose e.utf8) [] ps

/-- The real receiver, once it has worked off its buffer, is where the ideal one is. -/
structure Agree (ps : List (Nat × List UInt8)) (w : World) : Prop where
  rx : ∀ a, ({ (ideal e ps).1 with addr := a } : Rx) = { (togo e w).1 with addr := a }
  buf : (ideal e ps).2.1 = (togo e w).2.1
  outs : (ideal e ps).2.2 = (e.sess w).outs ++ (togo e w).2.2

/-- The status with which an error of the transport ends the connection. -/
def codeOf (err : Err) : Nat := if err = EOF then 1000 else 1011

/-- The transport failed; everything that had arrived before was dealt with. -/
structure Broken (ps : List (Nat × List UInt8)) (w : World) : Prop where
  stopped : (e.sess w).rx.cont = .stopped
  going : (ideal e ps).1.cont ≠ .stopped
  outs : ∃ err ∈ w.transportErrs, (e.sess w).outs = (ideal e ps).2.2 ++ [.fail (codeOf err)]

structure Good (ds : List (List UInt8)) (w : World) : Prop where
  misuse : w.misuse = false
  refused : w.refused = 0
  over : w.overwritten = 0
  job : w.job = none ∨ w.job = some (jobOf (e.sess w).rx) ∧ (e.sess w).rx.cont ≠ .stopped
  ok : Ok e.selfClose (e.sess w).rx
  shall : w.shallClose = true → w.closed = true
  err : w.job ≠ none → w.lastError ≠ SUCCESS → WsRecv.step e.o (at' e w) w.rb.unread = none
  got : ds.flatten = w.received
  idle : w.job = none → (e.sess w).rx.cont ≠ .stopped → w.calls = [] ∨ (e.sess w).mayPause = true
  agree : ∃ ps : List (Nat × List UInt8), ps.map Prod.snd = ds ∧ (Agree e ps w ∨ Broken e ps w)

theorem sess_snoc (w : World) (c : Call) (w' : World) (h : w'.calls = w.calls ++ [c]) : e.sess w' = react e.o e.base (e.sess w) c := by
  unfold Env.sess sess
  rw [h, List.foldl_append]; rfl

/-- The record of this invocation. -/
def rec (w : World) (j : Job) (err : Err) (num : Nat) : Call := ⟨j, err, num, w.rb.unread, w.consumed, w.received, w.rb.fetch⟩

/-- What an invocation does to the world. -/
structure Called (w : World) (c : Call) (s : Sess) (r : World × BsState) : Prop where
  sess : e.sess r.1 = s
  calls : r.1.calls = w.calls ++ [c]
  rb : r.1.rb = w.rb.consume s.used
  received : r.1.received = w.received
  waiting : r.1.waiting = w.waiting
  looping : r.1.looping = w.looping
  errs : r.1.transportErrs = w.transportErrs
  misuse : r.1.misuse = (w.misuse || decide (w.rb.unreadBytes < s.used))
  over : r.1.overwritten = w.overwritten
  refused : r.1.refused = w.refused
  shall : r.1.shallClose = true → r.1.closed = true
  closed : r.1.closed = true ↔ w.closed = true ∨ r.2 = .closed
  again : r.2 ≠ .again
  job : r.1.job = none ∨ (r.1.job = some (jobOf s.rx) ∧ s.rx.cont ≠ .stopped ∧ r.1.lastError = SUCCESS)
  reads : s.rx.cont ≠ .stopped → s.mayPause = false → r.1.job ≠ none

theorem called (w : World) (j : Job) (err : Err) (num : Nat) (hsh : w.shallClose = false) (hcb : w.callbackIsRunning = 0)
    (hsz : ∀ n, jobOf (react e.o e.base (e.sess w) (rec w j err num)).rx = .atLeast n → n ≤ w.rb.mem.length) :
    Called e w (rec w j err num) (react e.o e.base (e.sess w) (rec w j err num)) (BufferedRead.callHandler (handler e) w j err num) := by
  generalize hw1 : ({ w with job := none, callbackIsRunning := w.callbackIsRunning + 1, calls := w.calls ++ [rec w j err num] } : World) = w1
  have hc1 : w1.calls = w.calls ++ [rec w j err num] := by subst hw1; rfl
  have hs1 := sess_snoc e w _ w1 hc1
  rw [← hs1] at hsz ⊢
  have hsame : ∀ v : World, v.calls = w1.calls → e.sess v = e.sess w1 := by intro v hv; unfold Env.sess; rw [hv]
  have hcall : BufferedRead.callHandler (handler e) w j err num =
      (let v : World := { (handler e w1).foldl BufferedRead.act w1 with callbackIsRunning := ((handler e w1).foldl BufferedRead.act w1).callbackIsRunning - 1 }
       if v.shallClose then ({ v with closed := true }, .closed) else (v, .open)) := by
    subst hw1; rfl
  rw [hcall]
  generalize hs : e.sess w1 = s at hsame hsz ⊢
  by_cases hstop : s.rx.cont = .stopped
  · by_cases hcl : e.closes w1 = true
    · have hh : handler e w1 = [.consume s.used, .close] := by simp [handler, hs, hstop, hcl]
      rw [hh]
      simp only [List.foldl_cons, List.foldl_nil, BufferedRead.act, BufferedRead.close]
      have hne : w1.callbackIsRunning ≠ 0 := by subst hw1; simp
      simp only [hne, if_false, if_true]
      subst hw1
      refine ⟨hsame _ rfl, rfl, rfl, rfl, rfl, rfl, rfl, rfl, rfl, rfl, fun _ => rfl, ?_, by simp, .inl rfl, ?_⟩
      · simp
      · intro h; exact absurd hstop h
    · have hh : handler e w1 = [.consume s.used] := by simp [handler, hs, hstop, hcl]
      rw [hh]
      simp only [List.foldl_cons, List.foldl_nil, BufferedRead.act]
      have hne : w1.shallClose = false := by subst hw1; exact hsh
      simp only [hne, Bool.false_eq_true, if_false]
      subst hw1
      refine ⟨hsame _ rfl, rfl, rfl, rfl, rfl, rfl, rfl, rfl, rfl, rfl, ?_, ?_, by simp, .inl rfl, ?_⟩
      · intro h; simp only [hsh] at h; cases h
      · simp
      · intro h; exact absurd hstop h
  · have hne : w1.shallClose = false := by subst hw1; exact hsh
    by_cases hp : (s.mayPause && e.waits w1) = true
    · have hh : handler e w1 = [.consume s.used] := by simp only [handler, hs, if_neg hstop, hp, if_true]
      rw [hh]
      simp only [List.foldl_cons, List.foldl_nil, BufferedRead.act]
      simp only [hne, Bool.false_eq_true, if_false]
      subst hw1
      refine ⟨hsame _ rfl, rfl, rfl, rfl, rfl, rfl, rfl, rfl, rfl, rfl, ?_, ?_, by simp, .inl rfl, ?_⟩
      · intro h; simp only [hsh] at h; cases h
      · simp
      · intro _ h; rw [h] at hp; cases hp
    · have hh : handler e w1 = [.consume s.used, .read (jobOf s.rx)] := by simp only [handler, hs, if_neg hstop, hp]; rfl
      rw [hh]
      have hread : ∀ v : World, v.rb.mem.length = w.rb.mem.length → BufferedRead.read v (jobOf s.rx) = BufferedRead.read.go v (jobOf s.rx) := by
        intro v hv
        unfold BufferedRead.read
        cases hj : jobOf s.rx with
        | atLeast n =>
          have := hsz n hj
          simp only
          rw [if_neg (by simp only [BufferedRead.ReadBuffer.size]; omega)]
        | _ => rfl
      have hfold : [UAct.consume s.used, UAct.read (jobOf s.rx)].foldl BufferedRead.act w1 =
          BufferedRead.read.go (BufferedRead.act w1 (.consume s.used)) (jobOf s.rx) := hread _ (by subst hw1; rfl)
      rw [hfold]
      simp only [BufferedRead.act, BufferedRead.read.go]
      simp only [hne, Bool.false_eq_true, if_false]
      subst hw1
      refine ⟨hsame _ rfl, rfl, rfl, rfl, rfl, ?_, rfl, rfl, rfl, rfl, ?_, ?_, by simp, .inr ⟨rfl, hstop, rfl⟩, ?_⟩
      · simp
      · intro h; simp only [hsh] at h; cases h
      · simp
      · intro _ _; simp

theorem unread_consume (w : World) (n : Nat) : (w.rb.consume n).unread = w.rb.unread.drop n := by
  simp only [BufferedRead.ReadBuffer.consume, BufferedRead.ReadBuffer.unread]
  rw [List.drop_take, List.drop_drop, Nat.sub_sub]

/-- `Good` does not look at these. -/
theorem Good.cong {ds : List (List UInt8)} {w w' : World} (h : Good e ds w) (hc : w'.calls = w.calls) (hrb : w'.rb = w.rb) (hj : w'.job = w.job)
    (hle : w'.lastError = w.lastError ∨ WsRecv.step e.o (at' e w) w.rb.unread = none) (hr : w'.received = w.received) (hm : w'.misuse = false) (hre : w'.refused = w.refused)
    (ho : w'.overwritten = w.overwritten) (hsh : w'.shallClose = true → w'.closed = true)
    (hte : ∀ x ∈ w.transportErrs, x ∈ w'.transportErrs) : Good e ds w' := by
  have hs : e.sess w' = e.sess w := by unfold Env.sess; rw [hc]
  have ha : at' e w' = at' e w := by unfold at'; rw [hs, hrb]
  have ht : togo e w' = togo e w := by unfold togo; rw [ha, hrb]
  refine ⟨hm, by rw [hre]; exact h.refused, by rw [ho]; exact h.over, by rw [hj, hs]; exact h.job, by rw [hs]; exact h.ok, hsh, ?_, ?_, by rw [hj, hs, hc]; exact h.idle, ?_⟩
  · rw [hj, ha, hrb]
    rcases hle with hle | hle
    · rw [hle]; exact h.err
    · exact fun _ _ => hle
  · rw [hr]; exact h.got
  · obtain ⟨ps, h1, h2⟩ := h.agree
    refine ⟨ps, h1, ?_⟩
    rcases h2 with h2 | h2
    · exact .inl ⟨by rw [ht]; exact h2.rx, by rw [ht]; exact h2.buf, by rw [ht, hs]; exact h2.outs⟩
    · refine .inr ⟨by rw [hs]; exact h2.stopped, h2.going, ?_⟩
      obtain ⟨err, m1, m2⟩ := h2.outs
      exact ⟨err, hte _ m1, by rw [hs]; exact m2⟩

/-- Nothing to do with the bytes in the buffer: what has been shown is all there is to show. -/
theorem Agree.idle {ps : List (Nat × List UInt8)} {w : World} (h : Agree e ps w) (hn : WsRecv.step e.o (at' e w) w.rb.unread = none) :
    (∀ a, ({ (ideal e ps).1 with addr := a } : Rx) = { (e.sess w).rx with addr := a }) ∧ (ideal e ps).2.1 = w.rb.unread ∧
      (ideal e ps).2.2 = (e.sess w).outs := by
  have ht : togo e w = (at' e w, w.rb.unread, []) := pump_none _ _ _ _ hn
  refine ⟨?_, by rw [h.buf, ht], by rw [h.outs, ht]; simp⟩
  intro a
  rw [h.rx a, ht]; rfl

theorem Agree.of_idle {ps : List (Nat × List UInt8)} {w : World} (hn : WsRecv.step e.o (at' e w) w.rb.unread = none)
    (h1 : ∀ a, ({ (ideal e ps).1 with addr := a } : Rx) = { (e.sess w).rx with addr := a }) (h2 : (ideal e ps).2.1 = w.rb.unread)
    (h3 : (ideal e ps).2.2 = (e.sess w).outs) : Agree e ps w := by
  have ht : togo e w = (at' e w, w.rb.unread, []) := pump_none _ _ _ _ hn
  refine ⟨?_, by rw [h2, ht], by rw [h3, ht]; simp⟩
  intro a
  rw [h1 a, ht]; rfl

/-- A handler gets its bytes. -/
theorem good_call {sz : Nat} {ds : List (List UInt8)} {w : World} (hsz : 125 ≤ sz) (h : Good e ds w) (hc : Core sz w) (hsh : w.shallClose = false)
    (hcb : w.callbackIsRunning = 0) (j : Job) (num : Nat) (rx' : Rx) (rest : List UInt8) (outs : List Out)
    (hs : WsRecv.step e.o (at' e w) w.rb.unread = some (rx', rest, outs)) :
    Good e ds (BufferedRead.callHandler (handler e) w j SUCCESS num).1 ∧
      Called e w (rec w j SUCCESS num) ⟨rx', (e.sess w).outs ++ outs, w.rb.unread.length - rest.length, outs.any pausing⟩
        (BufferedRead.callHandler (handler e) w j SUCCESS num) := by
  have hok : Ok e.selfClose (at' e w) := h.ok.addr _
  obtain ⟨hok', hlt⟩ := hok.step hs
  obtain ⟨haddr, k, hk, hrest⟩ := step_rest _ _ _ _ _ _ hs
  have hreact : react e.o e.base (e.sess w) (rec w j SUCCESS num) =
      ⟨rx', (e.sess w).outs ++ outs, w.rb.unread.length - rest.length, outs.any pausing⟩ := by
    unfold react
    rw [if_neg (by simp [rec])]
    have : WsRecv.step e.o { (e.sess w).rx with addr := e.base + (rec w j SUCCESS num).offset } (rec w j SUCCESS num).view = some (rx', rest, outs) := hs
    rw [this]; rfl
  have hcd := called e w j SUCCESS num hsh hcb (by
    intro n hn
    rw [hreact] at hn
    have := job_small hok' n hn
    rw [hc.rb.1]; omega)
  rw [hreact] at hcd
  refine ⟨?_, hcd⟩
  generalize BufferedRead.callHandler (handler e) w j SUCCESS num = r at hcd
  have hul := BufferedRead.unread_length sz w.rb hc.rb
  have hrl : rest.length = w.rb.unread.length - k := by rw [hrest, List.length_drop]
  have hused : w.rb.unread.length - rest.length = k := by omega
  have hstill : (e.sess w).rx.cont ≠ .stopped := by
    intro hst
    rw [WsRecv.step_stopped e.o (at' e w) _ hst] at hs; cases hs
  have hunread : r.1.rb.unread = rest := by rw [hcd.rb, unread_consume]; simp only [hused]; exact hrest.symm
  have hat : at' e r.1 = { rx' with addr := (at' e w).addr + (w.rb.unread.length - rest.length) } := by
    unfold at'
    rw [hcd.sess, hcd.rb]
    simp only [BufferedRead.ReadBuffer.consume]
    rw [Nat.add_assoc]
  refine ⟨?_, by rw [hcd.refused]; exact h.refused, by rw [hcd.over]; exact h.over, ?_, by rw [hcd.sess]; exact hok', hcd.shall, ?_, by rw [hcd.received]; exact h.got, ?_, ?_⟩
  · rw [hcd.misuse, h.misuse]
    simp only [Bool.false_or, decide_eq_false_iff_not, Nat.not_lt]
    omega
  · rcases hcd.job with q | ⟨q1, q2, q3⟩
    · exact .inl q
    · exact .inr ⟨by rw [hcd.sess]; exact q1, by rw [hcd.sess]; exact q2⟩
  · intro h1 h2
    rcases hcd.job with q | ⟨_, _, q3⟩
    · exact absurd q h1
    · exact absurd q3 h2
  · rw [hcd.sess]
    intro h1 h2
    right
    cases hmp : outs.any pausing with
    | true => rfl
    | false => exact absurd h1 (hcd.reads h2 hmp)
  · obtain ⟨ps, p1, p2⟩ := h.agree
    refine ⟨ps, p1, ?_⟩
    rcases p2 with p2 | p2
    · left
      have hp := pump_some e.o e.selfClose (at' e w) rx' w.rb.unread rest outs hok hs
      have ht : togo e w = ((togo e r.1).1, (togo e r.1).2.1, outs ++ (togo e r.1).2.2) := by
        unfold togo; rw [hunread, hat]; exact hp
      refine ⟨?_, by rw [p2.buf, ht], ?_⟩
      · intro a; rw [p2.rx a, ht]
      · rw [p2.outs, ht, hcd.sess]; simp
    · exact absurd p2.stopped hstill

/-- A handler is told of an error. -/
theorem good_error {ds : List (List UInt8)} {w : World} (h : Good e ds w) (hsh : w.shallClose = false) (hcb : w.callbackIsRunning = 0)
    (hmem : 0 < w.rb.mem.length) (j : Job) (err : Err) (num : Nat) (herr : err ≠ SUCCESS) (hin : err ∈ w.transportErrs) (hst : (e.sess w).rx.cont ≠ .stopped)
    (hs : WsRecv.step e.o (at' e w) w.rb.unread = none) :
    Good e ds (BufferedRead.callHandler (handler e) w j err num).1 := by
  have hreact : react e.o e.base (e.sess w) (rec w j err num) =
      ⟨{ (e.sess w).rx with cont := .stopped }, (e.sess w).outs ++ [.fail (codeOf err)], 0, false⟩ := by
    unfold react
    rw [if_pos (by simpa [rec] using herr)]; rfl
  have hcd := called e w j err num hsh hcb (by
    intro n hn
    rw [hreact] at hn
    simp only [jobOf, Job.atLeast.injEq] at hn
    omega)
  rw [hreact] at hcd
  generalize BufferedRead.callHandler (handler e) w j err num = r at hcd
  refine ⟨?_, by rw [hcd.refused]; exact h.refused, by rw [hcd.over]; exact h.over, ?_, ?_, hcd.shall, ?_, by rw [hcd.received]; exact h.got, (by rw [hcd.sess]; exact fun _ hn => absurd rfl hn), ?_⟩
  · rw [hcd.misuse, h.misuse]; simp
  · rcases hcd.job with q | ⟨q1, q2, q3⟩
    · exact .inl q
    · exact absurd rfl q2
  · rw [hcd.sess]; intro hn; exact absurd rfl hn
  · intro h1 h2
    rcases hcd.job with q | ⟨_, _, q3⟩
    · exact absurd q h1
    · exact absurd q3 h2
  · obtain ⟨ps, p1, p2⟩ := h.agree
    refine ⟨ps, p1, .inr ?_⟩
    rcases p2 with p2 | p2
    · have hg : (ideal e ps).1.cont ≠ .stopped := by
        have := congrArg Rx.cont ((p2.idle e hs).1 0)
        dsimp only at this
        rw [this]; exact hst
      refine ⟨by rw [hcd.sess], hg, err, by rw [hcd.errs]; exact hin, ?_⟩
      rw [hcd.sess, (p2.idle e hs).2.2]
    · exact absurd p2.stopped hst

end Cio.WsStream
