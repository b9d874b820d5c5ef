import Verif.WsQueue.PongStep
import Verif.WsQueue.Grow
import Verif.WsQueue.Neg
/-
C21: every ping is answered by exactly one pong with the same payload, in order.
-/
namespace Cio.WsQueue

theorem reachP_P {s : State} {ps : List Nat} (h : ReachP s ps) (hc : Clean s) : P s.w (ps.map pongFor) := by
  induction h with
  | init => exact ⟨rfl, fun _ => rfl, List.prefix_rfl, fun _ hi => absurd hi (not_inFlight_none rfl), fun _ hp => by cases hp⟩
  | step s c ps hr ha ih =>
    have hc' := clean_step hc
    rw [List.map_append]
    rcases reach_inv hr.reach with h | ⟨h, -⟩ | ⟨-, p⟩
    · exact absurd h hc'
    · have : step s c = s := by unfold step; rw [if_pos h]
      rw [this, pingOf_off (by rintro ⟨h1, -⟩; rw [h] at h1; cases h1)]
      simpa using ih hc'
    · exact (ih hc').step p.next p.nextP c ha

/-- The answers to pings are pong frames of the right length, in the order in which the pings arrived, none too many: at every moment what has been sent is the
beginning of the sequence of right answers. -/
theorem pongs_answer_pings_partial {s : State} {ps : List Nat} (h : ReachP s ps) (hc : Clean s) : answers s.w.log <+: ps.map pongFor := (reachP_P h hc).pre

theorem quiet_phase {s : State} (h : Reach s) (hub : s.w.ub = false) (he : s.w.closedByError = false) (h0 : s.w.closes = 0) (hst : s.stack = []) :
    ∃ q u, Calm s.w [] q u := by
  rcases reach_inv h with h | ⟨h, -⟩ | ⟨-, p⟩
  · rw [he] at h; cases h.1
  · rw [hub] at h; cases h
  · obtain ⟨w, st⟩ := s
    have hst : st = [] := hst
    subst hst
    generalize hs : ([] : List Item) = st at p
    cases p with
    | calm _ q u c => exact ⟨q, u, c⟩
    | errored _ q' h1 h2 => rw [show w.closedByError = false from he] at h2; cases h2
    | dead _ q h1 h2 => rw [show w.closes = 0 from h0] at h2; cases h2
    | errAbort b => cases b <;> cases hs
    | closeAbort b => cases b <;> cases hs
    | respAbort b => cases b <;> cases hs
    | _ => cases hs

/-- Whenever the library has nothing to do, the transport owes it no callback, and the connection is open and has not failed, every ping that arrived has been
answered, by exactly one pong each. -/
theorem pings_all_answered_partial {s : State} {ps : List Nat} (h : ReachP s ps) (hub : s.w.ub = false) (hst : s.stack = []) (hp : s.w.pend = false)
    (h0 : s.w.closes = 0) (he : s.w.closedByError = false) : answers s.w.log = ps.map pongFor := by
  have hc : Clean s := fun h => by rw [he] at h; cases h.1
  have hP := reachP_P h hc
  obtain ⟨q, u, c⟩ := quiet_phase h.reach hub he h0 hst
  have hs := c.send
  rw [← hP.eq he]
  cases hs with
  | idle => rw [waiting_none (c.base.pong_free (by simp)), List.append_nil]
  | flight k' u h1 => rw [hp] at h1; cases h1
  | wait k' u h1 h2 => cases h2

/-- While the connection has not failed at most the last ping is not yet answered. -/
theorem one_ping_waits_partial {s : State} {ps : List Nat} (h : ReachP s ps) (he : s.w.closedByError = false) :
    ps.length ≤ (answers s.w.log).length + 1 := by
  have hc : Clean s := fun h => by rw [he] at h; cases h.1
  have hP := (reachP_P h hc).eq he
  have hl := congrArg List.length hP
  rw [List.length_append, List.length_map] at hl
  have : (waiting (s.w.jobs .pong)).length ≤ 1 := by
    unfold waiting
    split
    · split <;> simp
    · simp
  omega

/-- While an answer is queued or being written no further ping is taken from the stream (so the buffer with the payload is not overwritten). -/
theorem no_ping_before_answer_written_partial {s : State} {ps : List Nat} (h : ReachP s ps) (hub : s.w.ub = false) (hst : s.stack = []) (h0 : s.w.closes = 0)
    (he : s.w.closedByError = false) (hh : (s.w.jobs .pong).handler = .pongWritten) (hw : (s.w.jobs .pong).wbh ≠ none) (c : Choice) : pingOf s c = [] := by
  obtain ⟨q, u, cm⟩ := quiet_phase h.reach hub he h0 hst
  have hq : .pong ∈ q := by
    rcases Classical.em (Kind.pong ∈ q) with hq | hq
    · exact hq
    · exact absurd (cm.base.pong_free hq) hw
  refine pingOf_off ?_
  rintro ⟨-, hr, -⟩
  rw [(cm.tok.t2 hq hh).1] at hr; cases hr

/-! ### The bytes -/

theorem answers_append (a b : List Ev) : answers (a ++ b) = answers b ++ answers a := by
  induction a with
  | nil => simp [answers, answersR]
  | cons e a ih =>
    by_cases h : ∃ c o f x p, e = .sent .pong .pongWritten c o f x p
    · obtain ⟨c, o, f, x, p, rfl⟩ := h
      rw [List.cons_append, answers_pong, answers_pong, ih, List.append_assoc]
    · have h : ∀ c o f x p, e ≠ .sent .pong .pongWritten c o f x p := fun c o f x p he => h ⟨c, o, f, x, p, he⟩
      rw [List.cons_append, answers_other _ _ h, answers_other _ _ h, ih]

theorem step_answers (s : State) (c : Choice) :
    answers (step s c).w.log = answers s.w.log ++ (answers (step s c).w.log).drop (answers s.w.log).length := by
  obtain ⟨l, hl⟩ := grows_step s c
  rw [← hl, answers_append]
  simp

theorem ReachB.reachP {s : State} {buf : List UInt8} {got sent : List (List UInt8)} (h : ReachB s buf got sent) : ReachP s (got.map List.length) := by
  induction h with
  | init => exact .init
  | other s c buf got sent _ ha hp ih =>
    have := ReachP.step s c _ ih ha
    rwa [hp, List.append_nil] at this
  | ping s c buf bs got sent _ ha hp ih =>
    have := ReachP.step s c _ ih ha
    rw [hp] at this
    rwa [List.map_append]

/-- `n` bytes of the buffer for each of these frames. -/
def takes (buf : List UInt8) (fs : List Frame) : List (List UInt8) := fs.map fun f => buf.take f.2.2.2.1

theorem waiting_cases (j : Job) : waiting j = [] ∨ ∃ f, waiting j = [f] := by
  unfold waiting
  split
  · split
    · exact .inl rfl
    · exact .inr ⟨_, rfl⟩
  · exact .inl rfl

theorem prefix_one {α : Type} {l : List α} {x : α} (h : l <+: [x]) : l = [] ∨ l = [x] := by
  obtain ⟨t, h⟩ := h
  cases l with
  | nil => exact .inl rfl
  | cons a l =>
    right
    injection h with h1 h2
    rw [h1, (List.append_eq_nil_iff.mp h2).1]

/-- What is known about the bytes: those sent and those of the answer still to be sent are those that arrived; the buffer holds those of the last ping. -/
structure B (s : State) (buf : List UInt8) (got sent : List (List UInt8)) : Prop where
  eq : s.w.closedByError = false → sent ++ takes buf (waiting (s.w.jobs .pong)) = got
  pre : sent <+: got
  len : s.w.closedByError = false → ∀ f, waiting (s.w.jobs .pong) = [f] → f.2.2.2.1 = buf.length

/-- What a step sends of what was waiting (`W`) or just arrived. -/
theorem step_new {s : State} {ps : List Nat} {c : Choice} (h : ReachP s ps) (ha : Allowed s c) (hc : Clean (step s c)) (he : s.w.closedByError = false) :
    (answers (step s c).w.log).drop (answers s.w.log).length <+: waiting (s.w.jobs .pong) ++ (pingOf s c).map pongFor ∧
    ((step s c).w.closedByError = false → (answers (step s c).w.log).drop (answers s.w.log).length ++ waiting ((step s c).w.jobs .pong) =
      waiting (s.w.jobs .pong) ++ (pingOf s c).map pongFor) := by
  have h1 := (reachP_P h (clean_step hc)).eq he
  have h2 := reachP_P (.step s c ps h ha) hc
  have hs := step_answers s c
  generalize (answers (step s c).w.log).drop (answers s.w.log).length = new at hs ⊢
  rw [List.map_append, ← h1, List.append_assoc] at h2
  refine ⟨?_, fun h0 => ?_⟩
  · have := h2.pre
    rw [hs] at this
    exact (List.prefix_append_right_inj _).mp this
  · have := h2.eq h0
    rw [hs, List.append_assoc] at this
    exact List.append_cancel_left this

/-- After an error no answer is sent. -/
theorem no_answer_after_error {s : State} {ps : List Nat} {c : Choice} (h : ReachP s ps) (ha : Allowed s c) (hc : Clean (step s c)) (he : s.w.closedByError = true) :
    (answers (step s c).w.log).drop (answers s.w.log).length = [] := by
  -- the invariant can be used with what was already answered as all there is to answer
  have hP : P s.w (answers s.w.log) := P.error (reachP_P h (clean_step hc)).cont List.prefix_rfl he rfl rfl
  rcases reach_inv h.reach with h' | ⟨h', -⟩ | ⟨-, p⟩
  · exact absurd h' (clean_step hc)
  · have : step s c = s := by unfold step; rw [if_pos h']
    rw [this]; simp
  · have h2 := hP.step_gen p.next p.nextP c ha [] (.inr ⟨he, rfl⟩)
    have h3 := h2.pre.length_le
    rw [List.append_nil] at h3
    exact List.drop_eq_nil_of_le h3

theorem pongFor_len (n : Nat) : (pongFor n).2.2.2.1 = n := rfl

/-- One step, whatever was in the buffer before: `buf'` is what is in it afterwards. -/
theorem B.step {s : State} {buf buf' : List UInt8} {got sent ext : List (List UInt8)} {c : Choice} (b : B s buf got sent) (h : ReachP s (got.map List.length))
    (ha : Allowed s c) (hc : Clean (step s c)) (hx : (pingOf s c = [] ∧ buf' = buf ∧ ext = []) ∨ (pingOf s c = [buf'.length] ∧ ext = [buf'])) :
    B (step s c) buf' (got ++ ext) (sent ++ takes buf' ((answers (step s c).w.log).drop (answers s.w.log).length)) := by
  cases he : s.w.closedByError with
  | true =>
    have he' := (keeps_step s c).1 he
    rw [no_answer_after_error h ha hc he]
    refine ⟨fun h0 => absurd h0 (by rw [he']; simp), ?_, fun h0 => absurd h0 (by rw [he']; simp)⟩
    simpa [takes] using b.pre.trans (List.prefix_append _ _)
  | false =>
    obtain ⟨n1, n2⟩ := step_new h ha hc he
    generalize (answers (WsQueue.step s c).w.log).drop (answers s.w.log).length = new at n1 n2 ⊢
    have hb := b.eq he
    rcases hx with ⟨hp, rfl, rfl⟩ | ⟨hp, rfl⟩
    · rw [hp, List.map_nil, List.append_nil] at n1 n2
      rw [List.append_nil]
      refine ⟨fun h0 => ?_, ?_, fun h0 f hf => ?_⟩
      · rw [← hb, ← n2 h0]
        simp [takes]
      · rw [← hb]
        obtain ⟨t, ht⟩ := n1
        refine ⟨takes buf' t, ?_⟩
        rw [List.append_assoc]
        congr 1
        rw [← ht]; simp [takes]
      · have h2 := n2 h0
        rw [hf] at h2
        rcases waiting_cases (s.w.jobs .pong) with hw | ⟨g, hw⟩
        · rw [hw] at h2; simp at h2
        · rw [hw] at h2
          have : new = [] ∧ f = g := by
            cases new with
            | nil => simp at h2; exact ⟨rfl, h2⟩
            | cons a l => simp at h2
          rw [this.2]
          exact b.len he g hw
    · -- a ping arrives: nothing was waiting
      have hw : waiting (s.w.jobs .pong) = [] := by
        refine waiting_none ?_
        have hpa : ∃ m, c.act = .gotPing m := by
          unfold pingOf at hp
          split at hp
          · cases hact : c.act <;> rw [hact] at hp <;> simp [pingAct] at hp
            exact ⟨_, rfl⟩
          · cases hp
        obtain ⟨m, hm⟩ := hpa
        unfold Allowed at ha
        rw [hm] at ha
        exact ha.1
      rw [hw] at hb
      have hb : sent = got := by simpa [takes] using hb
      rw [hw, hp] at n1 n2
      have n1 : new <+: [pongFor buf'.length] := n1
      have n2 : (WsQueue.step s c).w.closedByError = false → new ++ waiting ((WsQueue.step s c).w.jobs .pong) = [pongFor buf'.length] := n2
      subst hb
      rcases prefix_one n1 with rfl | rfl
      · refine ⟨fun h0 => ?_, ?_, fun h0 f hf => ?_⟩
        · rw [List.nil_append] at n2
          rw [n2 h0]
          simp [takes, pongFor_len]
        · simp [takes]
        · have h2 := n2 h0
          rw [hf] at h2
          simp at h2
          rw [h2]; rfl
      · refine ⟨fun h0 => ?_, ?_, fun h0 f hf => ?_⟩
        · have h2 := n2 h0
          have : waiting ((WsQueue.step s c).w.jobs .pong) = [] := by simpa using h2
          rw [this]
          simp [takes, pongFor_len]
        · simp [takes, pongFor_len]
        · have h2 := n2 h0
          have : waiting ((WsQueue.step s c).w.jobs .pong) = [] := by simpa using h2
          rw [this] at hf; cases hf

theorem reachB_B {s : State} {buf : List UInt8} {got sent : List (List UInt8)} (h : ReachB s buf got sent) (hc : Clean s) : B s buf got sent := by
  induction h with
  | init => exact ⟨fun _ => rfl, List.prefix_rfl, fun _ f hf => by cases hf⟩
  | other s c buf got sent hr ha hp ih =>
    have := B.step (ext := []) (ih (clean_step hc)) hr.reachP ha hc (.inl ⟨hp, rfl, rfl⟩)
    rwa [List.append_nil] at this
  | ping s c buf bs got sent hr ha hp ih => exact B.step (ih (clean_step hc)) hr.reachP ha hc (.inr ⟨hp, rfl⟩)

/-- The payloads of the answers are the payloads of the pings, in order, none too many. -/
theorem pong_payloads_partial {s : State} {buf : List UInt8} {got sent : List (List UInt8)} (h : ReachB s buf got sent) (hc : Clean s) : sent <+: got :=
  (reachB_B h hc).pre

/-- Whenever the library has nothing to do, the transport owes it no callback, and the connection is open and has not failed, the payloads of the pongs sent
in answer are exactly the payloads of the pings that arrived. -/
theorem pong_payloads_all_partial {s : State} {buf : List UInt8} {got sent : List (List UInt8)} (h : ReachB s buf got sent) (hub : s.w.ub = false)
    (hst : s.stack = []) (hp : s.w.pend = false) (h0 : s.w.closes = 0) (he : s.w.closedByError = false) : sent = got := by
  have hc : Clean s := fun h => by rw [he] at h; cases h.1
  have hb := (reachB_B h hc).eq he
  have h1 := pings_all_answered_partial h.reachP hub hst hp h0 he
  have h2 := (reachP_P h.reachP hc).eq he
  have hw : waiting (s.w.jobs .pong) = [] := by
    rw [h1] at h2
    simpa using h2
  rw [hw] at hb
  simpa [takes] using hb

/-! ### The hypotheses are met -/

/-- State, buffer, payloads that arrived, payloads sent. -/
abbrev StB := State × List UInt8 × List (List UInt8) × List (List UInt8)

/-- One choice, with the payload if it is a ping. -/
def stepB (x : StB) (c : Choice) (bs : List UInt8) : Option StB :=
  if ¬ Allowed x.1 c then none
  else
    let s' := step x.1 c
    let new := fun (b : List UInt8) => takes b ((answers s'.w.log).drop (answers x.1.w.log).length)
    if pingOf x.1 c = [] then some (s', x.2.1, x.2.2.1, x.2.2.2 ++ new x.2.1)
    else if pingOf x.1 c = [bs.length] then some (s', bs, x.2.2.1 ++ [bs], x.2.2.2 ++ new bs)
    else none

def runB (x : StB) : List (Choice × List UInt8) → Option StB
  | [] => some x
  | (c, bs) :: cs => (stepB x c bs).bind fun x => runB x cs

theorem stepB_reach {x y : StB} {c : Choice} {bs : List UInt8} (h : ReachB x.1 x.2.1 x.2.2.1 x.2.2.2) (hs : stepB x c bs = some y) :
    ReachB y.1 y.2.1 y.2.2.1 y.2.2.2 := by
  unfold stepB at hs
  split at hs
  · cases hs
  · rename_i ha
    have ha : Allowed x.1 c := Classical.not_not.mp ha
    split at hs
    · rename_i hp
      injection hs with hs; subst hs
      exact .other x.1 c x.2.1 x.2.2.1 x.2.2.2 h ha hp
    · split at hs
      · rename_i hp
        injection hs with hs; subst hs
        exact .ping x.1 c x.2.1 bs x.2.2.1 x.2.2.2 h ha hp
      · cases hs

theorem runB_reach {x y : StB} {cs : List (Choice × List UInt8)} (h : ReachB x.1 x.2.1 x.2.2.1 x.2.2.2) (hs : runB x cs = some y) :
    ReachB y.1 y.2.1 y.2.2.1 y.2.2.2 := by
  induction cs generalizing x with
  | nil => injection hs with hs; subst hs; exact h
  | cons a cs ih =>
    obtain ⟨c, bs⟩ := a
    simp only [runB] at hs
    cases hx : stepB x c bs with
    | none => rw [hx] at hs; cases hs
    | some z =>
      rw [hx] at hs
      exact ih (stepB_reach h hx) hs

/-- A message and a ping of the user are written when a ping arrives; later a ping arrives whose answer is written at once, which uncovers a third one without payload. -/
def pinged : List (Choice × List UInt8) :=
  [(A (.call .read), []), (A .ret, []), (A (.call (.first 5 [2, 3] true true)), []), (A (.call (.ping [1])), []), (A (.gotPing 4), [1, 2, 3, 4]),
   (A (.written .success), []), (A .ret, []), (A .ret, []), (A (.written .success), []), (A .ret, []), (A .ret, []), (A (.written .success), []),
   (A (.gotPing 2) (.now .success), [7, 8]), (A (.gotPing 0), []), (A .ret, []), (A .ret, []), (A .ret, []), (A .ret, []), (A .ret, []), (A (.written .success), []), (A .ret, []), (A .ret, [])]

set_option maxRecDepth 20000 in
example : ∃ y, runB ({}, [], [], []) pinged = some y ∧ y.1.w.ub = false ∧ y.1.stack = [] ∧ y.1.w.pend = false ∧ y.1.w.closes = 0 ∧ y.1.w.closedByError = false ∧
    y.2.2.1 = [[1, 2, 3, 4], [7, 8], []] ∧ y.2.2.2 = [[1, 2, 3, 4], [7, 8], []] ∧ ReachB y.1 y.2.1 y.2.2.1 y.2.2.2 := by
  cases h : runB ({}, [], [], []) pinged with
  | none => exact absurd h (by decide)
  | some y =>
    refine ⟨y, rfl, ?_⟩
    have hr : ReachB y.1 y.2.1 y.2.2.1 y.2.2.2 := runB_reach (x := ({}, [], [], [])) .init h
    have hd : (runB ({}, [], [], []) pinged).any (fun y => decide (y.1.w.ub = false ∧ y.1.stack = [] ∧ y.1.w.pend = false ∧ y.1.w.closes = 0 ∧ y.1.w.closedByError = false ∧
        y.2.2.1 = [[1, 2, 3, 4], [7, 8], []] ∧ y.2.2.2 = [[1, 2, 3, 4], [7, 8], []])) = true := by decide
    rw [h] at hd
    simp only [Option.any_some, decide_eq_true_eq] at hd
    obtain ⟨h1, h2, h3, h4, h5, h6, h7⟩ := hd
    exact ⟨h1, h2, h3, h4, h5, h6, h7, hr⟩

/-! ### C21 is false in general -/

/-- A ping that arrives while a pong of the user is being written is never answered: the one pong job is used for both, and what was written counts as the answer. -/
theorem ping_unanswered : ∃ cs c, let s := run {} cs
    pingOf s c = [4] ∧ okRun {} cs = true ∧ ∃ cs', let t := run (step s c) cs'
      okRun (step s c) cs' = true ∧ t.w.ub = false ∧ t.stack = [] ∧ t.w.pend = false ∧ t.w.closes = 0 ∧ t.w.closedByError = false ∧ t.w.reading = true ∧ answers t.w.log = [] :=
  ⟨[A (.call .read), A .ret, A (.call (.pong [3]))], A (.gotPing 4), by decide, by decide, [A (.written .success), A .ret, A .ret], by decide⟩

end Cio.WsQueue
