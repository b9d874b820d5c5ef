import Verif.WsExample.Props
/-
The pings of the example program websocket_server.c: the ping timer, `send_ping` and `ping_written`.
-/
namespace Cio.WsExample
open Cio.WsQueue

/-! ### What is claimed -/

/-- Number of pings of the program that the library has accepted. -/
def pings : List Ev → Nat
  | [] => 0
  | .accepted _ .ping _ _ _ _ _ :: l => pings l + 1
  | _ :: l => pings l

/-- Number of pings of the program whose handler was told success. -/
def pingsOk : List Ev → Nat
  | [] => 0
  | .completed t .success _ :: l => pingsOk l + (if kindOf l t = some .ping then 1 else 0)
  | _ :: l => pingsOk l

/-- The latest ping of the program has not (yet) been written: since it was accepted no handler of a ping was told success. -/
def waiting : List Ev → Bool
  | [] => false
  | .accepted _ .ping _ _ _ _ _ :: _ => true
  | .completed t .success _ :: l => if kindOf l t = some .ping then false else waiting l
  | _ :: l => waiting l

/-! ### What the library does between two calls of the program -/

/-- An event that is neither the acceptance of a call nor the call of a handler. -/
def plain : Ev → Bool
  | .accepted .. => false
  | .completed .. => false
  | _ => true

/-- Further events, all of them plain. -/
def Quiet (l l' : List Ev) : Prop := ∃ news, l' = news ++ l ∧ ∀ e ∈ news, plain e = true

theorem Quiet.refl (l : List Ev) : Quiet l l := ⟨[], rfl, by simp⟩
theorem Quiet.trans {a b c : List Ev} (h : Quiet a b) (h' : Quiet b c) : Quiet a c := by
  obtain ⟨n, rfl, h1⟩ := h
  obtain ⟨m, rfl, h2⟩ := h'
  refine ⟨m ++ n, by simp, ?_⟩
  intro e he
  rcases List.mem_append.mp he with he | he
  · exact h2 e he
  · exact h1 e he
theorem Quiet.one {e : Ev} (l : List Ev) (h : plain e = true) : Quiet l (e :: l) := ⟨[e], rfl, by simpa using h⟩

theorem quiet_waiting {l l' : List Ev} (h : Quiet l l') : waiting l' = waiting l := by
  obtain ⟨n, rfl, h1⟩ := h
  induction n with
  | nil => rfl
  | cons e n ih =>
    have ih := ih (fun x hx => h1 x (List.mem_cons_of_mem _ hx))
    have he := h1 e List.mem_cons_self
    cases e <;> simp_all [plain, waiting]

theorem quiet_counts {l l' : List Ev} (h : Quiet l l') : pings l' = pings l ∧ pingsOk l' = pingsOk l ∧ ∀ t, kindOf l' t = kindOf l t := by
  obtain ⟨n, rfl, h1⟩ := h
  induction n with
  | nil => simp
  | cons e n ih =>
    have ih := ih (fun x hx => h1 x (List.mem_cons_of_mem _ hx))
    have he := h1 e List.mem_cons_self
    cases e <;> simp_all [plain, pings, pingsOk, kindOf]

/-- The library does something in which the program makes no call. -/
structure Lib (w w' : World) : Prop where
  evs : ∃ m, Quiet w.log m ∧ (w'.log = m ∨ ∃ t r c k, w'.log = .completed t r c :: m ∧ (w.jobs k).handler = .user t ∧
    (r = .success → k = .ping → (w'.jobs .ping).wbh = none))
  hd : ∀ k t, (w'.jobs k).handler = .user t → (w.jobs k).handler = .user t
  tickets : w'.tickets = w.tickets
  ping : (w.jobs .ping).wbh = none → (w'.jobs .ping).wbh = none

/-- The same without the call of a handler. -/
structure Still (w w' : World) : Prop where
  evs : Quiet w.log w'.log
  hd : ∀ k t, (w'.jobs k).handler = .user t → (w.jobs k).handler = .user t
  tickets : w'.tickets = w.tickets
  ping : (w.jobs .ping).wbh = none → (w'.jobs .ping).wbh = none

theorem Still.refl (w : World) : Still w w := ⟨Quiet.refl _, fun _ _ h => h, rfl, id⟩
theorem Still.trans {a b c : World} (h : Still a b) (h' : Still b c) : Still a c :=
  ⟨h.evs.trans h'.evs, fun k t x => h.hd k t (h'.hd k t x), h'.tickets.trans h.tickets, fun x => h'.ping (h.ping x)⟩
theorem Still.lib {a b : World} (h : Still a b) : Lib a b := ⟨⟨_, h.evs, .inl rfl⟩, h.hd, h.tickets, h.ping⟩
theorem Still.thenLib {a b c : World} (h : Still a b) (h' : Lib b c) : Lib a c := by
  obtain ⟨m, hm, he⟩ := h'.evs
  refine ⟨⟨m, h.evs.trans hm, ?_⟩, fun k t x => h.hd k t (h'.hd k t x), h'.tickets.trans h.tickets, fun x => h'.ping (h.ping x)⟩
  rcases he with he | ⟨t, r, c, k, e1, e2, e3⟩
  · exact .inl he
  · exact .inr ⟨t, r, c, k, e1, h.hd k t e2, e3⟩

theorem Still.fault {w : World} {s : State} (h : Still w s.w) : Still w (fault s).w := ⟨h.evs, h.hd, h.tickets, h.ping⟩

theorem still_handleError (w : World) (st : List Item) : Still w (handleError w st).w := by
  unfold handleError
  split
  · exact Still.refl _
  · exact ⟨Quiet.one _ rfl, fun _ _ h => h, rfl, id⟩

theorem lib_callHandler {w : World} {h : Handler} {r : Res} {ch : List Elem} {st : List Item}
    (hh : ∀ t, h = .user t → ∃ k, (w.jobs k).handler = .user t ∧ (r = .success → k = .ping → (w.jobs .ping).wbh = none)) :
    Lib w (callHandler w h r ch st).w := by
  unfold callHandler
  cases h with
  | null => exact (Still.refl _).lib
  | stale => exact (Still.fault (s := ⟨w, st⟩) (Still.refl w)).lib
  | user t =>
    obtain ⟨k, h1, h2⟩ := hh t rfl
    exact ⟨⟨w.log, Quiet.refl _, .inr ⟨t, r, ch, k, rfl, h1, h2⟩⟩, fun _ _ h => h, rfl, id⟩
  | pongWritten =>
    dsimp only
    unfold pongWritten
    split
    · exact (still_handleError _ _).lib
    · exact (Still.mk (w := w) (w' := { w with reading := true }) (Quiet.refl _) (fun _ _ h => h) rfl id).lib

theorem still_drop (w : World) (k : Kind) (f : Option Kind) : Still w (setJob { w with first := f } k { w.jobs k with wbh := none }) := by
  refine ⟨Quiet.refl _, ?_, rfl, ?_⟩
  · intro x t
    simp only [setJob]
    split
    · rename_i e; subst e; exact id
    · exact id
  · simp only [setJob]
    split <;> simp

theorem lib_onWritten (w : World) (r : Res) (st : List Item) : Lib w (onWritten w r st).w := by
  unfold onWritten
  cases hf : w.first with
  | none => simp only [dequeue, hf]; exact (Still.fault (s := ⟨w, st⟩) (Still.refl w)).lib
  | some k =>
    simp only [dequeue, hf]
    generalize (if some k = w.last then none else (w.jobs k).next) = f
    have hs := still_drop w k f
    have hn : k = .ping → ((setJob { w with first := f } k { w.jobs k with wbh := none }).jobs .ping).wbh = none := by
      rintro rfl; simp [setJob]
    generalize hw : setJob { w with first := f } k { w.jobs k with wbh := none } = w1 at hs hn ⊢
    split
    · split
      · exact (Still.fault (s := ⟨w1, st⟩) hs).lib
      · exact hs.thenLib (lib_callHandler (fun t ht => ⟨k, ht, fun _ e => hn e⟩))
    all_goals exact hs.lib

theorem still_chain (w : World) (k : Kind) (chain chain' : List Elem) (sh : StreamHandler) (h : (w.jobs k).wbh = some chain) :
    Still w { setJob w k { w.jobs k with wbh := some chain' } with bsHandler := sh } := by
  refine ⟨Quiet.refl _, ?_, rfl, ?_⟩
  · intro x t
    simp only [setJob]
    split
    · rename_i e; subst e; exact id
    · exact id
  · intro h'
    simp only [setJob]
    split
    · rename_i e; subst e; rw [h] at h'; cases h'
    · exact h'

theorem lib_sendFrame (w : World) (k : Kind) (len : Nat) (tr : Outcome) (st : List Item) :
    Lib w (sendFrame w k len tr st).1.w ∧ ((sendFrame w k len tr st).2 = false → Still w (sendFrame w k len tr st).1.w) := by
  unfold sendFrame
  cases h : (w.jobs k).wbh with
  | none => exact ⟨(Still.fault (s := ⟨w, st⟩) (Still.refl w)).lib, fun h => nomatch h⟩
  | some chain =>
    dsimp only
    have hs := still_chain w k chain (if (w.jobs k).cont then chain else .hdr :: chain) (w.jobs k).streamHandler h
    cases tr with
    | now r =>
      refine ⟨Still.thenLib ?_ (lib_onWritten _ _ _), fun h => nomatch h⟩
      exact ⟨hs.evs.trans (Quiet.one _ rfl), hs.hd, hs.tickets, hs.ping⟩
    | later => exact ⟨Still.lib ⟨hs.evs.trans (Quiet.one _ rfl), hs.hd, hs.tickets, hs.ping⟩, fun h => nomatch h⟩
    | refuse => exact ⟨hs.lib, fun _ => hs⟩

theorem lib_enqueue (w : World) (k : Kind) (len : Nat) (tr : Outcome) (st : List Item) :
    Lib w (enqueue w k len tr st).1.w ∧ ((enqueue w k len tr st).2 = false → Still w (enqueue w k len tr st).1.w) := by
  unfold enqueue
  cases w.first with
  | none =>
    have h0 : Still w { w with first := some k, last := some k } := ⟨Quiet.refl _, fun _ _ h => h, rfl, id⟩
    have h := lib_sendFrame { w with first := some k, last := some k } k len tr st
    simp only
    generalize sendFrame { w with first := some k, last := some k } k len tr st = p at h
    obtain ⟨s, ok⟩ := p
    cases ok with
    | true => exact ⟨h0.thenLib h.1, fun h => nomatch h⟩
    | false =>
      have hs := h0.trans ((h.2 rfl).trans (still_handleError s.w s.stack))
      exact ⟨hs.lib, fun _ => hs⟩
  | some f =>
    dsimp only
    cases w.last with
    | none => exact ⟨(Still.fault (s := ⟨w, st⟩) (Still.refl w)).lib, fun h => nomatch h⟩
    | some l =>
      refine ⟨Still.lib ⟨Quiet.refl _, ?_, rfl, ?_⟩, fun h => nomatch h⟩
      · intro x t
        simp only [setJob]
        split
        · rename_i e; subst e; exact id
        · exact id
      · intro h'
        simp only [setJob]
        split
        · rename_i e; subst e; exact h'
        · exact h'

theorem still_close (w : World) (n : Nat) (sh : StreamHandler) : Still w (prepareClose w n .null sh) := by
  refine ⟨Quiet.refl _, ?_, rfl, ?_⟩
  · intro x t
    simp only [prepareClose, setJob]
    split
    · intro h; cases h
    · exact id
  · simp [prepareClose, setJob]

theorem lib_arrive (w : World) (a : Act) (tr : Outcome) (st : List Item) : Lib w (arrive w a tr st).w := by
  have hr : Still w { w with reading := false } := ⟨Quiet.refl _, fun _ _ h => h, rfl, id⟩
  cases a with
  | gotData => exact Still.lib ⟨Quiet.refl _, fun _ _ h => h, rfl, id⟩
  | gotPing n =>
    refine Still.thenLib ?_ (lib_enqueue _ _ _ _ _).1
    refine ⟨Quiet.refl _, ?_, rfl, ?_⟩
    · intro x t
      simp only [setJob]
      split
      · intro h; cases h
      · exact id
    · simp [setJob]
  | gotClose n =>
    simp only [arrive]
    split
    · exact Still.lib ⟨Quiet.refl _, fun _ _ h => h, rfl, id⟩
    · exact (hr.trans (still_close _ _ _)).thenLib (lib_enqueue _ _ _ _ _).1
  | fail => exact (hr.trans (still_handleError _ _)).lib
  | call _ => exact (Still.refl w).lib
  | ret => exact (Still.refl w).lib
  | written _ => exact (Still.refl w).lib
  | gotPong => exact (Still.refl w).lib
  | timer => exact (Still.refl w).lib

theorem lib_step (s : State) (c : Choice) (h1 : ∀ call, c.act ≠ .call call) : Lib s.w (step s c).w := by
  have r := (Still.refl s.w).lib
  have rf := (Still.fault (Still.refl s.w)).lib
  unfold step
  split
  · exact r
  · split
    · split
      · split
        · exact Still.lib ⟨Quiet.refl _, fun _ _ h => h, rfl, id⟩
        · exact r
      · split
        · exact Still.thenLib (b := { s.w with pend := false }) ⟨Quiet.refl _, fun _ _ h => h, rfl, id⟩ (lib_onWritten _ _ _)
        · exact r
      · rename_i h; exact absurd h (h1 _)
      · exact r
      · split
        · exact lib_arrive _ _ _ _
        · exact r
    · split
      · exact r
      · rename_i h; exact absurd h (h1 _)
      · exact r
    · split
      · exact r
      · rename_i h; exact absurd h (h1 _)
      · exact r
      · exact r
      · split
        · exact lib_arrive _ _ _ _
        · exact r
    · exact r
    · split
      · exact rf
      · rename_i k rest _ _
        split
        · exact rf
        · rename_i chain _
          have h := lib_sendFrame s.w k (total chain) c.tr rest
          generalize sendFrame s.w k (total chain) c.tr rest = p at h ⊢
          obtain ⟨s', ok⟩ := p
          cases ok with
          | true => exact h.1
          | false => exact ((h.2 rfl).trans (still_handleError s'.w s'.stack)).lib
    · split
      · exact rf
      · cases hf : s.w.first with
        | none => simp only [dequeue, hf]; exact r
        | some k =>
          simp only [dequeue, hf]
          refine (still_drop s.w k _).thenLib (lib_callHandler ?_)
          intro t ht
          refine ⟨k, ?_, fun h => nomatch h⟩
          simp [setJob]; exact ht
    · split
      · exact rf
      · rename_i rest _ _
        have h := lib_enqueue (prepareClose s.w errReason .null .closeWrittenImmediate) .close (2 + errReason) c.tr rest
        dsimp only
        generalize enqueue (prepareClose s.w errReason .null .closeWrittenImmediate) .close (2 + errReason) c.tr rest = p at h ⊢
        obtain ⟨s', ok⟩ := p
        cases ok with
        | true => exact (still_close _ _ _).thenLib h.1
        | false => exact ((still_close _ _ _).trans (h.2 rfl)).lib
    · split
      · exact rf
      · exact lib_callHandler (fun t ht => ⟨.close, ht, fun _ h => nomatch h⟩)
    · exact Still.lib ⟨Quiet.one _ rfl, fun _ _ h => h, rfl, id⟩

/-! ### The invariant -/

/-- Handlers belong to the calls they were given with. -/
structure Own (w : World) : Prop where
  job : ∀ k t, (w.jobs k).handler = .user t → kindOf w.log t = some k
  lt : ∀ t k, kindOf w.log t = some k → t < w.tickets

theorem kindOf_completed (l : List Ev) (t : Nat) (r : Res) (c : List Elem) (x : Nat) : kindOf (.completed t r c :: l) x = kindOf l x := rfl

/-- What follows for the invariants when the library has done something. -/
theorem Own.lib {w w' : World} (o : Own w) (h : Lib w w') : Own w' := by
  obtain ⟨m, hq, he⟩ := h.evs
  have hk : ∀ t, kindOf w'.log t = kindOf w.log t := by
    intro t
    rcases he with he | ⟨t', r, c, k, he, _⟩
    · rw [he]; exact (quiet_counts hq).2.2 t
    · rw [he, kindOf_completed]; exact (quiet_counts hq).2.2 t
  exact ⟨fun k t x => by rw [hk]; exact o.job k t (h.hd k t x), fun t k x => by rw [h.tickets]; rw [hk] at x; exact o.lt t k x⟩

/-- What the program has of the invariant. -/
structure Inv (p : Prog) : Prop where
  own : Own p.q.w
  free : p.armed = true → (p.q.w.jobs .ping).wbh = none
  count : pings p.q.w.log + p.armed.toNat ≤ 1 + pingsOk p.q.w.log

theorem settle_armed {p : Prog} {q' : State} {b : Bool} {m : List Ev} (o : Own p.q.w) (hq : Quiet p.q.w.log m)
    (he : q'.w.log = m ∨ ∃ t r c, q'.w.log = .completed t r c :: m) :
    ((settle p q' b).armed = p.armed ∧ (b = true → pingsOk q'.w.log = pingsOk p.q.w.log)) ∨
    (∃ t c, q'.w.log = .completed t .success c :: m ∧ kindOf m t = some .ping ∧ (settle p q' b).armed = (b || p.armed)) := by
  have hc := quiet_counts hq
  obtain ⟨n, rfl, hn⟩ := hq
  unfold settle
  rcases he with he | ⟨t, r, c, he⟩
  · left
    refine ⟨?_, fun _ => by rw [he]; exact hc.2.1⟩
    split
    · rfl
    · rename_i hl
      rw [he] at hl ⊢
      cases n with
      | nil => exact absurd rfl hl
      | cons e n =>
        have := hn e List.mem_cons_self
        cases e <;> simp_all [plain]
  · rw [if_neg (by rw [he]; simp; omega)]
    rw [he]
    dsimp only
    rw [kindOf_completed]
    cases hk : kindOf (n ++ p.q.w.log) t with
    | none => left; refine ⟨rfl, fun _ => ?_⟩; cases r <;> simp [pingsOk, hk, hc.2.1]
    | some k =>
      cases k with
      | ping =>
        cases r with
        | success =>
          right
          refine ⟨t, c, rfl, hk, ?_⟩
          cases b <;> simp [pingWritten, closeNull]
        | failed => left; simp [pingWritten, closeNull, pingsOk, hc.2.1]
        | aborted => left; simp [pingWritten, closeNull, pingsOk, hc.2.1]
      | message => left; refine ⟨rfl, fun _ => ?_⟩; cases r <;> simp [pingsOk, hk, hc.2.1]
      | pong => left; refine ⟨rfl, fun _ => ?_⟩; cases r <;> simp [pingsOk, hk, hc.2.1]
      | close => left; refine ⟨rfl, fun _ => ?_⟩; cases r <;> simp [pingsOk, hk, hc.2.1]

/-- One step of the library, without a call of the program. -/
theorem Inv.settle {p : Prog} {q' : State} {b : Bool} (i : Inv p) (h : Lib p.q.w q'.w) : Inv (settle p q' b) := by
  obtain ⟨m, hq, he⟩ := h.evs
  have ho := i.own.lib h
  have hc := quiet_counts hq
  have he' : q'.w.log = m ∨ ∃ t r c, q'.w.log = .completed t r c :: m := by
    rcases he with he | ⟨t, r, c, k, he, _⟩
    · exact .inl he
    · exact .inr ⟨t, r, c, he⟩
  have hp : pings q'.w.log = pings p.q.w.log := by
    rcases he' with he | ⟨t, r, c, he⟩ <;> rw [he]
    · exact hc.1
    · exact hc.1
  have hle : pingsOk p.q.w.log ≤ pingsOk q'.w.log := by
    rcases he' with he | ⟨t, r, c, he⟩ <;> rw [he]
    · omega
    · cases r <;> simp only [pingsOk] <;> omega
  have ic := i.count
  rcases settle_armed (b := b) i.own hq he' with ⟨h1, _⟩ | ⟨t, c, h1, h2, h3⟩
  · refine ⟨by rw [settle_q]; exact ho, ?_, ?_⟩
    · rw [h1, settle_q]; exact fun x => h.ping (i.free x)
    · rw [h1, settle_q, hp]; omega
  · refine ⟨by rw [settle_q]; exact ho, ?_, ?_⟩
    · rw [settle_q]
      intro _
      rcases he with he | ⟨t', r, c', k, he, g1, g2⟩
      · rw [he] at h1
        have := congrArg List.length h1
        simp at this
      · rw [he] at h1
        injection h1 with h1 _
        injection h1 with e1 e2 e3
        subst e1
        have := i.own.job k _ g1
        rw [hc.2.2, this] at h2
        injection h2 with h2
        exact g2 e2 h2
    · rw [settle_q, hp, h1]
      simp only [pingsOk, h2, if_true, hc.2.1]
      have := Bool.toNat_le (WsExample.settle p q' b).armed
      cases h : p.armed with
      | true => rw [h] at ic; simp at ic; omega
      | false => rw [h] at ic; simp at ic; omega

/-- A call of the program is accepted: before the library goes on. -/
theorem Own.fill {w w' : World} (o : Own w) (k : Kind) (h1 : (w'.jobs k).handler = .user w.tickets) (h2 : ∀ x, x ≠ k → (w'.jobs x).handler = (w.jobs x).handler)
    (h3 : w'.tickets = w.tickets + 1) {pl c op f n} (h4 : w'.log = .accepted w.tickets k pl c op f n :: w.log) : Own w' := by
  have hk : ∀ t, kindOf w'.log t = if w.tickets = t then some k else kindOf w.log t := by intro t; rw [h4]; rfl
  refine ⟨?_, ?_⟩
  · intro x t hx
    rw [hk]
    by_cases e : x = k
    · subst e; rw [h1] at hx; injection hx with hx; rw [if_pos hx]
    · rw [h2 x e] at hx
      have := o.job x t hx
      have hl := o.lt t x this
      rw [if_neg (by omega)]; exact this
  · intro t x hx
    rw [hk] at hx
    split at hx
    · omega
    · have := o.lt t x hx; omega

/-- Nothing has happened yet, or a call was accepted. -/
def Begins (w w1 : World) : Prop := w1.log = w.log ∨ ∃ e, w1.log = e :: w.log ∧ ∀ t r c, e ≠ .completed t r c

theorem settle_from {p : Prog} {s1 q' : State} {b : Bool} (hb : Begins p.q.w s1.w) (hl : Lib s1.w q'.w) :
    settle p q' b = settle { p with q := s1 } q' b := by
  unfold settle
  rcases hb with hb | ⟨e, hb, he⟩
  · rw [hb]
  · obtain ⟨m, ⟨n, hm, _⟩, hx⟩ := hl.evs
    have hlt : q'.w.log.length ≠ p.q.w.log.length := by
      rcases hx with hx | ⟨t, r, c, k, hx, _⟩ <;> rw [hx, hm, hb] <;> simp only [List.length_append, List.length_cons] <;> omega
    rw [if_neg hlt]
    split
    · rename_i t r c l hq
      have hne : q'.w.log.length ≠ s1.w.log.length := by
        intro h
        rcases hx with hx | ⟨t', r', c', k, hx, _⟩
        · rw [hx, hm] at h
          have : n = [] := by
            cases n with
            | nil => rfl
            | cons a n => simp at h; omega
          rw [hx, hm, this, hb] at hq
          simp at hq
          exact he _ _ _ hq.1
        · rw [hx, hm] at h; simp at h; omega
      rw [if_neg (by dsimp only; exact hne)]
    · split <;> rfl

theorem doCall_ping {w : World} {tr : Outcome} {st : List Item} (o : Own w) (hf : (w.jobs .ping).wbh = none) :
    ∃ w1, Own w1 ∧ pings w1.log = pings w.log + 1 ∧ pingsOk w1.log = pingsOk w.log ∧ Begins w w1 ∧ Lib w1 (doCall w (.ping [4]) tr st).w := by
  simp only [doCall]
  rw [if_neg (by simp), if_neg (by rw [hf]; simp)]
  refine ⟨_, ?_, ?_, ?_, ?_, (lib_enqueue _ _ _ _ _).1⟩
  · exact o.fill .ping (by simp [setJob, log]) (by intro x hx; simp [setJob, log, hx]) rfl rfl
  · rfl
  · rfl
  · exact .inr ⟨_, rfl, fun _ _ _ h => nomatch h⟩

theorem doCall_first {w : World} {tr : Outcome} {st : List Item} (o : Own w) (b : Bool) :
    ∃ w1, Own w1 ∧ pings w1.log = pings w.log ∧ pingsOk w1.log = pingsOk w.log ∧ (w1.jobs .ping).wbh = (w.jobs .ping).wbh ∧
      Begins w w1 ∧ Lib w1 (doCall w (.first 12 [12] true b) tr st).w := by
  simp only [doCall]
  split
  · exact ⟨w, o, rfl, rfl, rfl, .inl rfl, Still.lib ⟨Quiet.one _ rfl, fun _ _ h => h, rfl, id⟩⟩
  · refine ⟨_, ?_, ?_, ?_, ?_, ?_, (lib_enqueue _ _ _ _ _).1⟩
    · exact o.fill .message (by simp [setJob, log]) (by intro x hx; simp [setJob, log, hx]) rfl rfl
    · rfl
    · rfl
    · simp [setJob, log]
    · exact .inr ⟨_, rfl, fun _ _ _ h => nomatch h⟩

theorem Inv.same {p p' : Prog} (i : Inv p) (h1 : p'.q = p.q) (h2 : p'.armed = p.armed) : Inv p' :=
  ⟨by rw [h1]; exact i.own, by rw [h1, h2]; exact i.free, by rw [h1, h2]; exact i.count⟩

theorem Inv.outside {p : Prog} (i : Inv p) (a : Act) (e : Event) : Inv (outside p a e) := by
  have h : ∀ a, (∀ c, a ≠ .call c) → Inv (WsExample.settle p (step p.q ⟨a, e.tr⟩) e.armOk) := fun a ha => i.settle (lib_step _ _ (fun c => ha c))
  have h' : ∀ a, (∀ c, a ≠ .call c) →
      Inv (if hears p a then { WsExample.settle p (step p.q ⟨a, e.tr⟩) e.armOk with owes := true, binary := e.binary } else WsExample.settle p (step p.q ⟨a, e.tr⟩) e.armOk) := by
    intro a ha
    split
    · exact (h a ha).same rfl rfl
    · exact h a ha
  cases a with
  | call c => exact i
  | gotPing n =>
    unfold WsExample.outside
    dsimp only
    split
    · exact h _ (fun c h => nomatch h)
    · exact i
  | ret => exact h' .ret (fun c h => nomatch h)
  | written r => exact h' (.written r) (fun c h => nomatch h)
  | gotData => exact h' .gotData (fun c h => nomatch h)
  | gotPong => exact h' .gotPong (fun c h => nomatch h)
  | gotClose n => exact h' (.gotClose n) (fun c h => nomatch h)
  | fail => exact h' .fail (fun c h => nomatch h)
  | timer => exact h' .timer (fun c h => nomatch h)

theorem step_call {s : State} {c : Call} {tr : Outcome} (hub : s.w.ub = false) (h0 : s.w.closes = 0) (hs : s.stack = [] ∨ ∃ b r, s.stack = .user b :: r) :
    step s ⟨.call c, tr⟩ = doCall s.w c tr s.stack := by
  obtain ⟨w, st⟩ := s
  rcases hs with hs | ⟨b, r, hs⟩ <;> dsimp only at hs <;> subst hs
  · unfold step; rw [if_neg (by rw [hub]; simp)]; dsimp only; rw [if_pos h0]
  · unfold step; rw [if_neg (by rw [hub]; simp)]; dsimp only; rw [if_pos h0]

theorem Inv.appStep {p : Prog} (i : Inv p) (e : Event) : Inv (appStep p e) := by
  have hret : Inv (WsExample.settle p (step p.q ⟨.ret, e.tr⟩) e.armOk) := i.settle (lib_step _ _ (fun c h => nomatch h))
  have hoff : Inv { p with armed := false } := ⟨i.own, (fun h => nomatch h), (by have := i.count; simp only [Bool.toNat_false]; omega)⟩
  unfold WsExample.appStep
  split
  · rename_i hst
    split
    · split
      · rename_i ok _ hc
        cases ok with
        | false => exact hoff.same rfl rfl
        | true =>
          rw [if_pos rfl]
          cases hub : p.q.w.ub with
          | true =>
            have : step p.q ⟨.call (.ping [4]), e.tr⟩ = p.q := by unfold step; rw [if_pos hub]
            rw [this]
            exact hoff.settle (Still.refl _).lib
          | false =>
            obtain ⟨w1, h1, h2, h3, h4, h5⟩ := doCall_ping (tr := e.tr) (st := []) i.own (i.free hc.1)
            rw [step_call hub hc.2 (.inl hst), hst]
            rw [settle_from (p := { p with armed := false }) (s1 := ⟨w1, []⟩) h4 h5]
            refine Inv.settle ⟨h1, (fun h => nomatch h), ?_⟩ h5
            have := i.count
            rw [hc.1] at this
            simp only [h2, h3]
            simpa using this
      · exact i
    · exact i.outside _ _
  · rename_i hst
    split
    · have ho : Inv { p with owes := false } := i.same rfl rfl
      cases hub : p.q.w.ub with
      | true =>
        have : step p.q ⟨.call (.first 12 [12] true p.binary), e.tr⟩ = p.q := by unfold step; rw [if_pos hub]
        rw [this]
        exact ho.settle (Still.refl _).lib
      | false =>
        by_cases h0 : p.q.w.closes = 0
        · obtain ⟨w1, h1, h2, h3, h4, h5, h6⟩ := doCall_first (tr := e.tr) (st := p.q.stack) i.own p.binary
          rw [step_call hub h0 (.inr ⟨_, _, hst⟩)]
          rw [settle_from (p := { p with owes := false }) (s1 := ⟨w1, []⟩) h5 h6]
          refine Inv.settle ⟨h1, ?_, ?_⟩ h6
          · intro h; rw [h4]; exact i.free h
          · have := i.count
            simp only [h2, h3]
            exact this
        · have : step p.q ⟨.call (.first 12 [12] true p.binary), e.tr⟩ = fault p.q := by
            unfold step; rw [if_neg (by rw [hub]; simp), hst]; dsimp only; rw [if_neg h0]
          rw [this]
          exact ho.settle (Still.fault (Still.refl _)).lib
    · exact hret
  · split
    · exact i
    · exact i.outside _ _
  · exact hret

theorem reachable_inv {p : Prog} (h : Reachable p) : Inv p := by
  have h0 : ∀ a, Inv { armed := a } := fun a => ⟨⟨(fun _ _ h => nomatch h), (fun _ _ h => nomatch h)⟩, fun _ => rfl, by cases a <;> simp [pings, pingsOk]⟩
  induction h with
  | connect i a =>
    unfold onConnect
    split
    · exact (h0 false).same rfl rfl
    · split
      · exact (h0 false).same rfl rfl
      · exact ⟨⟨(fun _ _ h => nomatch h), (fun _ _ h => nomatch h)⟩, fun _ => rfl, by decide⟩
  | step p e _ ih => exact ih.appStep e

/-! ### Pings go on -/

/-- The timer is armed or a ping is on its way. -/
def Wait (p : Prog) : Prop := p.armed = true ∨ waiting p.q.w.log = true

theorem Wait.settle {p : Prog} {q' : State} (o : Own p.q.w) (i : Wait p) (h : Lib p.q.w q'.w) : Wait (settle p q' true) := by
  obtain ⟨m, hq, he⟩ := h.evs
  have hc := quiet_counts hq
  have he' : q'.w.log = m ∨ ∃ t r c, q'.w.log = .completed t r c :: m := by
    rcases he with he | ⟨t, r, c, k, he, _⟩
    · exact .inl he
    · exact .inr ⟨t, r, c, he⟩
  unfold Wait
  rw [settle_q]
  rcases settle_armed (b := true) o hq he' with ⟨h1, h2⟩ | ⟨t, c, h1, h2, h3⟩
  · have h2 := h2 rfl
    rw [h1]
    have : waiting q'.w.log = waiting p.q.w.log := by
      rw [← quiet_waiting hq]
      rcases he' with he | ⟨t, r, c, he⟩
      · rw [he]
      · rw [he] at h2 ⊢
        cases r with
        | success =>
          simp only [pingsOk] at h2
          simp only [waiting]
          split
          · rename_i hk; rw [if_pos hk] at h2; omega
          · rfl
        | failed => rfl
        | aborted => rfl
    rw [this]; exact i
  · left; rw [h3]; simp

theorem doCall_waits {w : World} {tr : Outcome} {st : List Item} (o : Own w) (hf : (w.jobs .ping).wbh = none) :
    ∃ w1, Own w1 ∧ waiting w1.log = true ∧ Begins w w1 ∧ Lib w1 (doCall w (.ping [4]) tr st).w := by
  simp only [doCall]
  rw [if_neg (by simp), if_neg (by rw [hf]; simp)]
  refine ⟨_, ?_, ?_, ?_, (lib_enqueue _ _ _ _ _).1⟩
  · exact o.fill .ping (by simp [setJob, log]) (by intro x hx; simp [setJob, log, hx]) rfl rfl
  · rfl
  · exact .inr ⟨_, rfl, fun _ _ _ h => nomatch h⟩

theorem doCall_first_waits {w : World} {tr : Outcome} {st : List Item} (o : Own w) (b : Bool) :
    ∃ w1, Own w1 ∧ waiting w1.log = waiting w.log ∧ Begins w w1 ∧ Lib w1 (doCall w (.first 12 [12] true b) tr st).w := by
  simp only [doCall]
  split
  · exact ⟨w, o, rfl, .inl rfl, Still.lib ⟨Quiet.one _ rfl, fun _ _ h => h, rfl, id⟩⟩
  · refine ⟨_, ?_, ?_, ?_, (lib_enqueue _ _ _ _ _).1⟩
    · exact o.fill .message (by simp [setJob, log]) (by intro x hx; simp [setJob, log, hx]) rfl rfl
    · rfl
    · exact .inr ⟨_, rfl, fun _ _ _ h => nomatch h⟩

theorem Wait.same {p p' : Prog} (i : Wait p) (h1 : p'.q = p.q) (h2 : p'.armed = p.armed) : Wait p' := by
  unfold Wait; rw [h1, h2]; exact i

theorem Wait.outside {p : Prog} (o : Own p.q.w) (i : Wait p) (a : Act) (e : Event) (he : e.armOk = true) : Wait (outside p a e) := by
  have h : ∀ a, (∀ c, a ≠ .call c) → Wait (WsExample.settle p (step p.q ⟨a, e.tr⟩) e.armOk) := fun a ha => by
    rw [he]; exact i.settle o (lib_step _ _ (fun c => ha c))
  have h' : ∀ a, (∀ c, a ≠ .call c) →
      Wait (if hears p a then { WsExample.settle p (step p.q ⟨a, e.tr⟩) e.armOk with owes := true, binary := e.binary } else WsExample.settle p (step p.q ⟨a, e.tr⟩) e.armOk) := by
    intro a ha
    split
    · exact (h a ha).same rfl rfl
    · exact h a ha
  cases a with
  | call c => exact i
  | gotPing n =>
    unfold WsExample.outside
    dsimp only
    split
    · exact h _ (fun c h => nomatch h)
    · exact i
  | ret => exact h' .ret (fun c h => nomatch h)
  | written r => exact h' (.written r) (fun c h => nomatch h)
  | gotData => exact h' .gotData (fun c h => nomatch h)
  | gotPong => exact h' .gotPong (fun c h => nomatch h)
  | gotClose n => exact h' (.gotClose n) (fun c h => nomatch h)
  | fail => exact h' .fail (fun c h => nomatch h)
  | timer => exact h' .timer (fun c h => nomatch h)

theorem Wait.appStep {p : Prog} (j : Inv p) (i : Wait p) (e : Event) (hub : p.q.w.ub = false) (he : e.armOk = true) (hw : e.what ≠ .ping false) :
    Wait (appStep p e) := by
  have hret : Wait (WsExample.settle p (step p.q ⟨.ret, e.tr⟩) e.armOk) := by rw [he]; exact i.settle j.own (lib_step _ _ (fun c h => nomatch h))
  unfold WsExample.appStep
  split
  · rename_i hst
    split
    · split
      · rename_i ok hok hc
        cases ok with
        | false => exact absurd hok hw
        | true =>
          rw [if_pos rfl]
          obtain ⟨w1, h1, h2, h4, h5⟩ := doCall_waits (tr := e.tr) (st := []) j.own (j.free hc.1)
          rw [step_call hub hc.2 (.inl hst), hst]
          rw [settle_from (p := { p with armed := false }) (s1 := ⟨w1, []⟩) h4 h5, he]
          exact Wait.settle h1 (.inr h2) h5
      · exact i
    · exact i.outside j.own _ _ he
  · rename_i hst
    split
    · by_cases h0 : p.q.w.closes = 0
      · obtain ⟨w1, h1, h2, h4, h5⟩ := doCall_first_waits (tr := e.tr) (st := p.q.stack) j.own p.binary
        rw [step_call hub h0 (.inr ⟨_, _, hst⟩)]
        rw [settle_from (p := { p with owes := false }) (s1 := ⟨w1, []⟩) h4 h5, he]
        refine Wait.settle h1 ?_ h5
        rcases i with i | i
        · exact .inl i
        · exact .inr (h2.trans i)
      · have : step p.q ⟨.call (.first 12 [12] true p.binary), e.tr⟩ = fault p.q := by
          unfold step; rw [if_neg (by rw [hub]; simp), hst]; dsimp only; rw [if_neg h0]
        rw [this, he]
        exact Wait.settle (p := { p with owes := false }) j.own (i.same rfl rfl) (Still.fault (Still.refl _)).lib
    · exact hret
  · split
    · exact i
    · exact i.outside j.own _ _ he
  · exact hret

/-! ### What is proved -/

/-- In every execution: the library has accepted at most one ping more than were written successfully, so that a ping is begun only when the one before
was written, and at most one is unfinished; none at all while the timer runs. -/
theorem one_ping_at_a_time {p : Prog} (h : Reachable p) :
    pings p.q.w.log ≤ 1 + pingsOk p.q.w.log ∧ (p.armed = true → pings p.q.w.log ≤ pingsOk p.q.w.log ∧ (p.q.w.jobs .ping).wbh = none) := by
  have i := reachable_inv h
  have := i.count
  refine ⟨by omega, fun ha => ⟨?_, i.free ha⟩⟩
  rw [ha] at this
  simp at this
  omega

/-- When the ping timer expires on an open connection, the ping is accepted: one ping per expiry, none refused. -/
theorem expiry_pings {p : Prog} (h : Reachable p) (hst : p.q.stack = []) (hub : p.q.w.ub = false) (h0 : p.q.w.closes = 0) (ha : p.armed = true)
    (e : Event) (he : e.what = .ping true) : pings (appStep p e).q.w.log = pings p.q.w.log + 1 := by
  have i := reachable_inv h
  obtain ⟨w1, h1, h2, h3, h4, h5⟩ := doCall_ping (tr := e.tr) (st := []) i.own (i.free ha)
  have : (appStep p e).q = doCall p.q.w (.ping [4]) e.tr [] := by
    unfold appStep
    rw [hst]
    dsimp only
    rw [he]
    dsimp only
    rw [if_pos ⟨ha, h0⟩, if_pos rfl, settle_q, step_call hub h0 (.inl hst), hst]
  rw [this, ← h2]
  obtain ⟨m, hq, hx⟩ := h5.evs
  rw [← (quiet_counts hq).1]
  rcases hx with hx | ⟨t, r, c, k, hx, _⟩ <;> rw [hx] <;> rfl

/-- No ping is sent but by the expiry of an armed timer. -/
theorem only_expiry_pings {p : Prog} (h : Reachable p) (e : Event) (hn : ¬ (p.armed = true ∧ e.what = .ping true ∧ p.q.stack = [] ∧ p.q.w.closes = 0)) :
    pings (appStep p e).q.w.log = pings p.q.w.log := by
  have i := reachable_inv h
  have lib : ∀ w w', Lib w w' → pings w'.log = pings w.log := by
    intro w w' h
    obtain ⟨m, hq, hx⟩ := h.evs
    rw [← (quiet_counts hq).1]
    rcases hx with hx | ⟨t, r, c, k, hx, _⟩ <;> rw [hx] <;> rfl
  have plain : ∀ c : Choice, (∀ call, c.act ≠ .call call) → pings (step p.q c).w.log = pings p.q.w.log := fun c hc => lib _ _ (lib_step _ _ hc)
  have hout : ∀ a, pings (outside p a e).q.w.log = pings p.q.w.log := by
    intro a
    cases a with
    | call c => rfl
    | gotPing n =>
      unfold outside
      dsimp only
      split
      · rw [settle_q]; exact plain _ (fun c h => nomatch h)
      · rfl
    | _ => unfold outside; dsimp only; split <;> (try dsimp only) <;> rw [settle_q] <;> exact plain _ (fun c h => nomatch h)
  unfold appStep
  split
  · rename_i hst
    split
    · rename_i ok hok
      split
      · rename_i hc
        cases ok with
        | true => exact absurd ⟨hc.1, hok, hst, hc.2⟩ hn
        | false => rfl
      · rfl
    · exact hout _
  · rename_i hst
    split
    · rw [settle_q]
      cases hub : p.q.w.ub with
      | true =>
        have : step p.q ⟨.call (.first 12 [12] true p.binary), e.tr⟩ = p.q := by unfold step; rw [if_pos hub]
        rw [this]
      | false =>
        by_cases h0 : p.q.w.closes = 0
        · obtain ⟨w1, h1, h2, h3, h4, h5, h6⟩ := doCall_first (tr := e.tr) (st := p.q.stack) i.own p.binary
          rw [step_call hub h0 (.inr ⟨_, _, hst⟩), ← h2]
          exact lib _ _ h6
        · have : step p.q ⟨.call (.first 12 [12] true p.binary), e.tr⟩ = fault p.q := by
            unfold step; rw [if_neg (by rw [hub]; simp), hst]; dsimp only; rw [if_neg h0]
          rw [this]; rfl
    · rw [settle_q]; exact plain _ (fun c h => nomatch h)
  · split
    · rfl
    · exact hout _
  · rw [settle_q]; exact plain _ (fun c h => nomatch h)

theorem ub_stays (s : State) (c : Choice) (h : s.w.ub = true) : (step s c).w.ub = true := by unfold step; rw [if_pos h]; exact h

theorem wait_run {p : Prog} (h : Reachable p) (i : Wait p) (es : List Event) (hes : ∀ e ∈ es, e.armOk = true ∧ e.what ≠ .ping false)
    (hub : (appRun p es).q.w.ub = false) : Wait (appRun p es) := by
  induction es generalizing p with
  | nil => exact i
  | cons e es ih =>
    have hp : p.q.w.ub = false := by
      cases hx : p.q.w.ub with
      | false => rfl
      | true =>
        have : ∀ (es : List Event) (p : Prog), p.q.w.ub = true → (appRun p es).q.w.ub = true := by
          intro es
          induction es with
          | nil => exact fun _ h => h
          | cons e es ih =>
            intro p hp
            refine ih _ ?_
            rcases appStep_q p e with h | ⟨c, _, h⟩
            · rw [h]; exact hp
            · rw [h]; exact ub_stays _ _ hp
        rw [this (e :: es) p hx] at hub
        cases hub
    exact ih (h.step _ e) (i.appStep (reachable_inv h) e hp (hes e List.mem_cons_self).1 (hes e List.mem_cons_self).2)
      (fun x hx => hes x (List.mem_cons_of_mem _ hx)) hub

/-- Pings go on: as long as timers can be armed and do not fail and the connection has not failed, either the ping timer runs or the latest ping is
still to be written; the program never forgets to ping. -/
theorem pings_go_on (es : List Event) (hes : ∀ e ∈ es, e.armOk = true ∧ e.what ≠ .ping false)
    (hne : .onError ∉ (appRun (onConnect true true) es).q.w.log) (hnc : .closed ∉ (appRun (onConnect true true) es).q.w.log) :
    (appRun (onConnect true true) es).armed = true ∨ waiting (appRun (onConnect true true) es).q.w.log = true := by
  have hr : Reachable (appRun (onConnect true true) es) := (Reachable.connect true true).run es
  have hcb := not_failed hr hne
  have h0 : (appRun (onConnect true true) es).q.w.closes = 0 := by
    rw [← (reachable_sup hr).2.2.1]; exact (hooks_mem _).mpr hnc
  have hub := no_ub_partial (reachable_link hr hcb).reach (by rw [Clean, hcb]; simp) hcb h0
  exact wait_run (Reachable.connect true true) (.inl rfl) es hes hub

/-! ### Cases -/

/-- Two pings are written, the second one later; the third expiry sends a third one, which is unfinished. -/
def pinging : Prog := appRun (onConnect true true) [{ what := .other .ret }, { what := .ping true }, { what := .other .ret }, { what := .other .ret },
  { what := .ping true, tr := .later }, { what := .other (.written .success) }, { what := .other .ret }, { what := .other .ret }]

theorem pinging_is : pings pinging.q.w.log = 2 ∧ pingsOk pinging.q.w.log = 2 ∧ pinging.armed = true ∧ pinging.q.stack = [] ∧ pinging.q.w.ub = false ∧
    pinging.q.w.closes = 0 ∧ .onError ∉ pinging.q.w.log ∧ .closed ∉ pinging.q.w.log := by decide +kernel

example : pings (appStep pinging { what := .ping true, tr := .later }).q.w.log = 3 ∧ waiting (appStep pinging { what := .ping true, tr := .later }).q.w.log = true ∧
    (appStep pinging { what := .ping true, tr := .later }).armed = false := by
  have := expiry_pings ((Reachable.connect true true).run _) pinging_is.2.2.2.1 pinging_is.2.2.2.2.1 pinging_is.2.2.2.2.2.1 pinging_is.2.2.1
    { what := .ping true, tr := .later } rfl
  exact ⟨this.trans (by rw [show appRun (onConnect true true) _ = pinging from rfl, pinging_is.1]), by decide +kernel, by decide +kernel⟩

/-- A ping that fails is the last one: the timer is not armed again. -/
example : let p := appStep pinging { what := .ping true, tr := .now .failed }
    p.armed = false ∧ waiting p.q.w.log = true ∧ pings p.q.w.log = 3 ∧ pingsOk p.q.w.log = 2 := by decide +kernel

end Cio.WsExample
