import Verif.WsExample.Refine
import Verif.WsQueue.Ending
/-
C102: what the example program websocket_server.c does on a connection.
-/
namespace Cio.WsExample
open Cio.WsQueue

/-! ### In every execution -/

theorem reachable_sup {p : Prog} (h : Reachable p) : Sup p.q.w p.q.stack := by
  have h0 : Sup ({} : World) [] := ⟨by simp, rfl, rfl, rfl⟩
  induction h with
  | connect i a =>
    unfold onConnect
    split
    · exact h0
    · split
      · exact h0
      · exact sup_step {} _ h0
  | step p e _ ih =>
    rcases appStep_q p e with h | ⟨c, _, h⟩
    · rw [h]; exact ih
    · rw [h]; exact sup_step _ _ ih

theorem failed_mem (l : List Ev) : failed l = true ↔ .onError ∈ l := by
  induction l with
  | nil => simp [failed]
  | cons e l ih => cases e <;> simp [failed, ih]

theorem hooks_mem (l : List Ev) : hooks l = 0 ↔ .closed ∉ l := by
  induction l with
  | nil => simp [hooks]
  | cons e l ih => cases e <;> simp [hooks, ih]

theorem not_failed {p : Prog} (h : Reachable p) (he : .onError ∉ p.q.w.log) : p.q.w.closedByError = false := by
  rw [(reachable_sup h).2.2.2]
  cases hf : failed p.q.w.log with
  | false => rfl
  | true => exact absurd ((failed_mem _).mp hf) he

/-- The program never begins to close a connection, whatever happens: no call of `cio_websocket_close` is ever accepted, and each close frame that is
sent is one of the library's own, the answer to the peer's or the end of a failed connection; "Good Bye!" is never sent.  Nothing but messages with
the 12 bytes of "Hello World!" and pings with the 4 bytes of "ping" is accepted. -/
theorem never_says_good_bye {p : Prog} (h : Reachable p) :
    (∀ t k pl cont op fin n, .accepted t k pl cont op fin n ∈ p.q.w.log →
      (k = .message ∧ pl = [12] ∧ cont = false ∧ (op = 1 ∨ op = 2) ∧ fin = true ∧ n = 12) ∨ (k = .ping ∧ pl = [4] ∧ cont = false ∧ op = 9 ∧ fin = true ∧ n = 4)) ∧
    (∀ hd cont op fin n pl, .sent .close hd cont op fin n pl ∈ p.q.w.log → hd = .null) := by
  have a := reachable_a h
  exact ⟨fun t k pl cont op fin n hm => a.evs _ hm, fun hd cont op fin n pl hm => a.evs _ hm rfl⟩

/-- If no timer can be had when a client has connected, nothing more is done on the connection, for ever: nothing is read, and it is not closed. -/
theorem no_timer_no_service (initOk armOk : Bool) (hb : (initOk && armOk) = false) (es : List Event) :
    (appRun (onConnect initOk armOk) es).q.w.log = [] ∧ (appRun (onConnect initOk armOk) es).q.stack = [] := by
  have hc : ∀ p : Prog, p.q = {} → p.armed = false → ∀ e, (appStep p e).q = {} ∧ (appStep p e).armed = false := by
    intro p hq ha e
    have hs : ∀ x tr, (∀ c, x ≠ .call c) → step {} ⟨x, tr⟩ = {} := by
      intro x tr hx
      cases x <;> first | rfl | exact absurd rfl (hx _)
    have hset : ∀ b, settle p {} b = { p with q := {} } := by
      intro b; unfold settle; rw [if_pos (by rw [hq])]
    unfold appStep
    rw [hq]
    dsimp only
    split
    · rw [if_neg (by rw [ha]; simp)]; exact ⟨hq, ha⟩
    · unfold outside
      split
      · exact ⟨hq, ha⟩
      · split
        · rw [hq, hs _ _ (by simp), hset]; exact ⟨rfl, ha⟩
        · exact ⟨hq, ha⟩
      · rename_i x _ h1 h2
        rw [hq, hs _ _ h1, hset]
        split
        · exact ⟨rfl, ha⟩
        · exact ⟨rfl, ha⟩
  have hr : ∀ es (p : Prog), p.q = {} → p.armed = false → (appRun p es).q = {} := by
    intro es
    induction es with
    | nil => intro p hq _; exact hq
    | cons e es ih => intro p hq ha; exact ih _ (hc p hq ha e).1 (hc p hq ha e).2
  have h0 : (onConnect initOk armOk).q = {} ∧ (onConnect initOk armOk).armed = false := by
    cases initOk <;> cases armOk <;> first | exact ⟨rfl, rfl⟩ | cases hb
  rw [hr es _ h0.1 h0.2]
  exact ⟨rfl, rfl⟩

/-! ### As long as the connection has not failed -/

/-- At most one "Hello World!" is sent on a connection. -/
theorem at_most_one_hello_partial {p : Prog} (h : Reachable p) (he : .onError ∉ p.q.w.log) : hellos p.q.w.log ≤ 1 := by
  have := (reachable_link h (not_failed h he)).one
  omega

/-- When it has been accepted the program is deaf: nothing that the peer does, no message, no ping, no close frame, not the end of the connection, is
noticed any more. -/
theorem deaf_after_hello_partial {p : Prog} (h : Reachable p) (he : .onError ∉ p.q.w.log) (hh : 0 < hellos p.q.w.log) (hst : p.q.stack = [])
    (a : Act) (ha : isPeer a = true) (e : Event) (hw : e.what = .other a) : appStep p e = p := by
  have hc := not_failed h he
  have l := reachable_link h hc
  have ht := l.turn (by omega)
  have hr : ¬ (p.q.w.reading = true ∧ p.q.w.closes = 0) := by
    rintro ⟨h1, h0⟩
    obtain ⟨_, q, u, c⟩ := calm_of l.reach (reachable_a h) hc h0 (.inl hst)
    rw [c.tok.t1 h1] at ht
    cases ht
  have hs : ∀ tr, step p.q ⟨a, tr⟩ = p.q := fun tr => step_deaf ha (.inl hst) hr
  have hset : ∀ b, settle p p.q b = p := by
    intro b; unfold settle; rw [if_pos rfl]
  have hn : hears p a = false := by
    unfold hears
    by_cases h1 : p.q.w.reading = true
    · by_cases h0 : p.q.w.closes = 0
      · exact absurd ⟨h1, h0⟩ hr
      · simp [h0]
    · simp [h1]
  unfold appStep
  rw [hst]
  dsimp only
  rw [hw]
  dsimp only
  unfold outside
  split
  · rfl
  · split
    · rw [hs, hset]
    · rfl
  · rw [hn, hs, hset]; rfl

/-! ### After the answer the connection is never closed -/

/-- Nothing has failed, nothing is closed, nor is about to be. -/
structure Idle (w : World) (st : List Item) : Prop where
  cbe : w.closedByError = false
  open_ : w.closes = 0
  calm : CalmSt st

def Shape (turn : Bool) (s : State) : Prop := Idle s.w s.stack ∧ s.w.turn = turn

theorem idle_onWritten {w : World} {st : List Item} (i : Idle w st) {k : Kind} (hf : w.first = some k) {t : Nat} (hh : (w.jobs k).handler = .user t)
    (hb : w.bsHandler = .messageWritten) (res : Res) : Shape w.turn (onWritten w res st) := by
  have hd : dequeue w = some (k, { w with first := if w.first = w.last then none else (w.jobs k).next }) := by
    unfold dequeue; rw [hf]
  unfold onWritten
  rw [hd]
  dsimp only
  have hb' : (setJob { w with first := if w.first = w.last then none else (w.jobs k).next } k { w.jobs k with wbh := none }).bsHandler = .messageWritten := hb
  rw [hb']
  dsimp only
  rw [setJob_self, if_neg (by dsimp only; rw [hh]; simp)]
  dsimp only
  rw [hh]
  exact ⟨⟨i.cbe, i.open_, CalmSt.cons rfl (CalmSt.cons rfl i.calm)⟩, rfl⟩

theorem idle_sendFrame {w : World} {st : List Item} (i : Idle w st) {k : Kind} (hf : w.first = some k) {t : Nat} (hh : (w.jobs k).handler = .user t)
    (hb : (w.jobs k).streamHandler = .messageWritten) (len : Nat) (tr : Outcome) (ht : tr ≠ .refuse) :
    Shape w.turn (sendFrame w k len tr st).1 ∧ (sendFrame w k len tr st).2 = true := by
  unfold sendFrame
  cases hw : (w.jobs k).wbh with
  | none => exact ⟨⟨⟨i.cbe, i.open_, i.calm⟩, rfl⟩, rfl⟩
  | some chain =>
    cases tr with
    | now r =>
      refine ⟨?_, rfl⟩
      refine (idle_onWritten (k := k) (t := t) (w := log { setJob w k
        { w.jobs k with wbh := some (if (w.jobs k).cont then chain else .hdr :: chain) } with bsHandler := (w.jobs k).streamHandler } _) ?_ hf ?_ hb r)
      · exact ⟨i.cbe, i.open_, i.calm⟩
      · show ((setJob w k _).jobs k).handler = _
        rw [setJob_self]; exact hh
    | later => exact ⟨⟨⟨i.cbe, i.open_, i.calm⟩, rfl⟩, rfl⟩
    | refuse => exact absurd rfl ht

theorem idle_enqueue {w : World} {st : List Item} (i : Idle w st) {k : Kind} {t : Nat} (hh : (w.jobs k).handler = .user t)
    (hb : (w.jobs k).streamHandler = .messageWritten) (len : Nat) (tr : Outcome) (ht : tr ≠ .refuse) :
    Shape w.turn (enqueue w k len tr st).1 := by
  unfold enqueue
  cases hf : w.first with
  | none =>
    have h := idle_sendFrame (w := { w with first := some k, last := some k }) (st := st) ⟨i.cbe, i.open_, i.calm⟩ rfl hh hb len tr ht
    simp only
    generalize sendFrame { w with first := some k, last := some k } k len tr st = p at h
    obtain ⟨s, ok⟩ := p
    obtain ⟨h1, h2⟩ := h
    dsimp only at h1 h2
    subst h2
    exact ⟨h1.1, h1.2⟩
  | some _ =>
    cases hl : w.last with
    | none => exact ⟨⟨i.cbe, i.open_, i.calm⟩, rfl⟩
    | some l => exact ⟨⟨i.cbe, i.open_, i.calm⟩, rfl⟩

theorem idle_doCall {w : World} {st : List Item} (i : Idle w st) (c : Call) (hc : Mine c) (hr : c ≠ .read) (tr : Outcome) (ht : tr ≠ .refuse) :
    Shape w.turn (doCall w c tr st) := by
  cases c with
  | first n p l b =>
    simp only [doCall]
    split
    · exact ⟨⟨i.cbe, i.open_, i.calm⟩, rfl⟩
    · refine (idle_enqueue (t := w.tickets) ?_ ?_ ?_ n tr ht)
      · exact ⟨i.cbe, i.open_, i.calm⟩
      · simp [WsQueue.log, setJob]
      · simp [WsQueue.log, setJob]
  | ping p =>
    simp only [doCall]
    split
    · exact ⟨⟨i.cbe, i.open_, i.calm⟩, rfl⟩
    · split
      · exact ⟨⟨i.cbe, i.open_, i.calm⟩, rfl⟩
      · refine (idle_enqueue (t := w.tickets) ?_ ?_ ?_ _ tr ht)
        · exact ⟨i.cbe, i.open_, i.calm⟩
        · simp [WsQueue.log, setJob]
        · simp [WsQueue.log, setJob]
  | read => exact absurd rfl hr
  | cont p => exact hc.elim
  | pong p => exact hc.elim
  | close n b => exact hc.elim

/-- One step. -/
theorem idle_step {s : State} {q u : List Kind} (c : Choice) (cm : Calm s.w s.stack q u) (hub : s.w.ub = false) (i : Idle s.w s.stack) (htm : s.w.timer = false)
    (hch : .close ∉ q) (hpo : .pong ∉ q) (hr : s.w.reading = false) (ht : c.tr ≠ .refuse) (hc : ∀ call, c.act = .call call → Mine call ∧ call ≠ .read) : Shape s.w.turn (step s c) := by
  have same : Shape s.w.turn s := ⟨i, rfl⟩
  have mine : ∀ k ∈ q, (∃ t, (s.w.jobs k).handler = .user t) ∧ (s.w.jobs k).streamHandler = .messageWritten := by
    intro k hk
    have ho := cm.base.core.ok k hk
    cases k with
    | message => exact ⟨ho.1, ho.2⟩
    | ping => exact ⟨ho.1, ho.2⟩
    | pong => exact absurd hk hpo
    | close => exact absurd hk hch
  obtain ⟨w, st⟩ := s
  dsimp only at *
  cases st with
  | nil =>
    unfold step
    rw [if_neg (by simp [hub])]
    dsimp only
    cases hact : c.act with
    | timer => dsimp only; rw [if_neg (by simp [htm])]; exact same
    | written res =>
      dsimp only
      split
      · rename_i hp
        have hs := cm.send
        generalize hst : ([] : List Item) = st0 at hs
        cases hs with
        | idle h1 => rw [hp.1] at h1; cases h1
        | flight k u h1 h2 h3 h4 =>
          obtain ⟨⟨t, hh⟩, hb⟩ := mine k List.mem_cons_self
          refine (idle_onWritten (k := k) (t := t) (w := { w with pend := false }) ?_ ?_ hh ?_ res)
          · exact ⟨i.cbe, i.open_, by rw [← hst]; exact i.calm⟩
          · exact cm.base.core.first
          · exact h3.trans hb
        | wait k u h1 => rw [hp.1] at h1; cases h1
      · exact same
    | call call =>
      dsimp only
      rw [if_pos i.open_]
      exact idle_doCall i _ (hc _ hact).1 (hc _ hact).2 _ ht
    | ret => exact same
    | gotData => dsimp only; rw [if_neg (by simp [hr])]; exact same
    | gotPing n => dsimp only; rw [if_neg (by simp [hr])]; exact same
    | gotPong => dsimp only; rw [if_neg (by simp [hr])]; exact same
    | gotClose n => dsimp only; rw [if_neg (by simp [hr])]; exact same
    | fail => dsimp only; rw [if_neg (by simp [hr])]; exact same
  | cons x rest =>
    have it : Idle w rest := ⟨i.cbe, i.open_, i.calm.tail⟩
    have tail : Shape w.turn ⟨w, rest⟩ := ⟨it, rfl⟩
    have hx := i.calm x List.mem_cons_self
    cases x with
    | user err =>
      unfold step
      rw [if_neg (by simp [hub])]
      dsimp only
      cases hact : c.act with
      | ret => exact tail
      | call call =>
        dsimp only
        rw [if_pos i.open_]
        exact idle_doCall i _ (hc _ hact).1 (hc _ hact).2 _ ht
      | _ => exact same
    | input =>
      unfold step
      rw [if_neg (by simp [hub])]
      dsimp only
      cases hact : c.act with
      | ret => exact tail
      | timer => exact same
      | written res => exact same
      | call call => exact same
      | gotData => dsimp only; rw [if_neg (by simp [hr])]; exact same
      | gotPing n => dsimp only; rw [if_neg (by simp [hr])]; exact same
      | gotPong => dsimp only; rw [if_neg (by simp [hr])]; exact same
      | gotClose n => dsimp only; rw [if_neg (by simp [hr])]; exact same
      | fail => dsimp only; rw [if_neg (by simp [hr])]; exact same
    | sendNext o =>
      cases o with
      | none =>
        unfold step
        rw [if_neg (by simp [hub])]
        exact tail
      | some k =>
        have hk : w.first = some k ∧ k ∈ q := by
          have hs := cm.send
          generalize hst : (Item.sendNext (some k) :: rest) = st0 at hs
          cases hs with
          | idle _ h2 => rw [← hst, somes_cons_some] at h2; cases h2
          | flight _ _ _ h2 => rw [← hst, somes_cons_some] at h2; cases h2
          | wait k' u _ h2 =>
            rw [← hst, somes_cons_some] at h2
            injection h2 with h2 _
            subst h2
            exact ⟨cm.base.core.first, List.mem_cons_self⟩
        obtain ⟨⟨t, hh⟩, hb⟩ := mine k hk.2
        unfold step
        rw [if_neg (by simp [hub])]
        dsimp only
        rw [if_neg (by have := i.open_; omega)]
        cases hw : (w.jobs k).wbh with
        | none => exact ⟨⟨i.cbe, i.open_, i.calm⟩, rfl⟩
        | some chain =>
          dsimp only
          have h := idle_sendFrame it hk.1 hh hb (total chain) c.tr ht
          generalize sendFrame w k (total chain) c.tr rest = p at h
          obtain ⟨s, ok⟩ := p
          obtain ⟨h1, h2⟩ := h
          dsimp only at h1 h2
          subst h2
          exact ⟨h1.1, h1.2⟩
    | abort => cases hx
    | errClose => cases hx
    | callClose res => cases hx
    | closeNow => cases hx

theorem calm_of_idle {s : State} (h : Reach s) (a : A s.w) (i : Idle s.w s.stack) : s.w.ub = false ∧ ∃ q u, Calm s.w s.stack q u := by
  have hub : s.w.ub = false := no_ub_partial h (by rw [Clean, i.cbe]; simp) i.cbe i.open_
  refine ⟨hub, ?_⟩
  have hi := reach_inv h
  rcases hi with ⟨h1, _⟩ | ⟨h1, _⟩ | ⟨_, hp⟩
  · rw [i.cbe] at h1; cases h1
  · rw [hub] at h1; cases h1
  · generalize s.stack = st at hp i
    generalize s.w = w at *
    have he := i.cbe
    cases hp with
    | calm _ q u c => exact ⟨q, u, c⟩
    | errAbort b rest q _ h2 => rw [he] at h2; cases h2
    | errClose rest _ h2 => rw [he] at h2; cases h2
    | errored _ q' _ h2 => rw [he] at h2; cases h2
    | immAbort res rest q _ h2 => rw [he] at h2; cases h2
    | immCall res rest _ h2 => rw [he] at h2; cases h2
    | closeAbort b res rest q t _ _ _ _ h2 => rw [a.sc] at h2; cases h2
    | closeCall res rest t _ _ _ h2 => rw [a.sc] at h2; cases h2
    | respAbort b rest q _ => exact absurd (i.calm .abort (by simp)) (by simp [isCalm])
    | closing rest q _ => exact absurd (i.calm .closeNow (by simp)) (by simp [isCalm])
    | dead _ q _ h2 => have := i.open_; omega

/-- After one more step nothing is different. -/
theorem idle_appStep {p : Prog} (h : Reachable p) (i : Idle p.q.w p.q.stack) (ht : p.q.w.turn = true) (e : Event) (hr : e.tr ≠ .refuse) :
    Idle (appStep p e).q.w (appStep p e).q.stack ∧ (appStep p e).q.w.turn = true := by
  have a := reachable_a h
  have l := reachable_link h i.cbe
  obtain ⟨hub, q, u, cm⟩ := calm_of_idle l.reach a i
  have hre : p.q.w.reading = false := by
    cases hx : p.q.w.reading with
    | false => rfl
    | true => rw [cm.tok.t1 hx] at ht; cases ht
  have hch : Kind.close ∉ q := fun hq => by rw [(cm.tok.t3 hq a.ch).2.1] at ht; cases ht
  have hpo : Kind.pong ∉ q := fun hq => by rw [(cm.tok.t2 hq (pong_in_queue cm a hq)).2] at ht; cases ht
  have go : ∀ x : Act, (∀ call, x = .call call → Mine call ∧ call ≠ .read) → Idle (step p.q ⟨x, e.tr⟩).w (step p.q ⟨x, e.tr⟩).stack ∧ (step p.q ⟨x, e.tr⟩).w.turn = true := by
    intro x hx
    have := idle_step ⟨x, e.tr⟩ cm hub i a.timer hch hpo hre hr hx
    exact ⟨this.1, this.2.trans ht⟩
  have ho : ∀ x, Idle (outside p x e).q.w (outside p x e).q.stack ∧ (outside p x e).q.w.turn = true := by
    intro x
    unfold outside
    split
    · exact ⟨i, ht⟩
    · split
      · rw [settle_q]; exact go _ (by simp)
      · exact ⟨i, ht⟩
    · rename_i h1 _
      split
      · dsimp only; rw [settle_q]; exact go _ (fun call hc => absurd hc (h1 call))
      · rw [settle_q]; exact go _ (fun call hc => absurd hc (h1 call))
  unfold appStep
  split
  · split
    · split
      · split
        · rw [settle_q]; exact go _ (fun call hc => by injection hc with hc; subst hc; exact ⟨rfl, by simp⟩)
        · exact ⟨i, ht⟩
      · exact ⟨i, ht⟩
    · exact ho _
  · split
    · rw [settle_q]; exact go _ (fun call hc => by injection hc with hc; subst hc; exact ⟨⟨rfl, rfl, rfl⟩, by simp⟩)
    · rw [settle_q]; exact go _ (by simp)
  · split
    · exact ⟨i, ht⟩
    · exact ho _
  · rw [settle_q]; exact go _ (by simp)

theorem Reachable.run {p : Prog} (h : Reachable p) (es : List Event) : Reachable (appRun p es) := by
  induction es generalizing p with
  | nil => exact h
  | cons e es ih => exact ih (h.step p e)

/-- Once "Hello World!" has been accepted the connection is never closed again, whatever the peer does and whatever becomes of the writes (also if
every further write fails), unless a write is refused at once: not by the program, not by the library. -/
theorem never_closed_after_hello {p : Prog} (h : Reachable p) (he : .onError ∉ p.q.w.log) (hcl : .closed ∉ p.q.w.log) (hh : 0 < hellos p.q.w.log)
    (hst : p.q.stack = []) (es : List Event) (hr : ∀ e ∈ es, e.tr ≠ .refuse) :
    .closed ∉ (appRun p es).q.w.log ∧ .onError ∉ (appRun p es).q.w.log := by
  have hc := not_failed h he
  have l := reachable_link h hc
  have a := reachable_a h
  have ht := l.turn (by omega)
  have h0 : p.q.w.closes = 0 := by rw [← (reachable_sup h).2.2.1]; exact (hooks_mem _).mpr hcl
  obtain ⟨hub, q, u, cm⟩ := calm_of l.reach a hc h0 (.inl hst)
  have go : ∀ es (p : Prog), Reachable p → Idle p.q.w p.q.stack → p.q.w.turn = true → (∀ e ∈ es, e.tr ≠ .refuse) →
      Idle (appRun p es).q.w (appRun p es).q.stack := by
    intro es
    induction es with
    | nil => intro p _ i _ _; exact i
    | cons e es ih =>
      intro p h i ht hr
      obtain ⟨i', ht'⟩ := idle_appStep h i ht e (hr e List.mem_cons_self)
      exact ih _ (h.step p e) i' ht' (fun e he => hr e (List.mem_cons_of_mem _ he))
  have i := go es p h ⟨hc, h0, cm.calm⟩ ht hr
  have hs := reachable_sup (h.run es)
  refine ⟨(hooks_mem _).mp (hs.2.2.1.trans i.open_), fun hm => ?_⟩
  have := hs.2.2.2
  rw [i.cbe, (failed_mem _).mpr hm] at this
  cases this

end Cio.WsExample
