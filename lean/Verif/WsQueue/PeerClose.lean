import Verif.WsQueue.Ending
/-
C68: after the peer's close frame the answer moves forward in the queue with each frame written.
-/
namespace Cio.WsQueue

theorem linked_unique {jobs : Kind → Job} : ∀ {q q' : List Kind}, Linked jobs q → Linked jobs q' → q.Nodup → q'.Nodup → q.head? = q'.head? →
    q.getLast? = q'.getLast? → q = q' := by
  intro q
  induction q with
  | nil =>
    intro q' _ _ _ _ h _
    cases q' with
    | nil => rfl
    | cons a r => cases h
  | cons a r ih =>
    intro q' h1 h2 n1 n2 hh hl
    cases q' with
    | nil => cases hh
    | cons a' r' =>
      have e : a = a' := by simpa using hh
      subst e
      cases r with
      | nil =>
        cases r' with
        | nil => rfl
        | cons b' t' =>
          have : (b' :: t').getLast? = some a := by simpa using hl.symm
          exact absurd (List.mem_of_getLast? this) (List.nodup_cons.mp n2).1
      | cons b t =>
        cases r' with
        | nil =>
          have : (b :: t).getLast? = some a := by simpa using hl
          exact absurd (List.mem_of_getLast? this) (List.nodup_cons.mp n1).1
        | cons b' t' =>
          have eb : b = b' := by
            have := h1.1.symm.trans h2.1
            simpa using this
          rw [ih h1.2 h2.2 (List.nodup_cons.mp n1).2 (List.nodup_cons.mp n2).2 (by rw [eb]; rfl) (by simpa using hl)]

theorem Core.unique {w : World} {q q' : List Kind} (c : Core w q) (c' : Core w q') : q = q' := by
  have hh : q.head? = q'.head? := c.first.symm.trans c'.first
  cases q with
  | nil =>
    cases q' with
    | nil => rfl
    | cons a r => cases hh
  | cons a r =>
    cases q' with
    | nil => cases hh
    | cons a' r' => exact linked_unique c.linked c'.linked c.nodup c'.nodup hh ((c.last (by simp)).symm.trans (c'.last (by simp)))

/-- A job is appended to a queue that is not empty. -/
theorem enqueue_core {w0 w : World} {st : List Item} {q u : List Kind} {k : Kind} (c : Calm w0 st q u) (f : Filled w0 w q k) (hqne : q ≠ []) (len : Nat)
    (tr : Outcome) : ∃ w', (enqueue w k len tr st).1 = ⟨w', st⟩ ∧ Core w' (q ++ [k]) ∧ w'.selfClose = w.selfClose := by
  obtain ⟨l, hl⟩ : ∃ l, q.getLast? = some l := ⟨_, List.getLast?_eq_some_getLast hqne⟩
  have hff : ∃ a, w.first = some a := by
    rw [f.first, c.base.core.first]
    cases q with
    | nil => exact absurd rfl hqne
    | cons a r => exact ⟨a, rfl⟩
  obtain ⟨a, ha⟩ := hff
  have hll : w.last = some l := by rw [f.last, c.base.core.last hqne, hl]
  refine ⟨{ setJob w l { w.jobs l with next := some k } with last := some k }, ?_, ?_, rfl⟩
  · unfold enqueue
    rw [ha, hll]
  · have hh : ∀ x, ((setJob w l { w.jobs l with next := some k }).jobs x).handler = (w.jobs x).handler := by
      intro x; simp only [setJob_jobs]; by_cases h : x = l <;> simp [h]
    have hsh : ∀ x, ((setJob w l { w.jobs l with next := some k }).jobs x).streamHandler = (w.jobs x).streamHandler := by
      intro x; simp only [setJob_jobs]; by_cases h : x = l <;> simp [h]
    have hw : ∀ x, ((setJob w l { w.jobs l with next := some k }).jobs x).wbh = (w.jobs x).wbh := by
      intro x; simp only [setJob_jobs]; by_cases h : x = l <;> simp [h]
    refine c.base.core.snoc hl f.new ?_ ?_ ?_ ?_ ?_ f.first rfl ?_ ?_ f.timer f.sc ?_
    · intro x hx; rw [← f.jobs x hx]; exact hw x
    · intro x hx; rw [← f.jobs x hx]; exact hh x
    · intro x hx; rw [← f.jobs x hx]; exact hsh x
    · intro x hx
      simp only [setJob_jobs]
      rw [if_neg hx]
      by_cases hxk : x = k
      · subst hxk; exact f.next
      · rw [f.jobs x hxk]
    · simp
    · show (_ : Job).wbh ≠ none
      rw [hw]; exact f.busy
    · exact f.ok.congr (hh k) (hsh k) rfl id
    · intro h; rw [c.cbe] at h; cases h

/-- The answer to the peer's close frame is queued behind `n` other jobs. -/
def Waits (n : Nat) (w : World) : Prop := w.selfClose = false ∧ ∃ q, Core w q ∧ q[n]? = some .close

/-- At most `n` completions are needed until the connection is closed. -/
def Soon (n : Nat) (s : State) : Prop :=
  s.w.ub = true ∨ s.w.closes ≠ 0 ∨ .closeNow ∈ s.stack ∨ (s.w.closedByError = true ∧ s.w.selfClose = false ∧ 1 ≤ n) ∨ ∃ m, m + 1 ≤ n ∧ Waits m s.w

theorem Soon.mono {n m : Nat} {s : State} (h : Soon n s) (hm : n ≤ m) : Soon m s := by
  rcases h with h | h | h | h | ⟨x, hx, h⟩
  · exact .inl h
  · exact .inr (.inl h)
  · exact .inr (.inr (.inl h))
  · exact .inr (.inr (.inr (.inl ⟨h.1, h.2.1, by omega⟩)))
  · exact .inr (.inr (.inr (.inr ⟨x, by omega, h⟩)))

theorem Waits.soon {n : Nat} {s : State} (h : Waits n s.w) : Soon (n + 1) s := .inr (.inr (.inr (.inr ⟨n, Nat.le_refl _, h⟩)))

theorem getElem?_append_some {q : List Kind} {n : Nat} {x : Kind} (h : q[n]? = some x) (l : List Kind) : (q ++ l)[n]? = some x := by
  have hn : n < q.length := by
    by_cases h' : n < q.length
    · exact h'
    · rw [List.getElem?_eq_none (by omega)] at h; cases h
  rw [List.getElem?_append_left hn]; exact h

/-- `Core` is not concerned. -/
theorem Waits.congr {n : Nat} {w w' : World} (h : Waits n w) (hj : w'.jobs = w.jobs) (hf : w'.first = w.first) (hl : w'.last = w.last)
    (hs : w'.selfClose = w.selfClose) (he : w'.closedByError = w.closedByError) (ht : w'.timer = w.timer) : Waits n w' := by
  obtain ⟨h1, q, h2, h3⟩ := h
  exact ⟨by rw [hs]; exact h1, q, h2.congr hj hf hl hs (by rw [he]; exact id) (by rw [ht]; exact id), h3⟩

theorem soon_handleError {n : Nat} {w : World} (st : List Item) (hsc : w.selfClose = false) (hn : 1 ≤ n) : Soon n (handleError w st) := by
  unfold handleError
  split
  · rename_i h; exact .inr (.inr (.inr (.inl ⟨h, hsc, hn⟩)))
  · exact .inr (.inr (.inr (.inl ⟨rfl, hsc, hn⟩)))

/-- The frame in front has been written. -/
theorem soon_onWritten {w : World} {st : List Item} {k : Kind} {q : List Kind} (f : Flight w st k q) (res : Res) {n : Nat} (hsc : w.selfClose = false)
    (hn : (k :: q)[n]? = some .close) : Soon n (onWritten w res st) := by
  rw [onWritten_eq f.base.core]
  have ho := f.base.core.ok k List.mem_cons_self
  rw [f.bs]
  by_cases hk : k = .close
  · subst hk
    rcases ho with ⟨_, hs, h⟩ | ⟨hh, hs, _⟩ | ⟨-, he⟩
    · rw [hsc] at h; cases h
    · rw [hs]
      exact .inr (.inr (.inl (by simp)))
    · rw [f.cbe] at he; cases he
  · have hs : (w.jobs k).streamHandler = .messageWritten := by
      cases k
      · exact ho.2
      · exact ho.2
      · exact ho.2
      · exact absurd rfl hk
    rw [hs]
    dsimp only
    rw [if_neg (ho.not_null hk)]
    cases n with
    | zero => simp at hn; exact absurd hn hk
    | succ n =>
      have hw : Waits n (popped w k q) := ⟨hsc, q, f.base.core.pop, by simpa using hn⟩
      cases hh : (w.jobs k).handler with
      | null => exact Waits.soon (s := ⟨popped w k q, _⟩) hw
      | stale => exact absurd hh ho.not_stale
      | user t => exact Waits.soon (s := ⟨log (popped w k q) _, _⟩) (hw.congr rfl rfl rfl rfl rfl rfl)
      | pongWritten =>
        simp only [callHandler, pongWritten]
        split
        · exact soon_handleError _ hsc (by omega)
        · exact Waits.soon (s := ⟨{ popped w k q with reading := true }, _⟩) (hw.congr rfl rfl rfl rfl rfl rfl)

/-- The frame in front is sent. -/
theorem soon_sendFrame {w : World} {st : List Item} {k : Kind} {q : List Kind} (r : Ready w st k q) (len : Nat) (tr : Outcome) {n : Nat}
    (hsc : w.selfClose = false) (hn : (k :: q)[n]? = some .close) :
    Soon (n + 1) (let (s, ok) := sendFrame w k len tr st; if ok then s else handleError s.w s.stack) := by
  have hb := r.base.core.busy k List.mem_cons_self
  cases hw : (w.jobs k).wbh with
  | none => exact absurd hw hb
  | some chain =>
    simp only [sendFrame, hw]
    cases tr with
    | now res =>
      simp only [if_true]
      have f := sent_flight r (if (w.jobs k).cont = true then chain else .hdr :: chain) w.pend (w.jobs k).cont (w.jobs k).opcode (w.jobs k).lastFrame
        (if (w.jobs k).cont = true then 0 else len) chain
      exact (soon_onWritten f res hsc hn).mono (by omega)
    | later =>
      simp only [if_true]
      have f := sent_flight r (if (w.jobs k).cont = true then chain else .hdr :: chain) true (w.jobs k).cont (w.jobs k).opcode (w.jobs k).lastFrame
        (if (w.jobs k).cont = true then 0 else len) chain
      exact .inr (.inr (.inr (.inr ⟨n, Nat.le_refl _, hsc, k :: q, f.base.core, hn⟩)))
    | refuse =>
      simp only [Bool.false_eq_true, if_false]
      exact soon_handleError _ hsc (by omega)

theorem soon_doCall {w : World} {st : List Item} {q u : List Kind} (c : Calm w st q u) (hub : w.ub = false) (call : Call) (tr : Outcome) {n : Nat}
    (hsc : w.selfClose = false) (hn : q[n]? = some .close) (hturn : w.turn = false)
    (ha : match call with
      | .read => w.turn = true
      | .cont _ => (w.jobs .message).wbh = none
      | .close _ _ => w.selfClose = false
      | _ => True) : Soon (n + 1) (doCall w call tr st) := by
  have hmem : .close ∈ q := List.mem_of_getElem? hn
  have hqne : q ≠ [] := List.ne_nil_of_mem hmem
  have hw : Waits n w := ⟨hsc, q, c.base.core, hn⟩
  have href : Soon (n + 1) ⟨log w .refused, st⟩ := .inr (.inr (.inr (.inr ⟨n, Nat.le_refl _, hw.congr rfl rfl rfl rfl rfl rfl⟩)))
  have henq : ∀ {k : Kind} {w' : World} (len : Nat), Filled w w' q k → w'.selfClose = false → Soon (n + 1) (enqueue w' k len tr st).1 := by
    intro k w' len f hs
    obtain ⟨w2, h1, h2, h3⟩ := enqueue_core c f hqne len tr
    rw [h1]
    exact .inr (.inr (.inr (.inr ⟨n, Nat.le_refl _, by show w2.selfClose = false; rw [h3]; exact hs, q ++ [k], h2, getElem?_append_some hn _⟩)))
  cases call with
  | first frameLength payload lastFrame binary =>
    simp only [doCall]
    by_cases h : (w.jobs .message).wbh.isSome = true
    · rw [if_pos h]; exact href
    · rw [if_neg h]
      refine henq _ ?_ hsc
      refine fill_user c hub (isSome_false h) (by simp) ?_ ?_ ?_ ?_ ?_ rfl rfl rfl rfl rfl rfl rfl rfl rfl rfl rfl rfl rfl rfl
      · intro x hx; simp [log, setJob, hx]
      all_goals simp [log, setJob]
  | cont payload =>
    simp only [doCall]
    refine henq _ ?_ hsc
    refine fill_user c hub ha (by simp) ?_ ?_ ?_ ?_ ?_ rfl rfl rfl rfl rfl rfl rfl rfl rfl rfl rfl rfl rfl rfl
    · intro x hx; simp [log, setJob, hx]
    all_goals simp [log, setJob]
  | ping payload =>
    simp only [doCall]
    by_cases h0 : payload.sum > 125
    · rw [if_pos h0]; exact href
    · rw [if_neg h0]
      by_cases h : (w.jobs .ping).wbh.isSome = true
      · rw [if_pos h]; exact href
      · rw [if_neg h]
        refine henq _ ?_ hsc
        refine fill_user c hub (isSome_false h) (by simp) ?_ ?_ ?_ ?_ ?_ rfl rfl rfl rfl rfl rfl rfl rfl rfl rfl rfl rfl rfl rfl
        · intro x hx; simp [log, setJob, hx]
        all_goals simp [log, setJob]
  | pong payload =>
    simp only [doCall]
    by_cases h0 : payload.sum > 125
    · rw [if_pos h0]; exact href
    · rw [if_neg h0]
      by_cases h : (w.jobs .pong).wbh.isSome = true
      · rw [if_pos h]; exact href
      · rw [if_neg h]
        refine henq _ ?_ hsc
        refine fill_user c hub (isSome_false h) (by simp) ?_ ?_ ?_ ?_ ?_ rfl rfl rfl rfl rfl rfl rfl rfl rfl rfl rfl rfl rfl rfl
        · intro x hx; simp [log, setJob, hx]
        all_goals simp [log, setJob]
  | close reasonLength timerOk =>
    simp only [doCall]
    have h : (w.jobs .close).wbh.isSome = true := by
      have := c.base.core.busy .close hmem
      cases hx : (w.jobs .close).wbh with
      | none => exact absurd hx this
      | some _ => rfl
    rw [if_pos h]; exact href
  | read => rw [show w.turn = true from ha] at hturn; cases hturn

/-- One completion by the transport: its callback is called. -/
def completion (s : State) (c : Choice) : Bool :=
  match c.act, s.stack with
  | .written _, [] => s.w.pend && s.w.closes == 0
  | _, _ => false

/-- Other phases than `calm`. -/
theorem waits_calm {w : World} {st : List Item} {n : Nat} (p : Phase w st) (hcbe : w.closedByError = false) (h0 : w.closes = 0)
    (hst : .closeNow ∉ st) (h : Waits n w) : ∃ q u, Calm w st q u ∧ q[n]? = some .close := by
  obtain ⟨hsc, q, hq, hn⟩ := h
  cases p with
  | calm _ q' u hc => exact ⟨q', u, hc, by rw [← hq.unique hc.base.core]; exact hn⟩
  | errAbort b rest q h1 h2 => rw [hcbe] at h2; cases h2
  | errClose rest h1 h2 => rw [hcbe] at h2; cases h2
  | errored _ q' h1 h2 => rw [hcbe] at h2; cases h2
  | immAbort res rest q h1 h2 => rw [hcbe] at h2; cases h2
  | immCall res rest h1 h2 => rw [hcbe] at h2; cases h2
  | closeAbort b res rest q t h1 h2 h3 h4 h5 => rw [hsc] at h5; cases h5
  | closeCall res rest t h1 h2 h3 h4 => rw [hsc] at h4; cases h4
  | respAbort b rest q => exact absurd (by simp) hst
  | closing rest q => exact absurd (by simp) hst
  | dead _ q h1 h2 => rw [h0] at h2; cases h2

theorem keeps_ub (s : State) (c : Choice) (h : s.w.ub = true) : step s c = s := by
  unfold step; rw [if_pos h]

/-- The connection is closed, or is about to be. -/
def Gone (w : World) (st : List Item) : Prop := w.closes ≠ 0 ∨ .closeNow ∈ st

theorem Gone.keep {w : World} {st : List Item} {s : State} (h : Gone w st) (k : Keep w st s) : Gone s.w s.stack := by
  rcases h with h | h
  · exact .inl (by rw [k.closes]; exact h)
  · exact .inr (k.stack _ h)

theorem Gone.tail {w : World} {i : Item} {st : List Item} (h : Gone w (i :: st)) (hi : i ≠ .closeNow) : Gone w st := by
  rcases h with h | h
  · exact .inl h
  · rcases List.mem_cons.mp h with h | h
    · exact absurd h.symm hi
    · exact .inr h

theorem gone_doCall {w : World} {st : List Item} (h : Gone w st) (c : Call) (tr : Outcome) : Gone (doCall w c tr st).w (doCall w c tr st).stack := by
  cases c with
  | close n b =>
    simp only [doCall]
    split
    · exact h
    · split
      · exact h
      · refine Gone.keep (w := log { prepareClose w n (.user w.tickets) .closeWritten with tickets := w.tickets + 1, timer := true, selfClose := true } _) (st := st) h (keep_enqueue _ _ _ _ _)
  | first n p l b =>
    simp only [doCall]
    split
    · exact h
    · exact h.keep ((keep_enqueue _ _ _ _ _).of id rfl rfl rfl id (fun _ h => h))
  | cont p => exact h.keep ((keep_enqueue _ _ _ _ _).of id rfl rfl rfl id (fun _ h => h))
  | ping p =>
    simp only [doCall]
    split
    · exact h
    · split
      · exact h
      · exact h.keep ((keep_enqueue _ _ _ _ _).of id rfl rfl rfl id (fun _ h => h))
  | pong p =>
    simp only [doCall]
    split
    · exact h
    · split
      · exact h
      · exact h.keep ((keep_enqueue _ _ _ _ _).of id rfl rfl rfl id (fun _ h => h))
  | read => exact h.keep ⟨id, rfl, rfl, rfl, id, fun i h => List.mem_cons_of_mem _ h⟩

theorem gone_arrive {w : World} {st : List Item} (h : Gone w st) (a : Act) (tr : Outcome) : Gone (arrive w a tr st).w (arrive w a tr st).stack := by
  cases a with
  | gotPing n => exact h.keep ((keep_enqueue _ _ _ _ _).of id rfl rfl rfl id (fun _ h => h))
  | gotClose n =>
    simp only [arrive]
    split
    · exact .inr List.mem_cons_self
    · exact h.keep ((keep_enqueue _ _ _ _ _).of id rfl rfl rfl id (fun _ h => h))
  | fail => exact h.keep ((keep_handleError { w with reading := false } st).of id rfl rfl rfl id (fun _ h => h))
  | gotData => exact h.keep ⟨id, rfl, rfl, rfl, id, fun i h => List.mem_cons_of_mem _ h⟩
  | _ => exact h

theorem gone_step (s : State) (c : Choice) (h : Gone s.w s.stack) : Gone (step s c).w (step s c).stack := by
  obtain ⟨w, st⟩ := s
  have h : Gone w st := h
  have hf : Gone (fault ⟨w, st⟩).w (fault ⟨w, st⟩).stack := h
  unfold step
  split
  · exact h
  · dsimp only
    cases st with
    | nil =>
      dsimp only
      cases c.act with
      | timer =>
        dsimp only
        split
        · exact .inr List.mem_cons_self
        · exact h
      | written r =>
        dsimp only
        split
        · exact h.keep ((keep_onWritten { w with pend := false } r []).of id rfl rfl rfl id (fun _ h => h))
        · exact h
      | call call =>
        dsimp only
        split
        · exact gone_doCall h _ _
        · exact hf
      | ret => exact h
      | _ =>
        dsimp only
        split
        · exact gone_arrive h _ _
        · exact h
    | cons i rest =>
      cases i with
      | user e =>
        dsimp only
        cases c.act with
        | ret => exact h.tail (by simp)
        | call call =>
          dsimp only
          split
          · exact gone_doCall h _ _
          · exact hf
        | _ => exact h
      | input =>
        dsimp only
        cases c.act with
        | ret => exact h.tail (by simp)
        | call _ => exact h
        | written _ => exact h
        | timer => exact h
        | _ =>
          dsimp only
          split
          · exact gone_arrive h _ _
          · exact h
      | sendNext o =>
        have ht := h.tail (by simp)
        cases o with
        | none => exact ht
        | some k =>
          dsimp only
          split
          · exact hf
          · split
            · exact hf
            · rename_i chain _
              have hk := keep_sendFrame w k (total chain) c.tr rest
              generalize sendFrame w k (total chain) c.tr rest = p at hk
              obtain ⟨s', ok⟩ := p
              cases ok
              · exact ht.keep hk.onErr
              · exact ht.keep hk
      | abort =>
        dsimp only
        split
        · exact hf
        · cases hd : dequeue w with
          | none => exact h.tail (by simp)
          | some p =>
            obtain ⟨k, w'⟩ := p
            have hk := dequeue_keep hd
            refine h.keep ((keep_callHandler _ _ _ _ _).of ?_ ?_ hk.2.2.1 (by show seen w'.log = seen w.log; rw [hk.2.2.2.1])
              (fun h => by show w'.closedByError = failed w'.log; rw [hk.2.2.2.1, hk.2.2.2.2]; exact h) (fun _ h => h))
            · show w.timer = true → w'.timer = true; rw [hk.1]; exact id
            · exact hk.2.1
      | errClose =>
        have ht := h.tail (by simp)
        dsimp only
        split
        · exact hf
        · have hk : Keep w rest (enqueue (prepareClose w errReason .null .closeWrittenImmediate) .close (2 + errReason) c.tr rest).1 :=
            (keep_enqueue (prepareClose w errReason .null .closeWrittenImmediate) .close (2 + errReason) c.tr rest).of id rfl rfl rfl id (fun _ h => h)
          generalize enqueue (prepareClose w errReason .null .closeWrittenImmediate) .close (2 + errReason) c.tr rest = p at hk
          obtain ⟨s', ok⟩ := p
          cases ok
          · exact ht.keep ⟨hk.timer, hk.sc, hk.closes, hk.obs, hk.err, fun i h => List.mem_cons_of_mem _ (hk.stack i h)⟩
          · exact ht.keep hk
      | callClose res =>
        have ht := h.tail (by simp)
        dsimp only
        split
        · exact hf
        · exact ht.keep (keep_callHandler _ _ _ _ _)
      | closeNow =>
        left
        show w.closes + 1 ≠ 0
        omega

theorem completion_false {w : World} {i : Item} {rest : List Item} {c : Choice} : completion ⟨w, i :: rest⟩ c = false := by
  unfold completion
  cases c.act <;> rfl

/-- The answer moves forward with each completion, and never back. -/
theorem soon_calm {w : World} {st : List Item} {q u : List Kind} (c : Choice) (hub : w.ub = false) (hc : Calm w st q u) (ha : Allowed ⟨w, st⟩ c) {n : Nat}
    (hsc : w.selfClose = false) (hn : q[n]? = some .close) : Soon (n + 1 - if completion ⟨w, st⟩ c then 1 else 0) (step ⟨w, st⟩ c) := by
  have hmem : .close ∈ q := List.mem_of_getElem? hn
  have hnull : (w.jobs .close).handler = .null := by
    rcases hc.base.core.ok .close hmem with h | h | h
    · rw [h.2.2] at hsc; cases hsc
    · exact h.1
    · exact h.1
  obtain ⟨hr, hturn, hpong⟩ := hc.tok.t3 hmem hnull
  have hw : Waits n w := ⟨hsc, q, hc.base.core, hn⟩
  have hall : ∀ st', Soon (n + 1) ⟨w, st'⟩ := fun st' => .inr (.inr (.inr (.inr ⟨n, Nat.le_refl _, hw⟩)))
  have hcall : ∀ call, c.act = .call call → Soon (n + 1) (doCall w call c.tr st) := by
    intro call h
    unfold Allowed at ha
    rw [h] at ha
    exact soon_doCall hc hub call c.tr hsc hn hturn ha.2.2.2
  have h0 := hc.open_
  have htimer : w.timer = false := timer_false hc.base.core hsc
  cases st with
  | nil =>
    by_cases hcp : completion ⟨w, []⟩ c = true
    · rw [if_pos hcp, Nat.add_sub_cancel]
      cases hact : c.act with
      | written r =>
        unfold completion at hcp
        rw [hact] at hcp
        have hp : w.pend = true := by simp at hcp; exact hcp.1
        rw [step_written hact hub hp h0]
        have hs := hc.send
        cases hs with
        | idle h => rw [h] at hp; cases hp
        | wait k u h => rw [h] at hp; cases hp
        | flight k u h1 h2 h3 h4 =>
          refine soon_onWritten (k := k) (q := u) ?_ r hsc hn
          exact { base := hc.base.congr rfl rfl rfl rfl id id rfl rfl rfl rfl, ub := hub, calm := hc.calm, nosome := h2, bs := h3, sent := h4, cbe := hc.cbe, open_ := hc.open_,
                  ord := hc.ord, c1 := hc.c1,
                  c2 := (fun a b => by have := (hc.c2 a b).2; simpa using this), tok := ⟨hc.tok.t1, hc.tok.t2, hc.tok.t3⟩ }
      | _ => unfold completion at hcp; rw [hact] at hcp; simp at hcp
    · rw [if_neg hcp, Nat.sub_zero]
      cases hact : c.act with
      | call call =>
        simp only [step, hub, Bool.false_eq_true, if_false, hact, h0, if_true]; exact hcall call hact
      | ret => simp only [step, hub, Bool.false_eq_true, if_false, hact]; exact hall _
      | written r =>
        have hp : ¬ w.pend = true := by
          intro hp
          apply hcp
          unfold completion
          rw [hact]
          simp [hp, h0]
        simp only [step, hub, Bool.false_eq_true, if_false, hact, hp, false_and]; exact hall _
      | timer => simp only [step, hub, Bool.false_eq_true, if_false, hact, htimer]; exact hall _
      | _ =>
        simp only [step, hub, Bool.false_eq_true, if_false, hact, hr, false_and]; exact hall _
  | cons i rest =>
    rw [completion_false, if_neg (by simp), Nat.sub_zero]
    have hi := hc.calm i List.mem_cons_self
    cases i with
    | user e =>
      cases hact : c.act with
      | call call =>
        simp only [step, hub, Bool.false_eq_true, if_false, hact, h0, if_true]; exact hcall call hact
      | _ => simp only [step, hub, Bool.false_eq_true, if_false, hact]; exact hall _
    | input =>
      cases hact : c.act with
      | call call => simp only [step, hub, Bool.false_eq_true, if_false, hact]; exact hall _
      | ret => simp only [step, hub, Bool.false_eq_true, if_false, hact]; exact hall _
      | written _ => simp only [step, hub, Bool.false_eq_true, if_false, hact]; exact hall _
      | timer => simp only [step, hub, Bool.false_eq_true, if_false, hact]; exact hall _
      | _ => simp only [step, hub, Bool.false_eq_true, if_false, hact, hr, false_and]; exact hall _
    | sendNext o =>
      cases o with
      | none =>
        simp only [step, hub, Bool.false_eq_true, if_false]
        exact hall _
      | some k =>
        have h1 : ¬ w.closes > 0 := by omega
        have hs := hc.send
        cases hs with
        | idle h h' => rw [somes_cons_some] at h'; cases h'
        | flight k' u h h' => rw [somes_cons_some] at h'; cases h'
        | wait k' u hp h' =>
          rw [somes_cons_some] at h'
          obtain ⟨hk, hrest⟩ := List.cons.inj h'
          subst hk
          have hb := hc.base.core.busy k List.mem_cons_self
          cases hw : (w.jobs k).wbh with
          | none => exact absurd hw hb
          | some chain =>
            simp only [step, hub, Bool.false_eq_true, if_false, if_neg h1, hw]
            refine soon_sendFrame (q := u) ?_ _ _ hsc hn
            exact { base := hc.base, ub := hub, calm := hc.calm.tail, nosome := hrest, cbe := hc.cbe, open_ := h0, pend := hp, ord := hc.ord, c1 := hc.c1,
                    c2 := (fun a b => by have := (hc.c2 a b).1; rw [hp] at this; cases this), tok := hc.tok }
    | _ => cases hi

theorem sc_step (s : State) (c : Choice) (hc : ∀ call, c.act ≠ .call call) : (step s c).w.selfClose = s.w.selfClose := by
  obtain ⟨w, st⟩ := s
  have harr : ∀ a tr st, (arrive w a tr st).w.selfClose = w.selfClose := by
    intro a tr st
    cases a with
    | gotPing n => exact Eq.trans (keep_enqueue _ _ _ _ _).sc rfl
    | gotClose n =>
      simp only [arrive]
      split
      · rfl
      · exact Eq.trans (keep_enqueue _ _ _ _ _).sc rfl
    | fail => exact (keep_handleError { w with reading := false } st).sc
    | _ => rfl
  unfold step
  split
  · rfl
  · dsimp only
    cases st with
    | nil =>
      dsimp only
      cases hact : c.act with
      | timer =>
        dsimp only
        split <;> rfl
      | written r =>
        dsimp only
        split
        · exact (keep_onWritten { w with pend := false } r []).sc
        · rfl
      | call call => exact absurd hact (hc call)
      | ret => rfl
      | _ =>
        dsimp only
        split
        · exact harr _ _ _
        · rfl
    | cons i rest =>
      cases i with
      | user e =>
        dsimp only
        cases hact : c.act with
        | call call => exact absurd hact (hc call)
        | _ => rfl
      | input =>
        dsimp only
        cases c.act with
        | ret => rfl
        | call _ => rfl
        | written _ => rfl
        | timer => rfl
        | _ =>
          dsimp only
          split
          · exact harr _ _ _
          · rfl
      | sendNext o =>
        cases o with
        | none => rfl
        | some k =>
          dsimp only
          split
          · rfl
          · split
            · rfl
            · rename_i chain _
              have hk := keep_sendFrame w k (total chain) c.tr rest
              generalize sendFrame w k (total chain) c.tr rest = p at hk
              obtain ⟨s', ok⟩ := p
              cases ok
              · exact hk.onErr.sc
              · exact hk.sc
      | abort =>
        dsimp only
        split
        · rfl
        · cases hd : dequeue w with
          | none => rfl
          | some p =>
            obtain ⟨k, w'⟩ := p
            exact (keep_callHandler _ _ _ _ _).sc.trans (dequeue_keep hd).2.1
      | errClose =>
        dsimp only
        split
        · rfl
        · have hk := (keep_enqueue (prepareClose w errReason .null .closeWrittenImmediate) .close (2 + errReason) c.tr rest).sc
          generalize enqueue (prepareClose w errReason .null .closeWrittenImmediate) .close (2 + errReason) c.tr rest = p at hk
          obtain ⟨s', ok⟩ := p
          cases ok <;> exact hk
      | callClose res =>
        dsimp only
        split
        · rfl
        · exact (keep_callHandler _ _ _ _ _).sc
      | closeNow => rfl

/-- A failed connection at rest: the close frame is being sent. -/
theorem errored_rest {w : World} (p : Phase w []) (he : w.closedByError = true) (h0 : w.closes = 0) :
    w.pend = true ∧ w.bsHandler = .closeWrittenImmediate ∧ ∃ q, Core w (.close :: q) := by
  generalize hs : ([] : List Item) = st at p
  cases p with
  | calm _ q u c => have := c.cbe; rw [he] at this; cases this
  | errored _ q' hb h2 h3 h4 h5 h6 hbs => exact ⟨h6, hbs, q', hb.core⟩
  | dead _ q h1 h2 => rw [h0] at h2; cases h2
  | errAbort b => cases b <;> cases hs
  | closeAbort b => cases b <;> cases hs
  | respAbort b => cases b <;> cases hs
  | _ => cases hs

theorem Soon.step {s : State} {c : Choice} {n : Nat} (hs : Soon n s) (hi : Inv s) (ha : Allowed s c) :
    Soon (n - if completion s c then 1 else 0) (WsQueue.step s c) := by
  by_cases hg : Gone s.w s.stack
  · rcases gone_step s c hg with h | h
    · exact .inr (.inl h)
    · exact .inr (.inr (.inl h))
  by_cases hu : s.w.ub = true
  · rw [keeps_ub s c hu]; exact .inl hu
  have hu : s.w.ub = false := by simpa using hu
  have h0 : s.w.closes = 0 := by
    by_cases h : s.w.closes = 0
    · exact h
    · exact absurd (.inl h) hg
  have hn : .closeNow ∉ s.stack := fun h => hg (.inr h)
  obtain ⟨w, st⟩ := s
  by_cases he : w.closedByError = true
  · have hsc : w.selfClose = false ∧ 1 ≤ n := by
      rcases hs with h | h | h | h | ⟨m, hm, h⟩
      · rw [hu] at h; cases h
      · exact absurd h0 h
      · exact absurd h hn
      · exact h.2
      · exact ⟨h.1, by omega⟩
    have hnc : ∀ call, c.act ≠ .call call := by
      intro call hcall
      have := (no_call hcall ha).1
      rw [he] at this; cases this
    by_cases hcp : completion ⟨w, st⟩ c = true
    · rcases hi with hi | hi | ⟨-, p⟩
      · exact absurd hi.2 (by rw [show w.selfClose = false from hsc.1]; simp)
      · rw [hu] at hi; cases hi.1
      · cases st with
        | cons i rest => rw [completion_false] at hcp; cases hcp
        | nil =>
          obtain ⟨hp, hbs, q, hq⟩ := errored_rest p he h0
          cases hact : c.act with
          | written r =>
            have hq' : Core { w with pend := false } (.close :: q) := hq.congr rfl rfl rfl rfl id id
            have e : WsQueue.step ⟨w, []⟩ c = onWritten { w with pend := false } r [] := step_written hact hu hp h0
            rw [e, onWritten_eq hq']
            refine .inr (.inr (.inl ?_))
            show Item.closeNow ∈ (match w.bsHandler with | .messageWritten => _ | .closeWritten => _ | .closeWrittenImmediate => _ | .responseCloseWritten => _ : State).stack
            rw [hbs]
            simp
          | _ => unfold completion at hcp; rw [hact] at hcp; simp at hcp
    · rw [if_neg hcp, Nat.sub_zero]
      exact .inr (.inr (.inr (.inl ⟨(keeps_step ⟨w, st⟩ c).1 he, (sc_step ⟨w, st⟩ c hnc).trans hsc.1, hsc.2⟩)))
  · have he : w.closedByError = false := by simpa using he
    rcases hs with h | h | h | h | ⟨m, hm, h⟩
    · rw [hu] at h; cases h
    · exact absurd h0 h
    · exact absurd h hn
    · rw [show w.closedByError = false from he] at h; cases h.1
    · rcases hi with hi | hi | ⟨-, p⟩
      · rw [show w.closedByError = false from he] at hi; cases hi.1
      · rw [hu] at hi; cases hi.1
      · obtain ⟨q, u, hc, hq⟩ := waits_calm p he h0 hn h
        exact (soon_calm c hu hc ha h.1 hq).mono (Nat.sub_le_sub_right hm _)

/-- While the connection is open and the library has nothing to do, a write is with the transport. -/
theorem Soon.pend {s : State} {n : Nat} (hs : Soon n s) (hi : Inv s) (hub : s.w.ub = false) (hst : s.stack = []) (h0 : s.w.closes = 0) :
    s.w.pend = true ∧ 1 ≤ n := by
  obtain ⟨w, st⟩ := s
  have hst : st = [] := hst
  subst hst
  have hinv : w.selfClose = false → Phase w [] := by
    intro hsc
    rcases hi with hi | hi | ⟨-, p⟩
    · exact absurd hi.2 (by rw [show w.selfClose = false from hsc]; simp)
    · rw [hub] at hi; cases hi.1
    · exact p
  rcases hs with h | h | h | h | ⟨m, hm, h⟩
  · rw [hub] at h; cases h
  · exact absurd h0 h
  · cases h
  · exact ⟨(errored_rest (hinv h.2.1) h.1 h0).1, h.2.2⟩
  · refine ⟨?_, by omega⟩
    by_cases he : w.closedByError = true
    · exact (errored_rest (hinv h.1) he h0).1
    · obtain ⟨q, u, hc, hq⟩ := waits_calm (hinv h.1) (by simpa using he) h0 (by simp) h
      have := hc.send
      cases this with
      | idle _ _ => simp at hq
      | flight _ _ h1 => exact h1
      | wait _ _ _ h2 => cases h2

end Cio.WsQueue
