import Verif.WsQueue.Props
/-
C68: a connection whose peer has closed it, or that has failed, or that the user closes, is given up: invariants.
-/
namespace Cio.WsQueue

/-! ### The user's close is supervised by the close timer -/

/-- `cio_websocket_close` was accepted. -/
def asked : List Ev → Bool
  | [] => false
  | .accepted _ .close _ _ _ _ _ :: _ => true
  | _ :: l => asked l

/-- How often the close hook ran. -/
def hooks : List Ev → Nat
  | [] => 0
  | .closed :: l => hooks l + 1
  | _ :: l => hooks l

/-- `on_error` was called. -/
def failed : List Ev → Bool
  | [] => false
  | .onError :: _ => true
  | _ :: l => failed l

def seen (l : List Ev) : Bool × Nat := (asked l, hooks l)

/-- What the functions below a step do with the close timer and the rest of the work. -/
structure Keep (w : World) (st : List Item) (s : State) : Prop where
  timer : w.timer = true → s.w.timer = true
  sc : s.w.selfClose = w.selfClose
  closes : s.w.closes = w.closes
  obs : seen s.w.log = seen w.log
  err : w.closedByError = failed w.log → s.w.closedByError = failed s.w.log
  stack : ∀ i ∈ st, i ∈ s.stack

theorem Keep.refl (w : World) (st : List Item) : Keep w st ⟨w, st⟩ := ⟨id, rfl, rfl, rfl, id, fun _ h => h⟩

/-- Changes of the world before, more to do. -/
theorem Keep.of {w w0 : World} {st st0 : List Item} {s : State} (h : Keep w st s) (ht : w0.timer = true → w.timer = true)
    (hs : w.selfClose = w0.selfClose) (hc : w.closes = w0.closes) (ho : seen w.log = seen w0.log)
    (he : w0.closedByError = failed w0.log → w.closedByError = failed w.log) (hst : ∀ i ∈ st0, i ∈ st) : Keep w0 st0 s :=
  ⟨h.timer ∘ ht, h.sc.trans hs, h.closes.trans hc, h.obs.trans ho, h.err ∘ he, fun i hi => h.stack i (hst i hi)⟩

theorem keep_handleError (w : World) (st : List Item) : Keep w st (handleError w st) := by
  unfold handleError
  split
  · exact Keep.refl _ _
  · exact ⟨id, rfl, rfl, rfl, fun _ => rfl, fun i h => List.mem_cons_of_mem _ (List.mem_cons_of_mem _ h)⟩

theorem keep_callHandler (w : World) (h : Handler) (r : Res) (ch : List Elem) (st : List Item) : Keep w st (callHandler w h r ch st) := by
  unfold callHandler
  cases h with
  | null => exact Keep.refl _ _
  | stale => exact ⟨id, rfl, rfl, rfl, id, fun _ h => h⟩
  | user t => exact ⟨id, rfl, rfl, rfl, id, fun i h => List.mem_cons_of_mem _ h⟩
  | pongWritten =>
    simp only [pongWritten]
    split
    · exact keep_handleError _ _
    · exact ⟨id, rfl, rfl, rfl, id, fun i h => List.mem_cons_of_mem _ h⟩

theorem dequeue_keep {w w' : World} {k : Kind} (h : dequeue w = some (k, w')) :
    w'.timer = w.timer ∧ w'.selfClose = w.selfClose ∧ w'.closes = w.closes ∧ w'.log = w.log ∧ w'.closedByError = w.closedByError := by
  unfold dequeue at h
  split at h
  · cases h
  · simp at h; rw [← h.2]; exact ⟨rfl, rfl, rfl, rfl, rfl⟩

theorem keep_onWritten (w : World) (r : Res) (st : List Item) : Keep w st (onWritten w r st) := by
  unfold onWritten
  cases hd : dequeue w with
  | none => exact ⟨id, rfl, rfl, rfl, id, fun _ h => h⟩
  | some p =>
    obtain ⟨k, w1⟩ := p
    have h := dequeue_keep hd
    simp only
    have h2 : (setJob w1 k { w1.jobs k with wbh := none }).timer = w.timer ∧ (setJob w1 k { w1.jobs k with wbh := none }).selfClose = w.selfClose ∧
      (setJob w1 k { w1.jobs k with wbh := none }).closes = w.closes ∧
      (setJob w1 k { w1.jobs k with wbh := none }).log = w.log ∧
      (setJob w1 k { w1.jobs k with wbh := none }).closedByError = w.closedByError := ⟨h.1, h.2.1, h.2.2.1, h.2.2.2.1, h.2.2.2.2⟩
    generalize setJob w1 k { w1.jobs k with wbh := none } = w2 at h2
    have k2 : ∀ st', (∀ i ∈ st, i ∈ st') → Keep w st ⟨w2, st'⟩ := fun st' hs =>
      ⟨fun h => by rw [← h2.1] at h; exact h, h2.2.1, h2.2.2.1, by rw [h2.2.2.2.1], fun h => by rw [h2.2.2.2.1, h2.2.2.2.2]; exact h, hs⟩
    cases w2.bsHandler with
    | messageWritten =>
      simp only
      split
      · exact ⟨(k2 st (fun _ h => h)).timer, (k2 st (fun _ h => h)).sc, (k2 st (fun _ h => h)).closes, (k2 st (fun _ h => h)).obs, (k2 st (fun _ h => h)).err, fun _ h => h⟩
      · exact (keep_callHandler w2 _ _ _ _).of (by rw [h2.1]; exact id) h2.2.1 h2.2.2.1 (by rw [h2.2.2.2.1]) (fun h => by rw [h2.2.2.2.1, h2.2.2.2.2]; exact h) (fun i h => List.mem_cons_of_mem _ h)
    | closeWritten => exact k2 _ (fun i h => List.mem_cons_of_mem _ (List.mem_cons_of_mem _ h))
    | closeWrittenImmediate => exact k2 _ (fun i h => List.mem_cons_of_mem _ (List.mem_cons_of_mem _ (List.mem_cons_of_mem _ h)))
    | responseCloseWritten => exact k2 _ (fun i h => List.mem_cons_of_mem _ (List.mem_cons_of_mem _ h))

theorem keep_sendFrame (w : World) (k : Kind) (len : Nat) (tr : Outcome) (st : List Item) : Keep w st (sendFrame w k len tr st).1 := by
  unfold sendFrame
  cases (w.jobs k).wbh with
  | none => exact ⟨id, rfl, rfl, rfl, id, fun _ h => h⟩
  | some chain =>
    cases tr with
    | now r => exact (keep_onWritten (log { setJob w k _ with bsHandler := _ } _) _ _).of id rfl rfl rfl id (fun _ h => h)
    | later => exact ⟨id, rfl, rfl, rfl, id, fun _ h => h⟩
    | refuse => exact ⟨id, rfl, rfl, rfl, id, fun _ h => h⟩

theorem Keep.onErr {w : World} {st : List Item} {s : State} (h : Keep w st s) : Keep w st (handleError s.w s.stack) :=
  (keep_handleError s.w s.stack).of h.timer h.sc h.closes h.obs h.err h.stack

theorem keep_enqueue (w : World) (k : Kind) (len : Nat) (tr : Outcome) (st : List Item) : Keep w st (enqueue w k len tr st).1 := by
  unfold enqueue
  cases w.first with
  | none =>
    have h : Keep w st (sendFrame { w with first := some k, last := some k } k len tr st).1 :=
      (keep_sendFrame { w with first := some k, last := some k } k len tr st).of id rfl rfl rfl id (fun _ h => h)
    simp only
    generalize sendFrame { w with first := some k, last := some k } k len tr st = p at h
    obtain ⟨s, ok⟩ := p
    cases ok
    · exact h.onErr
    · exact h
  | some _ =>
    cases w.last with
    | none => exact ⟨id, rfl, rfl, rfl, id, fun _ h => h⟩
    | some l => exact ⟨id, rfl, rfl, rfl, id, fun _ h => h⟩

/-- The user's close is supervised. -/
def Sup (w : World) (st : List Item) : Prop :=
  (w.selfClose = true → w.closes = 0 → w.timer = true ∨ .closeNow ∈ st) ∧ w.selfClose = asked w.log ∧ hooks w.log = w.closes ∧
    w.closedByError = failed w.log

theorem Sup.keep {w : World} {st : List Item} {s : State} (h : Sup w st) (k : Keep w st s) : Sup s.w s.stack := by
  have ho := k.obs
  rw [seen, seen, Prod.mk.injEq] at ho
  refine ⟨?_, by rw [ho.1, k.sc]; exact h.2.1, by rw [ho.2, k.closes]; exact h.2.2.1, k.err h.2.2.2⟩
  intro h1 h2
  rcases h.1 (by rw [← k.sc]; exact h1) (by rw [← k.closes]; exact h2) with h | h
  · exact .inl (k.timer h)
  · exact .inr (k.stack _ h)

theorem sup_doCall {w : World} {st : List Item} (h : Sup w st) (c : Call) (tr : Outcome) : Sup (doCall w c tr st).w (doCall w c tr st).stack := by
  have k0 : Keep w st ⟨log w .refused, st⟩ := ⟨id, rfl, rfl, rfl, id, fun _ h => h⟩
  cases c with
  | first n p l b =>
    simp only [doCall]
    split
    · exact h.keep k0
    · exact h.keep ((keep_enqueue _ _ _ _ _).of id rfl rfl rfl id (fun _ h => h))
  | cont p => exact h.keep ((keep_enqueue _ _ _ _ _).of id rfl rfl rfl id (fun _ h => h))
  | ping p =>
    simp only [doCall]
    split
    · exact h.keep k0
    · split
      · exact h.keep k0
      · exact h.keep ((keep_enqueue _ _ _ _ _).of id rfl rfl rfl id (fun _ h => h))
  | pong p =>
    simp only [doCall]
    split
    · exact h.keep k0
    · split
      · exact h.keep k0
      · exact h.keep ((keep_enqueue _ _ _ _ _).of id rfl rfl rfl id (fun _ h => h))
  | close n b =>
    simp only [doCall]
    split
    · exact h.keep k0
    · split
      · exact h.keep ⟨id, rfl, rfl, rfl, id, fun _ h => h⟩
      · refine Sup.keep (w := log { prepareClose w n (.user w.tickets) .closeWritten with tickets := w.tickets + 1, timer := true, selfClose := true } _) (st := st) ?_ (keep_enqueue _ _ _ _ _)
        exact ⟨fun _ _ => .inl rfl, rfl, h.2.2⟩
  | read => exact h.keep ⟨id, rfl, rfl, rfl, id, fun i h => List.mem_cons_of_mem _ h⟩

theorem sup_arrive {w : World} {st : List Item} (h : Sup w st) (a : Act) (tr : Outcome) : Sup (arrive w a tr st).w (arrive w a tr st).stack := by
  cases a with
  | gotPing n => exact h.keep ((keep_enqueue _ _ _ _ _).of id rfl rfl rfl id (fun _ h => h))
  | gotClose n =>
    simp only [arrive]
    split
    · exact ⟨fun _ _ => .inr List.mem_cons_self, h.2.1, h.2.2⟩
    · exact h.keep ((keep_enqueue _ _ _ _ _).of id rfl rfl rfl id (fun _ h => h))
  | fail => exact h.keep ((keep_handleError { w with reading := false } st).of id rfl rfl rfl id (fun _ h => h))
  | gotData => exact h.keep ⟨id, rfl, rfl, rfl, id, fun i h => List.mem_cons_of_mem _ h⟩
  | _ => exact h.keep ⟨id, rfl, rfl, rfl, id, fun _ h => h⟩

/-- Something else than `close` has been taken from the stack. -/
theorem Sup.tail {w : World} {i : Item} {st : List Item} (h : Sup w (i :: st)) (hi : i ≠ .closeNow) : Sup w st := by
  refine ⟨?_, h.2⟩
  intro h1 h2
  rcases h.1 h1 h2 with h | h
  · exact .inl h
  · rcases List.mem_cons.mp h with h | h
    · exact absurd h.symm hi
    · exact .inr h

theorem sup_step (s : State) (c : Choice) (h : Sup s.w s.stack) : Sup (step s c).w (step s c).stack := by
  obtain ⟨w, st⟩ := s
  have h : Sup w st := h
  have hf : Sup (fault ⟨w, st⟩).w (fault ⟨w, st⟩).stack := h
  unfold step
  split
  · exact h
  · dsimp only
    cases st with
    | nil =>
      dsimp only
      cases c.act with
      | timer =>
        dsimp only
        split
        · exact ⟨fun _ _ => .inr List.mem_cons_self, h.2.1, h.2.2⟩
        · exact h
      | written r =>
        dsimp only
        split
        · exact h.keep ((keep_onWritten { w with pend := false } r []).of id rfl rfl rfl id (fun _ h => h))
        · exact h
      | call call =>
        dsimp only
        split
        · exact sup_doCall h _ _
        · exact hf
      | ret => exact h
      | _ =>
        dsimp only
        split
        · exact sup_arrive h _ _
        · exact h
    | cons i rest =>
      cases i with
      | user e =>
        dsimp only
        cases c.act with
        | ret => exact h.tail (by simp)
        | call call =>
          dsimp only
          split
          · exact sup_doCall h _ _
          · exact hf
        | _ => exact h
      | input =>
        dsimp only
        cases c.act with
        | ret => exact h.tail (by simp)
        | call _ => exact h
        | written _ => exact h
        | timer => exact h
        | _ =>
          dsimp only
          split
          · exact sup_arrive h _ _
          · exact h
      | sendNext o =>
        have ht := h.tail (by simp)
        cases o with
        | none => exact ht
        | some k =>
          dsimp only
          split
          · exact hf
          · split
            · exact hf
            · rename_i chain _
              have hk := keep_sendFrame w k (total chain) c.tr rest
              generalize sendFrame w k (total chain) c.tr rest = p at hk
              obtain ⟨s', ok⟩ := p
              cases ok
              · exact ht.keep hk.onErr
              · exact ht.keep hk
      | abort =>
        dsimp only
        split
        · exact hf
        · cases hd : dequeue w with
          | none => exact h.tail (by simp)
          | some p =>
            obtain ⟨k, w'⟩ := p
            have hk := dequeue_keep hd
            refine h.keep ((keep_callHandler _ _ _ _ _).of ?_ ?_ hk.2.2.1 (by show seen w'.log = seen w.log; rw [hk.2.2.2.1])
              (fun h => by show w'.closedByError = failed w'.log; rw [hk.2.2.2.1, hk.2.2.2.2]; exact h) (fun _ h => h))
            · show w.timer = true → w'.timer = true; rw [hk.1]; exact id
            · exact hk.2.1
      | errClose =>
        have ht := h.tail (by simp)
        dsimp only
        split
        · exact hf
        · have hk : Keep w rest (enqueue (prepareClose w errReason .null .closeWrittenImmediate) .close (2 + errReason) c.tr rest).1 :=
            (keep_enqueue (prepareClose w errReason .null .closeWrittenImmediate) .close (2 + errReason) c.tr rest).of id rfl rfl rfl id (fun _ h => h)
          generalize enqueue (prepareClose w errReason .null .closeWrittenImmediate) .close (2 + errReason) c.tr rest = p at hk
          obtain ⟨s', ok⟩ := p
          cases ok
          · exact ht.keep ⟨hk.timer, hk.sc, hk.closes, hk.obs, hk.err, fun i h => List.mem_cons_of_mem _ (hk.stack i h)⟩
          · exact ht.keep hk
      | callClose res =>
        have ht := h.tail (by simp)
        dsimp only
        split
        · exact hf
        · exact ht.keep (keep_callHandler _ _ _ _ _)
      | closeNow =>
        refine ⟨fun _ h2 => ?_, h.2.1, ?_, h.2.2.2⟩
        · have : w.closes + 1 = 0 := h2
          omega
        · show hooks w.log + 1 = w.closes + 1
          rw [h.2.2.1]

theorem sup_run (cs : List Choice) : ∀ s, Sup s.w s.stack → Sup (run s cs).w (run s cs).stack := by
  induction cs with
  | nil => intro s h; exact h
  | cons c cs ih => intro s h; exact ih _ (sup_step s c h)

end Cio.WsQueue
