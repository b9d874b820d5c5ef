import Verif.WsQueue.FrameSeq
/-
The frame sequence invariant is kept by each step.
-/
namespace Cio.WsQueue

theorem LS.accept_other {w w' : World} (h : L w) (K : K w) (hb : ∀ t ∈ sentT w.log, t < w.tickets) (hcb : w.closedByError = false) (k : Kind) (hkm : k ≠ .message)
    (j : Job) (payload : List Nat) (hj : w'.jobs = (setJob w k j).jobs)
    (hl : w'.log = .accepted w.tickets k payload j.cont j.opcode j.lastFrame payload.sum :: w.log)
    (ht : w'.tickets = w.tickets + 1) (he : w'.closedByError = w.closedByError) (hw : j.wbh = some (payload.map .usr)) (hh : j.handler = .user w.tickets)
    (hc : j.cont = false) (hbs : w'.bsHandler = w.bsHandler) (hsh : k ≠ .close → j.streamHandler = .messageWritten)
    (hf : w'.fragmentedWrite = w.fragmentedWrite) (ho : j.opcode = opOf k ∧ j.lastFrame = true) (hsz : payload.sum ≤ 125) (tr : Outcome) (st : List Item)
    (ha : .abort ∈ st → Done w) : LS (WsQueue.enqueue w' k payload.sum tr st).1 := by
  obtain ⟨h1, h2⟩ := K.accept hb k j payload payload.sum hj hl ht he hw hh (fun _ => ⟨rfl, hc⟩)
  have hjk : w'.jobs k = j := by rw [hj, setJob_self]
  have hL : L w' := h.fillO k hkm j hj (.inr ⟨_, _, _, _, _, _, hl⟩) he hbs hsh hf ⟨ho.1, ho.2, by rw [hw]; show total (payload.map .usr) ≤ 125; rw [total_map]; exact hsz⟩
  refine hL.enqueue h1 ?_ _ tr st ?_ ?_
  · intro t hht
    rw [hjk, hh] at hht
    injection hht with hht
    subst hht
    exact ⟨by rw [he]; exact hcb, h2⟩
  · intro hm
    exact (ha hm).imp (by rw [he]; exact id) (by rw [hl]; exact id)
  · intro _ chain hch
    rw [hjk, hw] at hch
    injection hch with hch
    rw [← hch, total_map]

theorem LS.accept_message {w w' : World} (h : L w) (K : K w) (hb : ∀ t ∈ sentT w.log, t < w.tickets) (hcb : w.closedByError = false)
    (hfree : (w.jobs .message).wbh = none) (j : Job) (payload : List Nat) (fl : Nat)
    (hj : w'.jobs = (setJob w .message j).jobs) (hl : w'.log = .accepted w.tickets .message payload j.cont j.opcode j.lastFrame fl :: w.log)
    (ht : w'.tickets = w.tickets + 1) (he : w'.closedByError = w.closedByError) (hw : j.wbh = some (payload.map .usr)) (hh : j.handler = .user w.tickets)
    (hbs : w'.bsHandler = w.bsHandler) (hsh : j.streamHandler = .messageWritten)
    (hfr : fragStep (some w.fragmentedWrite) (w.tickets, j.cont, j.opcode, j.lastFrame) = some w'.fragmentedWrite) (len : Nat) (tr : Outcome) (st : List Item)
    (ha : .abort ∈ st → Done w) : LS (WsQueue.enqueue w' .message len tr st).1 := by
  obtain ⟨h1, h2⟩ := K.accept hb .message j payload fl hj hl ht he hw hh (fun h => absurd rfl h)
  have hjk : w'.jobs .message = j := by rw [hj, setJob_self]
  have hL : L w' := h.acceptM hfree (fun hm => Nat.lt_irrefl _ (hb _ hm)) j payload fl hj hl he hw hh hbs hsh hfr
  refine hL.enqueue h1 ?_ _ tr st ?_ (fun h => absurd rfl h)
  · intro t hht
    rw [hjk, hh] at hht
    injection hht with hht
    subst hht
    exact ⟨by rw [he]; exact hcb, h2⟩
  · intro hm
    exact (ha hm).imp (by rw [he]; exact id) (by rw [hl]; exact id)

theorem LS.doCall {w : World} (h : L w) (K : K w) (hb : ∀ t ∈ sentT w.log, t < w.tickets) (hcb : w.closedByError = false) (call : Call) (tr : Outcome) (st : List Item)
    (hcont : ∀ p, call = .cont p → (w.jobs .message).wbh = none) (ha : .abort ∈ st → Done w) : LS (doCall w call tr st) := by
  cases call with
  | first frameLength payload lastFrame binary =>
    simp only [WsQueue.doCall]
    split
    · exact ⟨h.log_refused, ha⟩
    · rename_i hfree
      refine LS.accept_message (w := w) h K hb hcb (by simpa using hfree) { w.jobs .message with
        wbh := some (payload.map .usr), handler := .user w.tickets, opcode := (if w.fragmentedWrite then if binary then 2 else 1 else 0),
        lastFrame := lastFrame, streamHandler := .messageWritten, cont := false } payload frameLength ?_ ?_ ?_ ?_ ?_ ?_ ?_ ?_ ?_ _ _ _ ha <;> try rfl
      show fragStep _ _ = some (if w.fragmentedWrite then if lastFrame then w.fragmentedWrite else false else if lastFrame then true else w.fragmentedWrite)
      cases w.fragmentedWrite <;> cases lastFrame <;> cases binary <;> rfl
  | cont payload =>
    simp only [WsQueue.doCall]
    refine LS.accept_message (w := w) h K hb hcb (hcont _ rfl) { w.jobs .message with
      wbh := some (payload.map .usr), handler := .user w.tickets, streamHandler := .messageWritten, cont := true } payload 0 ?_ ?_ ?_ ?_ ?_ ?_ ?_ ?_ ?_ _ _ _ ha <;> try rfl
  | ping payload =>
    simp only [WsQueue.doCall]
    split
    · exact ⟨h.log_refused, ha⟩
    · split
      · exact ⟨h.log_refused, ha⟩
      · refine LS.accept_other (w := w) h K hb hcb .ping (by simp) { w.jobs .ping with
          wbh := some (payload.map .usr), handler := .user w.tickets, opcode := 9, lastFrame := true, streamHandler := .messageWritten } payload
          ?_ ?_ ?_ ?_ ?_ ?_ ?_ ?_ ?_ ?_ ?_ (by omega) _ _ ha
        · rfl
        · simp only [log, setJob, K.nc .ping (by simp)]
        · rfl
        · rfl
        · rfl
        · rfl
        · exact K.nc .ping (by simp)
        · rfl
        · exact fun _ => rfl
        · rfl
        · exact ⟨rfl, rfl⟩
  | pong payload =>
    simp only [WsQueue.doCall]
    split
    · exact ⟨h.log_refused, ha⟩
    · split
      · exact ⟨h.log_refused, ha⟩
      · refine LS.accept_other (w := w) h K hb hcb .pong (by simp) { w.jobs .pong with
          wbh := some (payload.map .usr), handler := .user w.tickets, opcode := 10, lastFrame := true, streamHandler := .messageWritten } payload
          ?_ ?_ ?_ ?_ ?_ ?_ ?_ ?_ ?_ ?_ ?_ (by omega) _ _ ha
        · rfl
        · simp only [log, setJob, K.nc .pong (by simp)]
        · rfl
        · rfl
        · rfl
        · rfl
        · exact K.nc .pong (by simp)
        · rfl
        · exact fun _ => rfl
        · rfl
        · exact ⟨rfl, rfl⟩
  | close reasonLength timerOk =>
    simp only [WsQueue.doCall]
    split
    · exact ⟨h.log_refused, ha⟩
    · split
      · exact ⟨L.log_refused (L.fillO h .close (by simp) { w.jobs .close with
          wbh := some [.usr (2 + min reasonLength 123)], handler := .stale, streamHandler := .closeWritten, opcode := 8, lastFrame := true }
          rfl (.inl rfl) rfl rfl (fun h => absurd rfl h) rfl ⟨rfl, rfl, by simp [total, errReason]; try omega⟩), ha⟩
      · have := LS.accept_other (w := w) (w' := log { prepareClose w reasonLength (.user w.tickets) .closeWritten with tickets := w.tickets + 1, timer := true, selfClose := true }
            (.accepted w.tickets .close [2 + min reasonLength 123] false 8 true (2 + min reasonLength 123))) h K hb hcb .close (by simp) { w.jobs .close with
          wbh := some [.usr (2 + min reasonLength 123)], handler := .user w.tickets, streamHandler := .closeWritten, opcode := 8, lastFrame := true }
          [2 + min reasonLength 123] rfl ?_ rfl rfl rfl rfl (K.nc .close (by simp)) rfl (fun h => absurd rfl h) rfl ⟨rfl, rfl⟩ (by simp; omega) tr st ha
        · exact this
        · simp [log, prepareClose, setJob, K.nc .close (by simp)]
  | read =>
    refine ⟨h.same rfl rfl rfl rfl id, fun hm => ?_⟩
    rcases List.mem_cons.mp hm with hm | hm
    · cases hm
    · exact ha hm

theorem LS.arrive {w : World} (h : L w) (K : K w) (a : Act) (tr : Outcome) (st : List Item) (ha : .abort ∈ st → Done w)
    (hp : ∀ n, a = .gotPing n → n ≤ 125) : LS (arrive w a tr st) := by
  cases a with
  | gotPing n =>
    simp only [WsQueue.arrive]
    refine L.enqueue ?_ ?_ ?_ _ _ _ ha ?_
    · exact L.fillO h .pong (by simp) { w.jobs .pong with
        wbh := some (if n > 0 then [.usr n] else []), handler := .pongWritten, opcode := 10, lastFrame := true, streamHandler := .messageWritten }
        rfl (.inl rfl) rfl rfl (fun _ => rfl) rfl ⟨rfl, rfl, by have := hp n rfl; by_cases h : n > 0 <;> simp [total, h]; omega⟩
    · exact K.fill .pong { w.jobs .pong with
        wbh := some (if n > 0 then [.usr n] else []), handler := .pongWritten, opcode := 10, lastFrame := true, streamHandler := .messageWritten }
        rfl rfl rfl rfl (fun t ht => (by cases ht)) rfl
    · intro t; rw [setJob_self]; intro ht; cases ht
    · intro _ chain hch
      rw [setJob_self] at hch
      injection hch with hch
      rw [← hch]
      split
      · simp [total]
      · simp [total]; omega
  | gotClose n =>
    simp only [WsQueue.arrive]
    split
    · refine ⟨h.same rfl rfl rfl rfl id, fun hm => ?_⟩
      rcases List.mem_cons.mp hm with hm | hm
      · cases hm
      · exact ha hm
    · refine L.enqueue ?_ ?_ ?_ _ _ _ ha ?_
      · exact L.fillO h .close (by simp) { w.jobs .close with
          wbh := some [.usr (2 + min n 123)], handler := .null, streamHandler := .responseCloseWritten, opcode := 8, lastFrame := true }
          rfl (.inl rfl) rfl rfl (fun h => absurd rfl h) rfl ⟨rfl, rfl, by simp [total]; omega⟩
      · exact K.fill .close { w.jobs .close with
          wbh := some [.usr (2 + min n 123)], handler := .null, streamHandler := .responseCloseWritten, opcode := 8, lastFrame := true }
          rfl rfl rfl rfl (fun t ht => (by cases ht)) rfl
      · intro t; rw [prepareClose, setJob_self]; intro ht; cases ht
      · intro _ chain hch
        rw [prepareClose, setJob_self] at hch
        injection hch with hch
        rw [← hch]; simp [total]
  | fail => exact L.handleError (w := { w with reading := false }) (h.same rfl rfl rfl rfl (fun _ => rfl)) st
  | gotData =>
    refine ⟨h.same rfl rfl rfl rfl id, fun hm => ?_⟩
    rcases List.mem_cons.mp hm with hm | hm
    · cases hm
    · exact ha hm
  | gotPong => exact ⟨h, ha⟩
  | _ => exact ⟨h, ha⟩

theorem LS.step {s : State} (h : LS s) (K : K s.w) (n : Next s) (c : Choice) (ha : Allowed s c) : LS (step s c) := by
  obtain ⟨w, st⟩ := s
  obtain ⟨h, hab⟩ := h
  have hcall : ∀ call, c.act = .call call → w.closedByError = false ∧ w.closes = 0 := fun call hact => no_call hact ha
  have hcont : ∀ call, c.act = .call call → ∀ p, call = .cont p → (w.jobs .message).wbh = none := by
    intro call hact p hp
    subst hp
    unfold Allowed at ha
    rw [hact] at ha
    exact ha.2.2.2
  have hping : ∀ n, c.act = .gotPing n → n ≤ 125 := by
    intro n hn
    unfold Allowed at ha
    rw [hn] at ha
    exact ha.2
  unfold WsQueue.step
  split
  · exact ⟨h, hab⟩
  · split
    · rename_i hst
      have hnil : (.abort : Item) ∈ ([] : List Item) → Done w := fun hm => by cases hm
      split
      · split
        · exact ⟨h.same rfl rfl rfl rfl id, fun hm => by simp at hm⟩
        · exact ⟨h, hab⟩
      · split
        · rename_i r _ hp
          refine L.onWritten (w := { w with pend := false }) (h.same rfl rfl rfl rfl id) ?_ _ _ (fun hm => by cases hm)
          intro k hk
          exact ⟨n.busy k hk, fun t hb hh => n.head hst hp.1 hp.2 k t hk hb hh⟩
        · exact ⟨h, hab⟩
      · rename_i call hact
        split
        · exact LS.doCall h K n.bound (hcall _ hact).1 _ _ _ (hcont _ hact) hnil
        · exact ⟨h.same rfl rfl rfl rfl id, hab⟩
      · exact ⟨h, hab⟩
      · split
        · exact LS.arrive h K _ _ _ hnil hping
        · exact ⟨h, hab⟩
    · rename_i err rest hst
      have hst : st = .user err :: rest := hst
      have hrest : (.abort : Item) ∈ rest → Done w := fun hm => hab (by rw [show (State.mk w st).stack = .user err :: rest from hst]; exact List.mem_cons_of_mem _ hm)
      split
      · exact ⟨h, hrest⟩
      · rename_i call hact
        split
        · exact LS.doCall h K n.bound (hcall _ hact).1 _ _ _ (hcont _ hact) (fun hm => hab (by rw [show (State.mk w st).stack = .user err :: rest from hst]; exact hm))
        · exact ⟨h.same rfl rfl rfl rfl id, hab⟩
      · exact ⟨h, hab⟩
    · rename_i rest hst
      have hst : st = .input :: rest := hst
      have hrest : (.abort : Item) ∈ rest → Done w := fun hm => hab (by rw [show (State.mk w st).stack = .input :: rest from hst]; exact List.mem_cons_of_mem _ hm)
      split
      · exact ⟨h, hrest⟩
      · exact ⟨h, hab⟩
      · exact ⟨h, hab⟩
      · exact ⟨h, hab⟩
      · split
        · exact LS.arrive h K _ _ _ (fun hm => hab (by rw [show (State.mk w st).stack = .input :: rest from hst]; exact hm)) hping
        · exact ⟨h, hab⟩
    · rename_i rest hst
      exact ⟨h, fun hm => hab (by rw [show (State.mk w st).stack = .sendNext none :: rest from hst]; exact List.mem_cons_of_mem _ hm)⟩
    · rename_i k rest hst
      have hrest : (.abort : Item) ∈ rest → Done w := fun hm => hab (by rw [show (State.mk w st).stack = .sendNext (some k) :: rest from hst]; exact List.mem_cons_of_mem _ hm)
      split
      · exact ⟨h.same rfl rfl rfl rfl id, hab⟩
      · rename_i hc
        split
        · exact ⟨h.same rfl rfl rfl rfl id, hab⟩
        · rename_i chain hw
          have hc : w.closes = 0 := by have hc : ¬ w.closes > 0 := hc; omega
          obtain ⟨g1, g2⟩ := n.next k rest hst hc (by rw [show (w.jobs k).wbh = some chain from hw]; simp)
          have hs := L.sendFrame (w := w) (k := k) h K g1 g2 (total chain) c.tr rest hrest (by
            intro _ ch hch
            rw [show (w.jobs k).wbh = some chain from hw] at hch
            injection hch with hch
            rw [hch])
          generalize WsQueue.sendFrame w k (total chain) c.tr rest = p at hs
          obtain ⟨s', ok⟩ := p
          cases ok
          · exact L.handleError (hs.2 rfl) _
          · exact hs.1 rfl
    · rename_i rest hst
      have hD : Done w := hab (by rw [show (State.mk w st).stack = .abort :: rest from hst]; exact List.mem_cons_self)
      split
      · exact ⟨h.same rfl rfl rfl rfl id, hab⟩
      · split
        · exact ⟨h, fun _ => hD⟩
        · rename_i k w1 hd
          obtain ⟨hf, f, rfl⟩ := dequeue_form hd
          exact L.callHandler (h.drop k f (fun _ => .inl hD)) _ _ _ _ (fun _ => hD)
    · rename_i rest hst
      have hrest : (.abort : Item) ∈ rest → Done w := fun hm => hab (by rw [show (State.mk w st).stack = .errClose :: rest from hst]; exact List.mem_cons_of_mem _ hm)
      split
      · exact ⟨h.same rfl rfl rfl rfl id, hab⟩
      · have hk := L.enqueue (w := prepareClose w errReason .null .closeWrittenImmediate) (k := .close)
          (L.fillO h .close (by simp) { w.jobs .close with
            wbh := some [.usr (2 + min errReason 123)], handler := .null, streamHandler := .closeWrittenImmediate, opcode := 8, lastFrame := true }
            rfl (.inl rfl) rfl rfl (fun h => absurd rfl h) rfl ⟨rfl, rfl, by simp [total, errReason]; try omega⟩)
          (K.fill .close { w.jobs .close with
            wbh := some [.usr (2 + min errReason 123)], handler := .null, streamHandler := .closeWrittenImmediate, opcode := 8, lastFrame := true }
            rfl rfl rfl rfl (fun t ht => (by cases ht)) rfl) (by intro t; rw [prepareClose, setJob_self]; intro ht; cases ht) (2 + errReason) c.tr rest hrest
          (by
            intro _ chain hch
            rw [prepareClose, setJob_self] at hch
            injection hch with hch
            rw [← hch]; simp [total, errReason])
        generalize WsQueue.enqueue (prepareClose w errReason .null .closeWrittenImmediate) .close (2 + errReason) c.tr rest = p at hk
        obtain ⟨s', ok⟩ := p
        cases ok
        · refine ⟨hk.1, fun hm => ?_⟩
          have hm : (.abort : Item) ∈ .closeNow :: s'.stack := hm
          rcases List.mem_cons.mp hm with hm | hm
          · cases hm
          · exact hk.2 hm
        · exact hk
    · rename_i res rest hst
      have hrest : (.abort : Item) ∈ rest → Done w := fun hm => hab (by rw [show (State.mk w st).stack = .callClose res :: rest from hst]; exact List.mem_cons_of_mem _ hm)
      split
      · exact ⟨h.same rfl rfl rfl rfl id, hab⟩
      · exact L.callHandler h _ _ _ _ hrest
    · rename_i rest hst
      have hrest : (.abort : Item) ∈ rest → Done w := fun hm => hab (by rw [show (State.mk w st).stack = .closeNow :: rest from hst]; exact List.mem_cons_of_mem _ hm)
      exact ⟨(L.same (w' := { w with closes := w.closes + 1 }) h rfl rfl rfl rfl id).event .closed (fun _ => rfl) (fun _ => rfl) (fun _ => rfl) (fun _ => rfl)
        (fun _ => rfl) (fun _ _ _ _ _ _ _ h => by cases h), hrest⟩

theorem reach_LS {s : State} (h : Reach s) (hc : Clean s) : LS s := by
  induction h with
  | init =>
    refine ⟨⟨fun _ _ => rfl, .inl rfl, .inr rfl, List.prefix_refl _, fun h => absurd rfl h, fun _ _ h => absurd rfl h, rfl, fun _ _ _ _ _ _ _ h => (by cases h), fun _ _ _ _ _ _ h => (by cases h)⟩, fun h => by cases h⟩
  | step s c hr ha ih =>
    have hc' := clean_step hc
    rcases reach_inv hr with h | ⟨h, -⟩ | ⟨-, p⟩
    · exact absurd h hc'
    · have : step s c = s := by unfold step; rw [if_pos h]
      rw [this]; exact ih hc'
    · exact (ih hc').step (reach_K hr hc') p.next c ha

end Cio.WsQueue
