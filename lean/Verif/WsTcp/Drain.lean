import Verif.WsTcp.Stops
/-
A WebSocket whose application goes on reading reads everything that has arrived.
-/
namespace Cio.WsTcp
open StreamSocket (Sys Os)
open BufferedRead (World Job Satisfied)
open WsStream (Env handler shown Stopped jobOf at' react rec called good_call step_none_iff codeOf)
open Socket (St Obs)

variable (e : Env)

/-! ### The stream -/

theorem error_stops {w : World} (hsh : w.shallClose = false) (hcb : w.callbackIsRunning = 0) (hsz : 125 ≤ w.rb.mem.length) (j : Job) {err : Err} (herr : err ≠ SUCCESS) (num : Nat) :
    (e.sess (BufferedRead.callHandler (handler e) w j err num).1).rx.cont = .stopped ∧ (BufferedRead.callHandler (handler e) w j err num).1.job = none ∧
      (BufferedRead.callHandler (handler e) w j err num).2 ≠ .again ∧
      ((BufferedRead.callHandler (handler e) w j err num).1.closed = true ↔ w.closed = true ∨ (BufferedRead.callHandler (handler e) w j err num).2 = .closed) := by
  have hreact : react e.o e.base (e.sess w) (rec w j err num) =
      ⟨{ (e.sess w).rx with cont := .stopped }, (e.sess w).outs ++ [.fail (codeOf err)], 0, false⟩ := by
    unfold react
    rw [if_pos (by simpa [rec] using herr)]; rfl
  have hcd := called e w j err num hsh hcb (by
    intro n hn
    rw [hreact] at hn
    simp only [jobOf, Job.atLeast.injEq] at hn
    omega)
  rw [hreact] at hcd
  refine ⟨by rw [hcd.sess], ?_, hcd.again, hcd.closed⟩
  rcases hcd.job with q | ⟨_, q, _⟩
  · exact q
  · exact absurd rfl q

/-- One run of a handler: nothing to do, a byte used up, or the end. -/
theorem runJob_strict {sz : Nat} {ds : List (List UInt8)} {w : World} (hsz : 125 ≤ sz) (h : WsStream.Inv e sz ds w) (hl : w.looping = true)
    (j : Job) (hj : w.job = some j) :
    BufferedRead.runJob (handler e) w j = (w, .again) ∨
    ((BufferedRead.runJob (handler e) w j).2 ≠ .again ∧ ((BufferedRead.runJob (handler e) w j).1.closed = true ↔ (BufferedRead.runJob (handler e) w j).2 = .closed) ∧
      ((BufferedRead.runJob (handler e) w j).1.rb.unread.length < w.rb.unread.length ∨
        ((e.sess (BufferedRead.runJob (handler e) w j).1).rx.cont = .stopped ∧ (BufferedRead.runJob (handler e) w j).1.job = none))) := by
  have hcl := h.loop hl
  have hsh : w.shallClose = false := by
    cases q : w.shallClose with
    | false => rfl
    | true => have := h.good.shall q; rw [hcl] at this; cases this
  have hjs : j = jobOf (e.sess w).rx ∧ (e.sess w).rx.cont ≠ .stopped := by
    rcases h.good.job with q | ⟨q, q2⟩
    · rw [hj] at q; cases q
    · rw [hj] at q; cases q; exact ⟨rfl, q2⟩
  have hlen := BufferedRead.unread_length sz w.rb h.base.core.rb
  have hiff := step_none_iff e.o (e.sess w).rx (e.base + w.rb.fetch) w.rb.unread hjs.2
  rw [← hjs.1] at hiff
  have hcall : ∀ num, Satisfied w.rb.unread j → (BufferedRead.callHandler (handler e) w j SUCCESS num).2 ≠ .again ∧
      ((BufferedRead.callHandler (handler e) w j SUCCESS num).1.closed = true ↔ (BufferedRead.callHandler (handler e) w j SUCCESS num).2 = .closed) ∧
      (BufferedRead.callHandler (handler e) w j SUCCESS num).1.rb.unread.length < w.rb.unread.length := by
    intro num hsat
    cases hst : WsRecv.step e.o (at' e w) w.rb.unread with
    | none => exact absurd hsat (hiff.mp hst)
    | some x =>
      obtain ⟨rx', rest, outs⟩ := x
      obtain ⟨g1, g2⟩ := good_call e hsz h.good h.base.core hsh h.base.cb j num rx' rest outs hst
      obtain ⟨_, hlt⟩ := (h.good.ok.addr (e.base + w.rb.fetch)).step hst
      refine ⟨g2.again, ?_, ?_⟩
      · rw [g2.closed, hcl]; simp
      · rw [g2.rb, WsStream.unread_consume, List.length_drop]
        simp only
        omega
  unfold BufferedRead.runJob
  by_cases hle : w.lastError = SUCCESS
  · rw [if_neg (by simp [hle])]
    cases j with
    | «until» d => exact absurd hjs.1.symm (WsStream.job_not_until _ d)
    | atLeast n =>
      simp only
      by_cases ha : n ≤ w.rb.unreadBytes
      · rw [if_pos ha]; right
        obtain ⟨q1, q2, q3⟩ := hcall n (by simp only [Satisfied]; omega)
        exact ⟨q1, q2, .inl q3⟩
      · rw [if_neg ha]; left; rfl
    | atMost n =>
      simp only
      by_cases ha : w.rb.unreadBytes > 0
      · rw [if_pos ha]; right
        obtain ⟨q1, q2, q3⟩ := hcall _ (by intro q; rw [q] at hlen; simp at hlen; omega)
        exact ⟨q1, q2, .inl q3⟩
      · rw [if_neg ha]; left; rfl
  · rw [if_pos hle]
    right
    obtain ⟨q1, q2, q3, q4⟩ := error_stops e hsh h.base.cb (by rw [h.base.core.rb.1]; exact hsz) j hle 0
    exact ⟨q3, by rw [q4, hcl]; simp, .inr ⟨q1, q2⟩⟩

theorem fill_waits {w : World} (hsh : w.shallClose = false) (hcb : w.callbackIsRunning = 0) (hsz : 125 ≤ w.rb.mem.length) (j : Job) :
    (BufferedRead.fillBuffer (handler e) w j SUCCESS).waiting = true ∨ (e.sess (BufferedRead.fillBuffer (handler e) w j SUCCESS)).rx.cont = .stopped := by
  have hrs : ∀ v, (BufferedRead.readSome (handler e) v j SUCCESS).waiting = true := by
    intro v; unfold BufferedRead.readSome; rw [if_neg (by simp)]
  unfold BufferedRead.fillBuffer
  split
  · split
    · right
      unfold BufferedRead.runJob
      rw [if_pos (show MESSAGE_TOO_LONG ≠ SUCCESS by decide)]
      exact (error_stops e (w := { w with lastError := MESSAGE_TOO_LONG }) hsh hcb hsz j (show MESSAGE_TOO_LONG ≠ SUCCESS by decide) 0).1
    · exact .inl (hrs _)
  · exact .inl (hrs _)

/-- What is left to do. -/
def todo (w : World) : Nat := 4 * w.rb.unread.length + (if w.job = none then (if w.looping = true then 3 else 2) else 1)

/-- If the application always asks for the next data, the WebSocket uses up what is in its buffer, until it waits for the transport (or has stopped, or was closed from within a handler). -/
theorem reads_on {sz : Nat} (hsz : 125 ≤ sz) {ds : List (List UInt8)} {w : World} (hi : WsStream.Inv e sz ds w) (hcl : w.closed = false) :
    ∃ ys w', (∀ y ∈ ys, y = .next ∨ y = .loop SUCCESS) ∧ WsStream.run e w ys = some w' ∧ w'.looping = false ∧ (w'.waiting = true ∨ Stopped e w' ∨ w'.closed = true) := by
  have key : ∀ (k : Nat) (w : World), WsStream.Inv e sz ds w → w.closed = false → todo w < k →
      ∃ ys w', (∀ y ∈ ys, y = .next ∨ y = .loop SUCCESS) ∧ WsStream.run e w ys = some w' ∧ w'.looping = false ∧ (w'.waiting = true ∨ Stopped e w' ∨ w'.closed = true) := by
    intro k
    induction k with
    | zero => intro w _ _ hk; omega
    | succ k ih =>
      intro w hi hcl hk
      have after : ∀ y w1, (y = WsStream.Ev.next ∨ y = .loop SUCCESS) → WsStream.step e w y = some w1 →
          (∃ ys w', (∀ y ∈ ys, y = .next ∨ y = .loop SUCCESS) ∧ WsStream.run e w1 ys = some w' ∧ w'.looping = false ∧ (w'.waiting = true ∨ Stopped e w' ∨ w'.closed = true)) →
          ∃ ys w', (∀ y ∈ ys, y = .next ∨ y = .loop SUCCESS) ∧ WsStream.run e w ys = some w' ∧ w'.looping = false ∧ (w'.waiting = true ∨ Stopped e w' ∨ w'.closed = true) := by
        rintro y w1 hy hst ⟨ys, w', h1, h2, h3⟩
        refine ⟨y :: ys, w', ?_, ?_, h3⟩
        · intro z hz
          rcases List.mem_cons.1 hz with g | g
          · rw [g]; exact hy
          · exact h1 z g
        · rw [WsStream.run, hst]; exact h2
      by_cases hl : w.looping = true
      · have hst : WsStream.step e w (.loop SUCCESS) = some (BufferedRead.loopIter (handler e) w SUCCESS) := by simp [WsStream.step, BufferedRead.step, hl]
        have hi' := WsStream.step_loop e hsz SUCCESS hi hst
        have hsh : w.shallClose = false := by
          cases q : w.shallClose with
          | false => rfl
          | true => have := hi.good.shall q; rw [hcl] at this; cases this
        refine after _ _ (.inr rfl) hst ?_
        cases hj : w.job with
        | none =>
          have hlit : BufferedRead.loopIter (handler e) w SUCCESS = { w with looping := false } := by unfold BufferedRead.loopIter; rw [hj]
          rw [hlit] at hi' ⊢
          refine ih _ hi' hcl ?_
          unfold todo at hk ⊢
          rw [hj, if_pos rfl, if_pos hl] at hk
          dsimp only
          rw [hj, if_pos rfl, if_neg (by simp)]
          omega
        | some j =>
          unfold todo at hk
          rw [if_neg (by rw [hj]; simp)] at hk
          rcases runJob_strict e hsz hi hl j hj with hp | ⟨r1, r2, r3⟩
          · have hlit : BufferedRead.loopIter (handler e) w SUCCESS = { BufferedRead.fillBuffer (handler e) w j SUCCESS with looping := false } := by
              unfold BufferedRead.loopIter; rw [hj]; simp only; rw [hp]
            rw [hlit]
            refine ⟨[], _, fun y hy => (by cases hy), rfl, rfl, ?_⟩
            rcases fill_waits e hsh hi.base.cb (by rw [hi.base.core.rb.1]; exact hsz) j with g | g
            · exact .inl g
            · exact .inr (.inl g)
          · generalize hr : BufferedRead.runJob (handler e) w j = r at r1 r2 r3
            obtain ⟨v, st⟩ := r
            cases st with
            | again => exact absurd rfl r1
            | closed =>
              have hlit : BufferedRead.loopIter (handler e) w SUCCESS = { v with looping := false } := by
                unfold BufferedRead.loopIter; rw [hj]; simp only; rw [hr]
              rw [hlit]
              exact ⟨[], _, fun y hy => (by cases hy), rfl, rfl, .inr (.inr (r2.2 rfl))⟩
            | «open» =>
              have hlit : BufferedRead.loopIter (handler e) w SUCCESS = v := by
                unfold BufferedRead.loopIter; rw [hj]; simp only; rw [hr]
              rw [hlit] at hi' ⊢
              have hvc : v.closed = false := by
                cases hq : v.closed with
                | false => rfl
                | true => exact nomatch (r2.1 hq)
              rcases r3 with g | ⟨g1, g2⟩
              · refine ih _ hi' hvc ?_
                unfold todo
                dsimp only at g
                split
                · split <;> omega
                · omega
              · by_cases hvl : v.looping = true
                · refine ⟨[.loop SUCCESS], { v with looping := false }, fun y hy => .inr (List.mem_singleton.1 hy), ?_, rfl, .inr (.inl g1)⟩
                  have : WsStream.step e v (.loop SUCCESS) = some { v with looping := false } := by
                    dsimp only at g2
                    simp [WsStream.step, BufferedRead.step, hvl, BufferedRead.loopIter, g2]
                  rw [WsStream.run, this]; rfl
                · exact ⟨[], v, fun y hy => (by cases hy), rfl, by simpa using hvl, .inr (.inl g1)⟩
      · have hl : w.looping = false := by simpa using hl
        by_cases hw : w.waiting = true
        · exact ⟨[], w, fun y hy => (by cases hy), rfl, hl, .inl hw⟩
        by_cases hs : (e.sess w).rx.cont = .stopped
        · exact ⟨[], w, fun y hy => (by cases hy), rfl, hl, .inr (.inl hs)⟩
        have hj : w.job = none := by
          by_cases hj : w.job = none
          · exact hj
          · exact absurd (hi.pend hj hl hcl) hw
        obtain ⟨w1, hst, e1, e2, e3⟩ : ∃ w1, WsStream.step e w .next = some w1 ∧ w1.rb = w.rb ∧ w1.job ≠ none ∧ w1.closed = false := by
          unfold WsStream.step
          dsimp only
          rw [if_pos ⟨hj, hs⟩]
          unfold BufferedRead.step
          dsimp only
          rw [if_neg (by simp [hl, hcl])]
          refine ⟨_, rfl, ?_⟩
          unfold BufferedRead.act
          dsimp only
          rw [WsStream.read_go hi.base.core.rb.1 _ (fun n hn => by have := WsStream.job_small hi.good.ok n hn; omega)]
          exact ⟨rfl, by simp [BufferedRead.read.go], hcl⟩
        refine after _ _ (.inl rfl) hst (ih w1 (WsStream.step_next e hsz hi hst) e3 ?_)
        unfold todo at hk ⊢
        rw [if_pos hj, if_neg (by rw [hl]; simp)] at hk
        rw [e1, if_neg e2]
        omega
  exact key _ w hi hcl (Nat.lt_succ_self _)

end Cio.WsTcp
