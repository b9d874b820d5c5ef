import Verif.HttpExample.Props
/-
When the example HTTP server stops: `sighandler`, `serve_error` and `http_server_closed` of http_server.c.
-/
namespace Cio.HttpExample
open Cio.HttpLife

/-! ### The log of a connection only grows -/

theorem grow_ev {l0 : List Ev} {w : World} (h0 : l0 <:+ w.log) (e : Ev) : l0 <:+ (w.ev e).log := h0.trans (List.suffix_cons _ _)

theorem grow_streamClose {l0 : List Ev} {w : World} (h0 : l0 <:+ w.log) (l : Bool) : l0 <:+ (streamClose w l).log := by
  unfold streamClose
  split
  · exact h0
  · exact grow_ev (by exact h0) _

theorem grow_bsClose {l0 : List Ev} {w : World} (h0 : l0 <:+ w.log) (l : Bool) : l0 <:+ (bsClose w l).log := by
  unfold bsClose
  split
  · exact grow_streamClose h0 _
  · exact h0

theorem grow_freeHandler {l0 : List Ev} {w : World} (h0 : l0 <:+ w.log) : l0 <:+ (freeHandler w).log := by
  unfold freeHandler
  split
  · exact grow_ev (w := { w with handler := none }) h0 _
  · exact h0

theorem grow_closeClient {l0 : List Ev} {w : World} (h0 : l0 <:+ w.log) (l : Bool) : l0 <:+ (closeClient w l).log := by
  unfold closeClient
  exact grow_bsClose (grow_freeHandler (grow_ev (w := { w with reqT := {}, respT := {}, closes := w.closes + 1 }) h0 _)) _

theorem grow_mark {l0 : List Ev} {w : World} (h0 : l0 <:+ w.log) (l : Bool) : l0 <:+ (mark w l).log := by
  unfold mark
  split
  · exact grow_closeClient h0 _
  · exact h0

theorem grow_writeResponse {l0 : List Ev} {w : World} (h0 : l0 <:+ w.log) (k : Kind) (cb : Bool) (c : Choice) : l0 <:+ (writeResponse w k cb c).1.log := by
  unfold writeResponse
  split
  · exact h0
  · dsimp only
    split
    · split <;> exact h0.trans (List.suffix_cons _ _)
    · exact grow_mark (h0.trans (List.suffix_cons _ _)) _

theorem grow_respondOrMark {l0 : List Ev} {w : World} (h0 : l0 <:+ w.log) (c : Choice) : l0 <:+ (respondOrMark w c).1.log := by
  unfold respondOrMark
  have := grow_writeResponse h0 .closing false c
  split
  · rename_i h; rw [h] at this; exact this
  · rename_i h; rw [h] at this; exact grow_mark this _

theorem grow_respondOrClose {l0 : List Ev} {w : World} (h0 : l0 <:+ w.log) (c : Choice) : l0 <:+ (respondOrClose w c).1.log := by
  unfold respondOrClose
  have := grow_writeResponse h0 .closing false c
  split
  · rename_i h; rw [h] at this; exact this
  · rename_i h; rw [h] at this; exact grow_closeClient this _

theorem grow_callHandler {l0 : List Ev} {w : World} (h0 : l0 <:+ w.log) (cb : Cb) (i a : List Item) (call : Bool) (r : List Item) :
    l0 <:+ (callHandler w cb i a call r).w.log := by
  unfold callHandler
  repeat' split
  all_goals first | exact h0 | exact grow_ev h0 _

theorem grow_onUrl {l0 : List Ev} {w : World} (h0 : l0 <:+ w.log) (u : Url) (eof : Bool) (c : Choice) (r : List Item) : l0 <:+ (onUrl w u eof c r).w.log := by
  unfold onUrl
  cases u with
  | noLocation => exact grow_writeResponse (w := { w with phase := .header, fieldCb := false }) h0 .plain false c
  | noCallbacks => exact h0.trans (List.suffix_cons _ _)
  | ok => exact h0.trans (List.suffix_cons _ _)
  | _ => exact h0

theorem grow_onHeaders {l0 : List Ev} {w : World} (h0 : l0 <:+ w.log) (a b d e eof : Bool) (c : Choice) (r : List Item) :
    l0 <:+ (onHeaders w a b d e eof c r).w.log := by
  unfold onHeaders
  dsimp only
  split
  · split
    · exact grow_callHandler (by exact grow_mark (by exact h0) _) _ _ _ _ _
    · exact grow_mark (by exact h0) _
  · split
    · exact grow_callHandler (by exact h0) _ _ _ _ _
    · exact h0

theorem grow_onMessage {l0 : List Ev} {w : World} (h0 : l0 <:+ w.log) (a eof : Bool) (c : Choice) (r : List Item) : l0 <:+ (onMessage w a eof c r).w.log := by
  unfold onMessage
  dsimp only
  split
  · exact grow_callHandler (by exact h0) _ _ _ _ _
  · split
    · exact grow_callHandler (by exact h0) _ _ _ _ _
    · exact h0

theorem grow_exec {l0 : List Ev} {w : World} (h0 : l0 <:+ w.log) {eof : Bool} {c : Choice} {r : List Item} {s' : State} (h : execStep w eof c r = some s') : l0 <:+ s'.w.log := by
  unfold execStep at h
  split at h
  · injection h with h; rw [← h]; exact h0
  · split at h
    · split at h <;> simp only [Option.some.injEq, reduceCtorEq] at h
      rw [← h]; exact grow_onUrl h0 _ _ _ _
    · split at h
      · split at h
        · split at h <;> simp only [Option.some.injEq] at h <;> rw [← h]
          · exact h0
          · exact grow_callHandler (by exact h0) _ _ _ _ _
        · injection h with h; rw [← h]; exact h0
      · cases h
    · split at h <;> simp only [Option.some.injEq, reduceCtorEq] at h
      rw [← h]; exact grow_onHeaders h0 _ _ _ _ _ _ _
    · split at h <;> simp only [Option.some.injEq, reduceCtorEq] at h
      rw [← h]; exact grow_callHandler (by exact h0) _ _ _ _ _
    · split at h <;> simp only [Option.some.injEq, reduceCtorEq] at h
      rw [← h]; exact grow_onMessage h0 _ _ _ _
    · split at h <;> simp only [Option.some.injEq, reduceCtorEq] at h
      rw [← h]; exact h0
    · split at h <;> simp only [Option.some.injEq, reduceCtorEq] at h
      rw [← h]; exact h0
    · cases h

theorem grow_tail {l0 : List Ev} {w : World} (h0 : l0 <:+ w.log) (eof bad : Bool) (c : Choice) (r : List Item) : l0 <:+ (tailStep w eof bad c r).w.log := by
  unfold tailStep
  dsimp only
  split
  · exact grow_closeClient (w := { w with parsing := w.parsing - 1 }) h0 _
  · split
    · exact grow_respondOrClose (w := { w with parsing := w.parsing - 1 }) h0 _
    · split
      · exact grow_closeClient (w := { w with parsing := w.parsing - 1 }) h0 _
      · split
        · exact h0
        · split <;> exact h0

theorem grow_written {l0 : List Ev} {w : World} (h0 : l0 <:+ w.log) (ok : Bool) (c : Choice) (r : List Item) : l0 <:+ (writtenStep w ok c r).w.log := by
  unfold writtenStep
  dsimp only
  split
  · exact h0.trans (List.suffix_cons _ _)
  · exact h0

theorem grow_writtenEnd {l0 : List Ev} {w : World} (h0 : l0 <:+ w.log) (a ok : Bool) (c : Choice) (r : List Item) : l0 <:+ (writtenEndStep w a ok c r).w.log := by
  unfold writtenEndStep
  split
  · exact h0
  · split
    · exact grow_mark h0 _
    · exact h0

theorem grow_restart {l0 : List Ev} {w : World} (h0 : l0 <:+ w.log) (c : Choice) (r : List Item) : l0 <:+ (restartStep w c r).w.log := by
  unfold restartStep
  split
  · dsimp only
    split
    · exact (grow_freeHandler h0).trans (List.suffix_cons _ _)
    · exact grow_freeHandler h0
  · exact h0

theorem grow_headersEnd {l0 : List Ev} {w : World} (h0 : l0 <:+ w.log) (b : Bool) (c : Choice) (r : List Item) : l0 <:+ (headersEndStep w b c r).w.log := by
  unfold headersEndStep
  dsimp only
  split <;> exact h0

theorem grow_event {l0 : List Ev} {w : World} (h0 : l0 <:+ w.log) {c : Choice} {s' : State} (h : eventStep w c = some s') : l0 <:+ s'.w.log := by
  unfold eventStep at h
  split at h
  · split at h <;> simp only [Option.some.injEq, reduceCtorEq] at h
    rw [← h]; exact h0
  · split at h <;> simp only [Option.some.injEq, reduceCtorEq] at h
    rw [← h]; exact h0
  · split at h <;> simp only [Option.some.injEq, reduceCtorEq] at h
    rw [← h]; exact h0
  · split at h <;> simp only [Option.some.injEq, reduceCtorEq] at h
    rw [← h]; exact h0
  · split at h <;> simp only [Option.some.injEq, reduceCtorEq] at h
    rw [← h]; exact grow_respondOrMark (w := { w with reqT := {} }) h0 _
  · split at h <;> simp only [Option.some.injEq, reduceCtorEq] at h
    rw [← h]; exact grow_respondOrMark (w := { w with respT := {} }) h0 _
  · split at h <;> simp only [Option.some.injEq, reduceCtorEq] at h
    rw [← h]; exact h0.trans (List.suffix_cons _ _)
  · split at h <;> simp only [Option.some.injEq, reduceCtorEq] at h
    rw [← h]; exact grow_mark h0 _
  · split at h <;> simp only [Option.some.injEq, reduceCtorEq] at h
    rw [← h]; exact grow_writeResponse h0 _ _ _
  · cases h

theorem grow_user {l0 : List Ev} {w : World} (h0 : l0 <:+ w.log) {cb : Cb} {l b : Bool} {c : Choice} {r : List Item} {s' : State} (h : userStep w cb l b c r = some s') : l0 <:+ s'.w.log := by
  unfold userStep at h
  split at h
  · simp only [Option.some.injEq] at h; rw [← h]; exact grow_writeResponse h0 _ _ _
  · simp only [Option.some.injEq] at h; rw [← h]; exact grow_mark h0 _
  · repeat' split at h
    all_goals simp only [Option.some.injEq, reduceCtorEq] at h
    all_goals (rw [← h]; exact h0)
  · cases h

theorem grow_step {s s' : State} {c : Choice} (h : HttpLife.step s c = some s') : s.w.log <:+ s'.w.log := by
  have h0 : s.w.log <:+ s.w.log := List.suffix_rfl
  unfold HttpLife.step at h
  split at h
  · cases h
  · split at h
    · exact grow_event h0 h
    · split at h
      · injection h with h; rw [← h]; exact h0
      · split at h
        · exact grow_user h0 h
        · split at h
          · simp only [Option.some.injEq] at h; rw [← h]; exact grow_writeResponse h0 _ _ _
          · simp only [Option.some.injEq] at h; rw [← h]; exact grow_mark h0 _
          · simp only [Option.some.injEq] at h; rw [← h]; exact h0
          · cases h
        · exact grow_exec h0 h
        · split at h
          · split at h <;> simp only [Option.some.injEq, reduceCtorEq] at h
            rw [← h]; exact grow_ev h0 _
          · simp only [Option.some.injEq] at h; rw [← h]; exact h0
          · cases h
        · simp only [Option.some.injEq] at h; rw [← h]; exact grow_tail h0 _ _ _ _
        · simp only [Option.some.injEq] at h; rw [← h]
          dsimp only
          split
          · exact grow_streamClose (w := { s.w with running := s.w.running - 1 }) h0 _
          · exact h0
        · simp only [Option.some.injEq] at h; rw [← h]; exact grow_headersEnd h0 _ _ _
        · repeat' split at h
          all_goals simp only [Option.some.injEq, reduceCtorEq] at h
          all_goals (rw [← h]; exact h0)
        · simp only [Option.some.injEq] at h; rw [← h]
          exact grow_respondOrMark (grow_ev h0 _) _
        · simp only [Option.some.injEq] at h; rw [← h]; exact grow_written h0 _ _ _
        · simp only [Option.some.injEq] at h; rw [← h]; exact grow_writtenEnd h0 _ _ _ _
        · simp only [Option.some.injEq] at h; rw [← h]; exact grow_restart h0 _ _

theorem grow_conn {k k' : Conn} {c : Choice} (h : connStep k c = some k') : k.st.w.log <:+ k'.st.w.log := by
  unfold connStep at h
  split at h
  · cases hs : HttpLife.step k.st c with
    | none => rw [hs] at h; cases h
    | some s' => rw [hs] at h; simp at h; rw [← h]; exact grow_step hs
  · cases h

theorem errors_mono {k k' : Conn} {c : Choice} (h : connStep k c = some k') : errors k.st ≤ errors k'.st := by
  unfold errors
  exact (grow_conn h).sublist.count_le _

/-! ### What is claimed -/

/-- A reason from outside to shut the server down. -/
def isReason : SAct → Bool
  | .signal => true
  | .acceptError => true
  | _ => false

/-- A client connects. -/
def isAccept : SAct → Bool
  | .accept => true
  | _ => false

/-- How often `on_error` was called for the connections. -/
def allErrors (l : List Conn) : Nat := (l.map fun k => errors k.st).sum

theorem sum_set (l : List Conn) (i : Nat) (k k' : Conn) (h : l[i]? = some k) (hm : errors k.st ≤ errors k'.st) :
    allErrors (l.set i k') = allErrors l + (errors k'.st - errors k.st) := by
  induction l generalizing i with
  | nil => cases h
  | cons x l ih =>
    cases i with
    | zero =>
      simp at h
      subst h
      simp [allErrors]
      omega
    | succ i =>
      simp at h
      have := ih i h
      simp only [allErrors, List.set_cons_succ, List.map_cons, List.sum_cons] at this ⊢
      omega

structure Acc (s : Srv) (reasons accepts : Nat) : Prop where
  shut : s.shutdowns = reasons + allErrors s.conns
  canc : s.cancelled = decide (0 < s.shutdowns)
  ended : s.ended = true → s.cancelled = true
  conns : s.conns.length = accepts

theorem acc_step {s s' : Srv} {r n : Nat} (h : Acc s r n) {a : SAct} (hs : step s a = some s') :
    Acc s' (r + (isReason a).toNat) (n + (isAccept a).toNat) ∧ (0 < s.shutdowns → isAccept a = false ∧ a ≠ .acceptError) ∧ s.ended = false := by
  obtain ⟨h1, h2, h3, h4⟩ := h
  unfold step at hs
  split at hs
  · cases hs
  · rename_i he
    have he : s.ended = false := by simpa using he
    refine ⟨?_, ?_, he⟩
    · cases a with
      | accept =>
        dsimp only at hs
        split at hs <;> simp only [Option.some.injEq, reduceCtorEq] at hs
        subst hs
        refine ⟨?_, h2, h3, by simp [isAccept, h4]⟩
        simp [isReason, h1, allErrors, errors, newConn, HttpLife.init]
      | acceptError =>
        dsimp only at hs
        split at hs <;> simp only [Option.some.injEq, reduceCtorEq] at hs
        subst hs
        refine ⟨?_, ?_, by simp [serveErrors], by simp [isAccept, serveErrors, h4]⟩
        · simp [serveErrors, isReason, h1]; omega
        · simp [serveErrors]
      | signal =>
        simp only [Option.some.injEq] at hs
        subst hs
        refine ⟨?_, ?_, by simp [serveErrors], by simp [isAccept, serveErrors, h4]⟩
        · simp [serveErrors, isReason, h1]; omega
        · simp [serveErrors]
      | stop =>
        dsimp only at hs
        split at hs <;> simp only [Option.some.injEq, reduceCtorEq] at hs
        rename_i hc
        subst hs
        exact ⟨by simpa [isReason] using h1, h2, fun _ => hc, by simpa [isAccept] using h4⟩
      | conn i c =>
        dsimp only at hs
        split at hs
        · cases hs
        · rename_i k hk
          split at hs
          · cases hs
          · rename_i k' hk'
            simp only [Option.some.injEq] at hs
            subst hs
            refine ⟨?_, ?_, ?_, by simp [isAccept, serveErrors, h4]⟩
            · simp only [serveErrors, isReason, Bool.toNat_false, Nat.add_zero]
              rw [sum_set _ _ _ _ hk (errors_mono hk'), h1]
              omega
            · simp only [serveErrors, h2]
              by_cases h0 : 0 < s.shutdowns
              · have : 0 < s.shutdowns + (errors k'.st - errors k.st) := by omega
                simp [h0, this]
              · have : s.shutdowns = 0 := by omega
                simp [this]
            · intro hx; simp only [serveErrors] at hx; rw [he] at hx; cases hx
    · intro hp
      cases a with
      | accept =>
        dsimp only at hs
        split at hs
        · omega
        · cases hs
      | acceptError =>
        dsimp only at hs
        split at hs
        · omega
        · cases hs
      | _ => exact ⟨rfl, by simp⟩

theorem acc_run {s s' : Srv} {r n : Nat} (h : Acc s r n) (as : List SAct) (hr : run s as = some s') : Acc s' (r + as.countP isReason) (n + as.countP isAccept) := by
  induction as generalizing s r n with
  | nil => simp only [run, Option.some.injEq] at hr; subst hr; simpa using h
  | cons a as ih =>
    simp only [run] at hr
    cases hs : step s a with
    | none => rw [hs] at hr; cases hr
    | some s1 =>
      rw [hs] at hr
      have hx := ih (acc_step h hs).1 hr
      have e1 : r + (isReason a).toNat + as.countP isReason = r + (a :: as).countP isReason := by
        rw [List.countP_cons]; cases isReason a <;> simp <;> omega
      have e2 : n + (isAccept a).toNat + as.countP isAccept = n + (a :: as).countP isAccept := by
        rw [List.countP_cons]; cases isAccept a <;> simp <;> omega
      rw [e1, e2] at hx
      exact hx

theorem acc_initial : Acc initial 0 0 := ⟨rfl, rfl, by simp [initial], rfl⟩

/-- The server is shut down exactly once for each signal, each failed accept and each error reported for a connection; the event loop is told to stop
exactly if there was one; every client that connected has its connection. -/
theorem shut_down_once_per_reason (as : List SAct) {s : Srv} (hr : run initial as = some s) :
    s.shutdowns = as.countP isReason + (s.conns.map fun k => k.st.w.log.count .onError).sum ∧ (s.cancelled = true ↔ 0 < s.shutdowns) ∧
      s.conns.length = as.countP isAccept := by
  have := acc_run acc_initial as hr
  refine ⟨?_, ?_, ?_⟩
  · have h := this.shut; simpa [allErrors, errors] using h
  · rw [this.canc]; simp
  · simpa using this.conns

/-- The program ends only if it was sent a signal, accepting a connection failed, or an error was reported for a connection. -/
theorem ends_only_for_a_reason (as : List SAct) {s : Srv} (hr : run initial as = some s) (he : s.ended = true) :
    .signal ∈ as ∨ .acceptError ∈ as ∨ ∃ k ∈ s.conns, Ev.onError ∈ k.st.w.log := by
  have hi := acc_run acc_initial as hr
  have hc := hi.ended he
  rw [hi.canc] at hc
  have hp : 0 < s.shutdowns := by simpa using hc
  rw [hi.shut] at hp
  by_cases h1 : 0 < as.countP isReason
  · obtain ⟨a, ha, hx⟩ := List.countP_pos_iff.mp h1
    cases a with
    | signal => exact .inl ha
    | acceptError => exact .inr (.inl ha)
    | _ => cases hx
  · have h2 : 0 < allErrors s.conns := by omega
    refine .inr (.inr ?_)
    generalize s.conns = l at h2
    induction l with
    | nil => simp [allErrors] at h2
    | cons k l ih =>
      by_cases hk : 0 < errors k.st
      · exact ⟨k, List.mem_cons_self, List.count_pos_iff.mp hk⟩
      · simp only [allErrors, List.map_cons, List.sum_cons] at h2
        obtain ⟨k', h, h'⟩ := ih (by unfold allErrors; omega)
        exact ⟨k', List.mem_cons_of_mem _ h, h'⟩

/-- After the first of these reasons no client is accepted any more. -/
theorem no_client_after_shutdown (as bs : List SAct) {s s' : Srv} (hr : run initial as = some s) (hp : 0 < s.shutdowns) (hr' : run s bs = some s') :
    .accept ∉ bs ∧ s'.conns.length = s.conns.length := by
  have hi := acc_run acc_initial as hr
  clear hr
  generalize 0 + as.countP isReason = r at hi
  generalize 0 + as.countP isAccept = n at hi
  have key : .accept ∉ bs := by
    induction bs generalizing s r n with
    | nil => simp
    | cons b bs ih =>
      simp only [run] at hr'
      cases hs : step s b with
      | none => rw [hs] at hr'; cases hr'
      | some s1 =>
        rw [hs] at hr'
        obtain ⟨g1, g2, _⟩ := acc_step hi hs
        have hb := g2 hp
        have hp1 : 0 < s1.shutdowns := by
          have c1 := hi.canc
          unfold step at hs
          split at hs
          · cases hs
          · cases b with
            | accept => simp [isAccept] at hb
            | acceptError => exact absurd rfl hb.2
            | signal => simp only [Option.some.injEq] at hs; subst hs; simp [serveErrors]
            | stop =>
              dsimp only at hs
              split at hs <;> simp only [Option.some.injEq, reduceCtorEq] at hs
              subst hs; exact hp
            | conn i c =>
              dsimp only at hs
              split at hs
              · cases hs
              · split at hs
                · cases hs
                · simp only [Option.some.injEq] at hs
                  subst hs; simp only [serveErrors]; omega
        have := ih hp1 hr' _ _ g1
        intro hm
        rcases List.mem_cons.mp hm with rfl | hm
        · simp [isAccept] at hb
        · exact this hm
  refine ⟨key, ?_⟩
  have h' := (acc_run hi bs hr').conns
  have : bs.countP isAccept = 0 := by
    rw [List.countP_eq_zero]
    intro b hb hx
    cases b with
    | accept => exact key hb
    | _ => cases hx
  rw [h', this, hi.conns]
  rfl

/-- The program can be ended at any time by a signal. -/
theorem signal_ends (as : List SAct) {s : Srv} (_hr : run initial as = some s) (he : s.ended = false) :
    ∃ s', run s [.signal, .stop] = some s' ∧ s'.ended = true ∧ s'.conns = s.conns := by
  refine ⟨{ serveErrors s 1 with ended := true }, ?_, rfl, rfl⟩
  simp [run, step, he, serveErrors]

/-! ### Cases -/

/-- Two clients, one of which resets its connection; then a signal: shut down twice. -/
example : (seen [.accept, .accept, .conn 0 { act := .readError }, .conn 0 { act := .go }, .signal, .stop]).map (·.2) = some 2 := by decide +kernel

end Cio.HttpExample
