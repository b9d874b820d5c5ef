import Verif.WsRecv.Run
/-
The arguments of the application's read handler are consistent: the chunks of a frame, the frames of a message (C91).

The proof goes by an acceptor for sequences of visible actions (`scan`); the property theorems are in `CallsProps.lean` and do not mention it.
-/
namespace Cio.WsRecv

/-- What has been seen so far: the data frame in progress (announced length, bytes so far, last frame of its message, binary), the message in progress, whether it is all over. -/
structure Sc where
  cur : Option (Nat × Nat × Bool × Bool) := none
  msg : Option Bool := none
  ended : Bool := false
deriving DecidableEq

/-- One visible action after the others; `none` if it is inconsistent with them. -/
def scan (s : Sc) (x : Out) : Option Sc :=
  if s.ended then none
  else match x with
  | .chunk n d lc lf b =>
    match s.cur with
    | none =>
      if (s.msg = none ∨ s.msg = some b) ∧ d.length ≤ n ∧ lc = decide (d.length = n) ∧ (d = [] → n = 0) then
        some ⟨if lc then none else some (n, d.length, lf, b), if lc && lf then none else some b, false⟩
      else none
    | some (n', g, lf', b') =>
      if n = n' ∧ lf = lf' ∧ b = b' ∧ s.msg = some b ∧ g + d.length ≤ n ∧ lc = decide (g + d.length = n) ∧ d ≠ [] then
        some ⟨if lc then none else some (n, g + d.length, lf, b), if lc && lf then none else some b, false⟩
      else none
  | .control _ _ => if s.cur = none then some s else none
  | .pong _ => if s.cur = none then some s else none
  | .closeReply _ _ => if s.cur = none then some { s with ended := true } else none
  | .closed => if s.cur = none then some { s with ended := true } else none
  | .fail _ => some { s with ended := true }
  | .ub => if s.cur = none then some { s with ended := true } else none

def scanAll : Sc → List Out → Option Sc
  | s, [] => some s
  | s, x :: l => match scan s x with | none => none | some s' => scanAll s' l

theorem scanAll_append (s : Sc) (a b : List Out) : scanAll s (a ++ b) = match scanAll s a with | none => none | some s' => scanAll s' b := by
  induction a generalizing s with
  | nil => rfl
  | cons x a ih =>
    simp only [List.cons_append, scanAll]
    cases scan s x with
    | none => rfl
    | some s' => exact ih s'

/-- Between frames: the message in progress according to the receiver and to what was seen. -/
def Between (frag : Nat) (msg : Option Bool) : Prop := (frag = 0 ∧ msg = none) ∨ (frag = 1 ∧ msg = some false) ∨ (frag = 2 ∧ msg = some true)

/-- Within the header of a frame. -/
def InFrame (rx : Rx) (msg : Option Bool) : Prop :=
  (8 ≤ rx.opcode ∧ Between rx.frag msg) ∨
  (rx.opcode < 8 ∧ rx.frag = (if rx.fin then 0 else rx.opcode) ∧ (msg = none ∨ (rx.opcode = 1 ∧ msg = some false) ∨ (rx.opcode = 2 ∧ msg = some true)))

/-- The state of the receiver agrees with what was seen. -/
def Agree (rx : Rx) (s : Sc) : Prop :=
  rx.utf8.state ∈ Utf8.V ∧ match rx.cont with
  | .stopped => True
  | .header => s.ended = false ∧ s.cur = none ∧ Between rx.frag s.msg
  | .firstLen => s.ended = false ∧ s.cur = none ∧ InFrame rx s.msg
  | .len16 => s.ended = false ∧ s.cur = none ∧ InFrame rx s.msg
  | .len64 => s.ended = false ∧ s.cur = none ∧ InFrame rx s.msg
  | .mask => s.ended = false ∧ s.cur = none ∧ InFrame rx s.msg ∧ rx.remaining = rx.frameLength
  | .payload => s.ended = false ∧ 0 < rx.remaining ∧ ((s.cur = none ∧ InFrame rx s.msg ∧ rx.remaining = rx.frameLength) ∨
      (s.cur = some (rx.frameLength, rx.frameLength - rx.remaining, rx.fin, decide (rx.opcode = 2)) ∧ rx.remaining < rx.frameLength ∧
        (rx.opcode = 1 ∨ rx.opcode = 2) ∧ s.msg = some (decide (rx.opcode = 2)) ∧ rx.frag = (if rx.fin then 0 else rx.opcode)))

/-- The step keeps to the acceptor. -/
def Fits (s : Sc) (r : Rx × List Out) : Prop := ∃ s', scanAll s r.2 = some s' ∧ Agree r.1 s'

theorem fits_failed (s : Sc) (hs : s.ended = false) (rx : Rx) (hv : rx.utf8.state ∈ Utf8.V) (c : Nat) : Fits s (failed rx c) := by
  refine ⟨{ s with ended := true }, ?_, hv, trivial⟩
  simp [failed, scanAll, scan, hs]

theorem fits_same (s : Sc) (rx : Rx) (h : Agree rx s) : Fits s (rx, []) := ⟨s, rfl, h⟩

/-- The chunk of a data frame that has just been taken: `rx.remaining` is what is left then. -/
theorem chunk_fits (s : Sc) (rx : Rx) (m : Masking.Mask) (u : Utf8.State) (data : List UInt8) (hv : u.state ∈ Utf8.V) (hs : s.ended = false) (hk : rx.opcode = 1 ∨ rx.opcode = 2)
    (hf : rx.frag = (if rx.fin then 0 else rx.opcode)) (b : Bool) (hb : b = decide (rx.opcode = 2))
    (hc : (s.cur = none ∧ InFrame rx s.msg ∧ rx.remaining + data.length = rx.frameLength ∧ (data = [] → rx.frameLength = 0)) ∨
      (s.cur = some (rx.frameLength, rx.frameLength - (rx.remaining + data.length), rx.fin, decide (rx.opcode = 2)) ∧ rx.remaining + data.length < rx.frameLength ∧
        data ≠ [] ∧ s.msg = some (decide (rx.opcode = 2)))) :
    Fits s (readMessage { rx with mask := m, utf8 := u }, [.chunk rx.frameLength data (decide (rx.remaining = 0)) rx.fin b]) := by
  subst hb
  have hAfter : ∀ s' : Sc, s'.ended = false → (rx.remaining = 0 → s'.cur = none) → (rx.remaining = 0 → Between rx.frag s'.msg) →
      (0 < rx.remaining → s'.cur = some (rx.frameLength, rx.frameLength - rx.remaining, rx.fin, decide (rx.opcode = 2)) ∧ rx.remaining < rx.frameLength ∧ s'.msg = some (decide (rx.opcode = 2))) →
      Agree (readMessage { rx with mask := m, utf8 := u }) s' := by
    intro s' h1 h2 h3 h4
    unfold Agree readMessage
    by_cases h0 : rx.remaining = 0
    · simp only [h0, if_true]
      exact ⟨hv, h1, h2 h0, h3 h0⟩
    · simp only [h0, if_false]
      obtain ⟨a, b, c⟩ := h4 (by omega)
      exact ⟨hv, h1, by omega, .inr ⟨a, b, hk, c, hf⟩⟩
  have hb2 : ∀ {msg : Option Bool}, (msg = if (decide (rx.remaining = 0) && rx.fin) then none else some (decide (rx.opcode = 2))) → rx.remaining = 0 → Between rx.frag msg := by
    intro msg h h0
    subst h
    rw [hf]
    simp only [h0, decide_true, Bool.true_and]
    cases hfin : rx.fin
    · simp only [Bool.false_eq_true, if_false]
      rcases hk with h | h <;> simp [h, Between]
    · exact .inl ⟨rfl, rfl⟩
  rcases hc with ⟨c1, c2, c3, c4⟩ | ⟨c1, c2, c3, c4⟩
  · have hmsg : s.msg = none ∨ s.msg = some (decide (rx.opcode = 2)) := by
      rcases c2 with ⟨h, -⟩ | ⟨-, -, h | ⟨h, h'⟩ | ⟨h, h'⟩⟩
      · omega
      · exact .inl h
      · right; rw [h', h]; decide
      · right; rw [h', h]; decide
    have hlc : decide (rx.remaining = 0) = decide (data.length = rx.frameLength) := by
      rw [decide_eq_decide]; omega
    refine ⟨⟨if decide (rx.remaining = 0) then none else some (rx.frameLength, data.length, rx.fin, decide (rx.opcode = 2)),
      if (decide (rx.remaining = 0) && rx.fin) then none else some (decide (rx.opcode = 2)), false⟩, ?_, ?_⟩
    · simp only [scanAll, scan, hs, c1, Bool.false_eq_true, if_false]
      rw [if_pos ⟨hmsg, by omega, hlc, c4⟩]
    · refine hAfter _ rfl (fun h => by simp [h]) (hb2 rfl) (fun h => ⟨?_, ?_, ?_⟩)
      · have : ¬ rx.remaining = 0 := by omega
        simp [this]; omega
      · have : data ≠ [] := fun h' => by have := c4 h'; omega
        have := List.length_pos_iff.mpr this
        omega
      · have : ¬ rx.remaining = 0 := by omega
        simp [this]
  · have hpos := List.length_pos_iff.mpr c3
    have hlc : decide (rx.remaining = 0) = decide (rx.frameLength - (rx.remaining + data.length) + data.length = rx.frameLength) := by
      rw [decide_eq_decide]; omega
    refine ⟨⟨if decide (rx.remaining = 0) then none else some (rx.frameLength, rx.frameLength - (rx.remaining + data.length) + data.length, rx.fin, decide (rx.opcode = 2)),
      if (decide (rx.remaining = 0) && rx.fin) then none else some (decide (rx.opcode = 2)), false⟩, ?_, ?_⟩
    · simp only [scanAll, scan, hs, c1, Bool.false_eq_true, if_false]
      rw [if_pos ⟨trivial, trivial, trivial, c4, by omega, hlc, c3⟩]
    · refine hAfter _ rfl (fun h => by simp [h]) (hb2 rfl) (fun h => ⟨?_, by omega, ?_⟩)
      · have : ¬ rx.remaining = 0 := by omega
        simp [this]; omega
      · have : ¬ rx.remaining = 0 := by omega
        simp [this]

/-- What `handleFrame` needs to know. -/
def Pre (s : Sc) (rx : Rx) (data : List UInt8) : Prop :=
  s.ended = false ∧
  ((8 ≤ rx.opcode ∧ s.cur = none ∧ Between rx.frag s.msg) ∨
   (rx.opcode < 8 ∧ rx.frag = (if rx.fin then 0 else rx.opcode) ∧
    ((s.cur = none ∧ InFrame rx s.msg ∧ rx.remaining + data.length = rx.frameLength ∧ (data = [] → rx.frameLength = 0)) ∨
      (s.cur = some (rx.frameLength, rx.frameLength - (rx.remaining + data.length), rx.fin, decide (rx.opcode = 2)) ∧ rx.remaining + data.length < rx.frameLength ∧
        (rx.opcode = 1 ∨ rx.opcode = 2) ∧ data ≠ [] ∧ s.msg = some (decide (rx.opcode = 2))))))

theorem scan_close (s : Sc) (hs : s.ended = false) (hc : s.cur = none) (sc : Bool) (o : Endian.Order) (a : Nat) (data : List UInt8) :
    ∃ s', scanAll s (handleClose sc o a data) = some s' := by
  have h1 : ∀ x, (x = Out.ub ∨ ∃ n, x = Out.fail n) → ∃ s', scanAll s [x] = some s' := by
    rintro x (rfl | ⟨n, rfl⟩) <;> simp [scanAll, scan, hs, hc]
  have h2 : ∀ d k st r, ∃ s', scanAll s (.control k d :: if sc then [.closed] else [.closeReply st r]) = some s' := by
    intro d k st r
    cases sc <;> simp [scanAll, scan, hs, hc]
  unfold handleClose
  generalize (if data.length ≥ 2 then Endian.betoh o 2 (Endian.ofMem o (data.take 2)) else 1000) = st
  generalize (if data.length ≥ 2 then data.length - 2 else data.length) = len
  dsimp only
  by_cases q1 : data.length = 1
  · rw [if_pos q1]; exact h1 _ (.inr ⟨_, rfl⟩)
  rw [if_neg q1]
  by_cases q2 : data.length ≥ 2 ∧ isInvalidStatusCode st = true
  · rw [if_pos q2]; exact h1 _ (.inr ⟨_, rfl⟩)
  rw [if_neg q2]
  generalize (if len > 0 then data.drop 2 else []) = r
  by_cases q3 : len > 0
  · rw [if_pos q3]
    by_cases q4 : len < 2
    · rw [if_pos q4]; exact h1 _ (.inl rfl)
    rw [if_neg q4]
    cases Utf8.check (Utf8.init ⟨0, 0⟩) (a + 2) ((data.drop 2).take (len - 2)) with
    | none => exact h1 _ (.inl rfl)
    | some q =>
      dsimp only
      by_cases q5 : q.1 ≠ Utf8.ACCEPT
      · rw [if_pos q5]; exact h1 _ (.inr ⟨_, rfl⟩)
      · rw [if_neg q5]; exact h2 _ _ _ _
  · rw [if_neg q3]; exact h2 _ _ _ _

theorem handleFrame_fits (o : Endian.Order) (s : Sc) (rx : Rx) (data : List UInt8) (hv : rx.utf8.state ∈ Utf8.V) (h : Pre s rx data) : Fits s (handleFrame o rx data) := by
  obtain ⟨hs, h⟩ := h
  unfold handleFrame
  have hlen : (if rx.isServer then unmaskAt rx.addr rx.mask data else data).length = data.length := by
    split
    · rw [unmaskAt_eq, Masking.xorFrom_length]
    · rfl
  have hnil : (if rx.isServer then unmaskAt rx.addr rx.mask data else data) = [] ↔ data = [] := by
    rw [← List.length_eq_zero_iff, hlen, List.length_eq_zero_iff]
  generalize (if rx.isServer then unmaskAt rx.addr rx.mask data else data) = d at hlen hnil
  have hdata : (rx.opcode = 1 ∨ rx.opcode = 2) → rx.frag = (if rx.fin then 0 else rx.opcode) ∧
      ((s.cur = none ∧ InFrame rx s.msg ∧ rx.remaining + d.length = rx.frameLength ∧ (d = [] → rx.frameLength = 0)) ∨
      (s.cur = some (rx.frameLength, rx.frameLength - (rx.remaining + d.length), rx.fin, decide (rx.opcode = 2)) ∧ rx.remaining + d.length < rx.frameLength ∧
        d ≠ [] ∧ s.msg = some (decide (rx.opcode = 2)))) := by
    intro hk
    rw [hlen]
    rcases h with ⟨h, -⟩ | ⟨-, h1, ⟨a, b, c, e⟩ | ⟨a, b, -, c, e⟩⟩
    · omega
    · exact ⟨h1, .inl ⟨a, b, c, fun q => e (hnil.mp q)⟩⟩
    · exact ⟨h1, .inr ⟨a, b, fun q => c (hnil.mp q), e⟩⟩
  have hctl : 8 ≤ rx.opcode → s.cur = none ∧ Between rx.frag s.msg := by
    intro hk
    rcases h with ⟨-, h1, h2⟩ | ⟨h, -⟩
    · exact ⟨h1, h2⟩
    · omega
  by_cases k2 : rx.opcode = 2
  · rw [if_pos k2]
    obtain ⟨e1, e2⟩ := hdata (.inr k2)
    exact chunk_fits s rx _ rx.utf8 d hv hs (.inr k2) e1 true (by simp [k2]) e2
  rw [if_neg k2]
  by_cases k1 : rx.opcode = 1
  · rw [if_pos k1]
    obtain ⟨e1, e2⟩ := hdata (.inl k1)
    unfold handleText
    obtain ⟨u, hc, hs'⟩ := Utf8.check_spec rx.utf8 rx.addr d hv
    have hv' : u.state ∈ Utf8.V := by rw [hs']; exact Utf8.run_mem _ hv _
    rw [hc]
    dsimp only
    split
    · exact fits_failed s hs _ hv' _
    · refine chunk_fits s rx _ (if rx.fin then Utf8.init u else u) d ?_ hs (.inl k1) e1 false (by simp [k1]) e2
      cases rx.fin
      · exact hv'
      · have : ∀ x, x = Utf8.ACCEPT → x ∈ Utf8.V := by rintro x rfl; decide
        exact this _ rfl
  rw [if_neg k1]
  by_cases k9 : rx.opcode = 9
  · rw [if_pos k9]
    obtain ⟨c1, c2⟩ := hctl (by omega)
    unfold handlePing
    split
    · exact ⟨{ s with ended := true }, by simp [scanAll, scan, hs, c1], hv, trivial⟩
    · exact ⟨s, by simp [scanAll, scan, hs, c1], hv, hs, c1, c2⟩
  rw [if_neg k9]
  by_cases k10 : rx.opcode = 10
  · rw [if_pos k10]
    obtain ⟨c1, c2⟩ := hctl (by omega)
    exact ⟨s, by simp [handlePong, scanAll, scan, hs, c1], hv, hs, c1, c2⟩
  rw [if_neg k10]
  by_cases k8 : rx.opcode = 8
  · rw [if_pos k8]
    obtain ⟨c1, c2⟩ := hctl (by omega)
    obtain ⟨s', e⟩ := scan_close s hs c1 rx.selfClose o rx.addr d
    exact ⟨s', e, hv, trivial⟩
  rw [if_neg k8]
  exact fits_failed s hs _ hv _

theorem readPayload_fits (o : Endian.Order) (s : Sc) (rx : Rx) (hv : rx.utf8.state ∈ Utf8.V) (hs : s.ended = false) (hc : s.cur = none) (hi : InFrame rx s.msg) (hr : rx.remaining = rx.frameLength) :
    Fits s (readPayload o rx) := by
  unfold readPayload
  split
  · next h => exact fits_same s _ ⟨hv, hs, h, .inl ⟨hc, hi, hr⟩⟩
  · next h =>
    refine handleFrame_fits o s rx [] hv ⟨hs, ?_⟩
    have hi' := hi
    rcases hi with ⟨h1, h2⟩ | ⟨h1, h2, h3⟩
    · exact .inl ⟨h1, hc, h2⟩
    · exact .inr ⟨h1, h2, .inl ⟨hc, hi', by rw [List.length_nil]; omega, fun _ => by omega⟩⟩

theorem maskOrPayload_fits (o : Endian.Order) (s : Sc) (rx : Rx) (hv : rx.utf8.state ∈ Utf8.V) (hs : s.ended = false) (hc : s.cur = none) (hi : InFrame rx s.msg) (hr : rx.remaining = rx.frameLength) :
    Fits s (getMaskOrPayload o rx) := by
  unfold getMaskOrPayload
  split
  · exact fits_same s _ ⟨hv, hs, hc, hi, hr⟩
  · exact readPayload_fits o s rx hv hs hc hi hr

theorem handleFin_utf8 (rx rx' : Rx) (b0 : UInt8) (h : handleFin rx b0 = some rx') : rx'.utf8 = rx.utf8 := by
  unfold handleFin at h
  dsimp only at h
  repeat' split at h
  all_goals first | contradiction | (injection h with h; rw [← h])

theorem header_fits (s : Sc) (rx : Rx) (b0 : UInt8) (hv : rx.utf8.state ∈ Utf8.V) (hs : s.ended = false) (hc : s.cur = none) (hb : Between rx.frag s.msg) : Fits s (getHeader rx b0) := by
  unfold getHeader
  dsimp only
  split
  · exact fits_failed s hs _ hv _
  generalize hfin : (b0 &&& 0x80 == 0x80) = fin
  cases hq : handleFin { rx with fin := fin } b0 with
  | none => exact fits_failed s hs _ hv _
  | some rx' =>
    refine fits_same s _ ⟨?_, hs, hc, ?_⟩
    · have hu : rx'.utf8 = rx.utf8 := handleFin_utf8 { rx with fin := fin } rx' b0 hq
      show rx'.utf8.state ∈ _
      rw [hu]; exact hv
    unfold handleFin at hq
    dsimp only at hq
    generalize (b0 &&& 0x0f).toNat = op at hq
    by_cases hctl : 8 ≤ op
    · have h0 : op ≠ 0 := by omega
      cases fin
      · simp [hctl] at hq
      · simp only [Bool.true_eq_false, false_and, if_false, if_true, h0, ne_eq, not_false_iff] at hq
        have : isControl op = true := by simp [isControl, hctl]
        simp only [this, Bool.true_eq_false, and_false, if_false, Option.some.injEq] at hq
        subst hq
        exact .inl ⟨hctl, hb⟩
    · have n1 : ¬ (fin = false ∧ op ≥ 8) := by omega
      rw [if_neg n1] at hq
      have hnc : isControl op = false := by simp [isControl]; omega
      by_cases h0 : op = 0
      · subst h0
        simp only [ne_eq, not_true_eq_false, if_false] at hq
        have hf : rx.frag ≠ 0 := by
          intro hf
          cases fin <;> simp [hf] at hq
        simp only [hf, if_false] at hq
        have hkind : rx.frag < 8 ∧ (s.msg = none ∨ (rx.frag = 1 ∧ s.msg = some false) ∨ (rx.frag = 2 ∧ s.msg = some true)) := by
          rcases hb with h | h | h
          · exact absurd h.1 hf
          · exact ⟨by omega, .inr (.inl h)⟩
          · exact ⟨by omega, .inr (.inr h)⟩
        cases fin
        · simp only [Bool.false_eq_true, if_false, Option.some.injEq] at hq
          subst hq
          exact .inr ⟨hkind.1, rfl, hkind.2⟩
        · simp only [if_true, Option.some.injEq] at hq
          subst hq
          exact .inr ⟨hkind.1, rfl, hkind.2⟩
      · simp only [ne_eq, h0, not_false_iff, if_true, hnc, and_true] at hq
        by_cases hf : rx.frag = 0
        · have hm : s.msg = none := by
            rcases hb with h | h | h
            · exact h.2
            · omega
            · omega
          cases fin
          · simp only [Bool.false_eq_true, if_false, hf, not_true_eq_false, Option.some.injEq] at hq
            subst hq
            exact .inr ⟨by show op < 8; omega, rfl, .inl hm⟩
          · simp only [if_true, hf, not_true_eq_false, if_false, Option.some.injEq] at hq
            subst hq
            exact .inr ⟨by show op < 8; omega, rfl, .inl hm⟩
        · cases fin <;> simp [hf] at hq

theorem firstLength_fits (o : Endian.Order) (s : Sc) (rx : Rx) (b1 : UInt8) (hv : rx.utf8.state ∈ Utf8.V) (hs : s.ended = false) (hc : s.cur = none) (hi : InFrame rx s.msg) :
    Fits s (getFirstLength o rx b1) := by
  unfold getFirstLength
  dsimp only
  split
  · exact fits_failed s hs _ hv _
  split
  · exact maskOrPayload_fits o s _ hv hs hc hi rfl
  split
  · exact fits_failed s hs _ hv _
  split
  · exact fits_same s _ ⟨hv, hs, hc, hi⟩
  · exact fits_same s _ ⟨hv, hs, hc, hi⟩

theorem step_fits (o : Endian.Order) (s : Sc) (rx : Rx) (buf : List UInt8) (h : Agree rx s) {rx' : Rx} {buf' : List UInt8} {outs : List Out}
    (hst : step o rx buf = some (rx', buf', outs)) : Fits s (rx', outs) := by
  unfold step at hst
  unfold Agree at h
  obtain ⟨hv, h⟩ := h
  cases hcont : rx.cont <;> rw [hcont] at hst h <;> dsimp only at hst h
  · obtain ⟨h1, h2, h3⟩ := h
    cases buf with
    | nil => cases hst
    | cons b rest =>
      injection hst with hst
      have := header_fits s rx b hv h1 h2 h3
      rw [Prod.mk.injEq, Prod.mk.injEq] at hst
      obtain ⟨rfl, -, rfl⟩ := hst
      exact this
  · obtain ⟨h1, h2, h3⟩ := h
    cases buf with
    | nil => cases hst
    | cons b rest =>
      injection hst with hst
      have := firstLength_fits o s rx b hv h1 h2 h3
      rw [Prod.mk.injEq, Prod.mk.injEq] at hst
      obtain ⟨rfl, -, rfl⟩ := hst
      exact this
  · obtain ⟨h1, h2, h3⟩ := h
    by_cases hl : buf.length ≥ 2
    · rw [if_pos hl] at hst
      injection hst with hst
      rw [Prod.mk.injEq, Prod.mk.injEq] at hst
      obtain ⟨rfl, -, rfl⟩ := hst
      exact maskOrPayload_fits o s _ hv h1 h2 h3 rfl
    · rw [if_neg hl] at hst; cases hst
  · obtain ⟨h1, h2, h3⟩ := h
    by_cases hl : buf.length ≥ 8
    · rw [if_pos hl] at hst
      injection hst with hst
      rw [Prod.mk.injEq, Prod.mk.injEq] at hst
      obtain ⟨rfl, -, rfl⟩ := hst
      exact maskOrPayload_fits o s _ hv h1 h2 h3 rfl
    · rw [if_neg hl] at hst; cases hst
  · obtain ⟨h1, h2, h3, h4⟩ := h
    by_cases hl : buf.length ≥ 4
    · rw [if_pos hl] at hst
      injection hst with hst
      rw [Prod.mk.injEq, Prod.mk.injEq] at hst
      obtain ⟨rfl, -, rfl⟩ := hst
      exact readPayload_fits o s { rx with mask := WsSend.toMask (buf.take 4) } hv h1 h2 h3 h4
    · rw [if_neg hl] at hst; cases hst
  · obtain ⟨h1, h2, h3⟩ := h
    have key : (isControl rx.opcode = true ∧ rx.remaining ≤ buf.length ∨ isControl rx.opcode = false ∧ 1 ≤ buf.length) ∧ getPayload o rx buf = (rx', buf', outs) := by
      by_cases hctl : isControl rx.opcode = true
      · rw [if_pos hctl] at hst
        by_cases hl : buf.length ≥ rx.remaining
        · rw [if_pos hl] at hst
          injection hst with hst
          exact ⟨.inl ⟨hctl, hl⟩, hst⟩
        · rw [if_neg hl] at hst; cases hst
      · rw [if_neg hctl] at hst
        by_cases hl : buf.length ≥ 1
        · rw [if_pos hl] at hst
          injection hst with hst
          exact ⟨.inr ⟨by simpa using hctl, hl⟩, hst⟩
        · rw [if_neg hl] at hst; cases hst
    obtain ⟨hk, hst⟩ := key
    unfold getPayload at hst
    dsimp only at hst
    rcases hk with ⟨hk, hl⟩ | ⟨hk, hl⟩
    · simp only [hk, if_true] at hst
      rw [Prod.mk.injEq, Prod.mk.injEq] at hst
      obtain ⟨rfl, -, rfl⟩ := hst
      have h8 : 8 ≤ rx.opcode := by simpa [isControl] using hk
      refine handleFrame_fits o s rx _ hv ⟨h1, ?_⟩
      rcases h3 with ⟨a, b, c⟩ | ⟨-, -, c, -⟩
      · rcases b with ⟨-, b⟩ | ⟨b, -⟩
        · exact .inl ⟨h8, a, b⟩
        · omega
      · omega
    · have h8 : rx.opcode < 8 := by simpa [isControl] using hk
      simp only [hk, Bool.false_eq_true, if_false] at hst
      have hlen : (buf.take (min rx.remaining buf.length)).length = min rx.remaining buf.length := by rw [List.length_take]; omega
      have hne : buf.take (min rx.remaining buf.length) ≠ [] := by
        intro h; rw [h, List.length_nil] at hlen; omega
      generalize buf.take (min rx.remaining buf.length) = d at hlen hne hst
      rw [← hlen] at hst
      rw [Prod.mk.injEq, Prod.mk.injEq] at hst
      obtain ⟨rfl, -, rfl⟩ := hst
      have hle : d.length ≤ rx.remaining := by omega
      refine handleFrame_fits o s { rx with remaining := rx.remaining - d.length } d hv ⟨h1, .inr ⟨h8, ?_⟩⟩
      dsimp only
      rcases h3 with ⟨a, b, c⟩ | ⟨a, b, c, e, f⟩
      · rcases b with ⟨b, -⟩ | ⟨b1, b2, b3⟩
        · omega
        · exact ⟨b2, .inl ⟨a, .inr ⟨b1, b2, b3⟩, by omega, fun h => absurd h hne⟩⟩
      · refine ⟨f, .inr ⟨?_, by omega, c, hne, e⟩⟩
        rw [Nat.sub_add_cancel hle]; exact a
  · cases hst

theorem agree_addr {rx : Rx} {s : Sc} (a : Nat) (h : Agree rx s) : Agree { rx with addr := a } s := h

theorem pump_fits (o : Endian.Order) (fuel : Nat) (s : Sc) (rx : Rx) (buf : List UInt8) (h : Agree rx s) :
    Fits s ((pump o fuel rx buf).1, (pump o fuel rx buf).2.2) := by
  induction fuel generalizing s rx buf with
  | zero => exact ⟨s, rfl, h⟩
  | succ fuel ih =>
    unfold pump
    cases hst : step o rx buf with
    | none => exact ⟨s, rfl, h⟩
    | some r =>
      obtain ⟨rx1, buf1, outs⟩ := r
      obtain ⟨s1, e1, h1⟩ := step_fits o s rx buf h hst
      obtain ⟨s2, e2, h2⟩ := ih s1 { rx1 with addr := rx1.addr + (buf.length - buf1.length) } buf1 h1
      refine ⟨s2, ?_, h2⟩
      dsimp only
      rw [scanAll_append]
      dsimp only at e1
      rw [e1]; exact e2

theorem run_fits (o : Endian.Order) (ps : List (Nat × List UInt8)) (s : Sc) (rx : Rx) (buf : List UInt8) (h : Agree rx s) :
    Fits s ((run o rx buf ps).1, (run o rx buf ps).2.2) := by
  induction ps generalizing s rx buf with
  | nil => exact ⟨s, rfl, h⟩
  | cons p ps ih =>
    obtain ⟨a, p⟩ := p
    unfold run
    dsimp only
    obtain ⟨s1, e1, h1⟩ := pump_fits o ((buf ++ p).length + 1) s { rx with addr := a } (buf ++ p) (agree_addr a h)
    obtain ⟨s2, e2, h2⟩ := ih s1 (pump o ((buf ++ p).length + 1) { rx with addr := a } (buf ++ p)).1 (pump o ((buf ++ p).length + 1) { rx with addr := a } (buf ++ p)).2.1 h1
    refine ⟨s2, ?_, h2⟩
    rw [scanAll_append]
    dsimp only at e1
    rw [e1]; exact e2

end Cio.WsRecv
