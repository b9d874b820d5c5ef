import Mathlib.Tactic.Tauto
import Verif.BufferedWrite.Model
/-
C15, C16: buffered writes.
-/
namespace Cio.BufferedWrite

def keep (e : Elem) : Bool := !isTemp e

theorem flat_nil : flat [] = [] := rfl
theorem flat_cons (e : Elem) (b : List Elem) : flat (e :: b) = e.data ++ flat b := by simp [flat]
theorem flat_append (a b : List Elem) : flat (a ++ b) = flat a ++ flat b := by simp [flat]

theorem giveBack_eq (chain b : List Elem) : giveBack chain b = chain ++ b.filter keep := by
  induction b generalizing chain with
  | nil => simp [giveBack]
  | cons e rest ih =>
    simp only [giveBack, ih, List.filter_cons, keep]
    by_cases ht : isTemp e = true <;> simp [ht]

theorem advance_eq (chain : List Elem) (n : Nat) (b : List Elem) (h : n ≤ (flat b).length) :
    (advance chain n b).1 ++ (advance chain n b).2.filter keep = chain ++ b.filter keep ∧
    (flat b).take n ++ flat (advance chain n b).2 = flat b := by
  induction b generalizing chain n with
  | nil =>
    simp only [flat_nil, List.length_nil, Nat.le_zero] at h
    subst h
    simp [advance, flat_nil]
  | cons e rest ih =>
    simp only [advance]
    by_cases hp : e.data.length > n
    · rw [if_pos (by simp [partiallyWritten, hp])]
      refine ⟨?_, ?_⟩
      · simp only [List.filter_cons, keep, isTemp, temp]
        by_cases he : e.addr = 0 <;> simp [he]
      · rw [flat_cons, flat_cons, List.take_append_of_le_length (by omega), ← List.append_assoc, List.take_append_drop]
    · rw [if_neg (by simp [partiallyWritten]; omega)]
      rw [flat_cons, List.length_append] at h
      obtain ⟨i1, i2⟩ := ih (if isTemp e then chain else chain ++ [e]) (n - e.data.length) (by omega)
      refine ⟨?_, ?_⟩
      · rw [i1]
        simp only [List.filter_cons, keep]
        by_cases ht : isTemp e = true <;> simp [ht]
      · rw [flat_cons]
        have : List.take n (e.data ++ flat rest) = e.data ++ List.take (n - e.data.length) (flat rest) := by
          rw [List.take_append]
          rw [List.take_of_length_le (by omega)]
        rw [this, List.append_assoc, i2]

theorem findPartial_spec (n : Nat) (b : List Elem) (h : n < (flat b).length) :
    ∃ pre e m post, findPartial n b = some (pre, e, m, post) ∧ b = pre ++ e :: post ∧ n = (flat pre).length + m ∧ m < e.data.length := by
  induction b generalizing n with
  | nil => simp [flat_nil] at h
  | cons e rest ih =>
    simp only [findPartial]
    by_cases hp : e.data.length > n
    · rw [if_pos (by simp [partiallyWritten, hp])]
      exact ⟨[], e, n, rest, rfl, rfl, by simp [flat_nil], hp⟩
    · rw [if_neg (by simp [partiallyWritten]; omega)]
      rw [flat_cons, List.length_append] at h
      obtain ⟨pre, x, m, post, h1, h2, h3, h4⟩ := ih (n - e.data.length) (by omega)
      refine ⟨e :: pre, x, m, post, by rw [h1]; rfl, by rw [h2]; rfl, ?_, h4⟩
      rw [flat_cons, List.length_append]
      omega

/-- The invariant of a write of `chain0`, when the defect described below does not strike. -/
structure Inv (ns : Prop) (chain0 : List Elem) (w : World) : Prop where
  calls : w.phase ≠ .idle → w.calls = [] ∧ w.returned = none
  first : w.phase = .first → w.chain = chain0 ∧ w.wire = []
  chain : w.phase = .more → w.chain ++ w.wbh.filter keep = chain0
  wire : w.phase = .more → w.wire ++ flat w.wbh = flat chain0
  done : w.phase = .idle → (∃ e c, w.calls = [(e, c)] ∧ w.returned = none ∧ (e = SUCCESS → w.wire = flat chain0 ∧ c = chain0) ∧ (ns → c = chain0)) ∨
    (w.calls = [] ∧ (∃ e, w.returned = some e) ∧ w.wire = [] ∧ w.chain = chain0)
  pref : w.wire <+: flat chain0

/-- The transport reports no success through an error channel. -/
def Proper : Resp → Prop
  | .ok _ => True
  | .err e => e ≠ SUCCESS
  | .sync e => e ≠ SUCCESS

theorem respond_inv (ns : Prop) (chain0 : List Elem) (hc : ∀ e ∈ chain0, e.addr ≠ temp) (w w' : World) (r : Resp) (hp : Proper r) (h : Inv ns chain0 w)
    (hns : ns → ∀ e, r ≠ .sync e)
    (hfirst : w.phase = .first → ∀ n, r = .ok n → n = (flat chain0).length ∨ n < (flat chain0.dropLast).length)
    (hr : respond w r = some w') : Inv ns chain0 w' := by
  have hkeep : ∀ l : List Elem, (∀ e ∈ l, e.addr ≠ temp) → l.filter keep = l := by
    intro l hl
    rw [List.filter_eq_self]
    intro e he
    simp [keep, isTemp, hl e he]
  cases r with
  | ok n =>
    simp only [respond] at hr
    cases hph : w.phase with
    | idle => rw [hph] at hr; cases hr
    | first =>
      rw [hph] at hr
      simp only at hr
      obtain ⟨c1, c2⟩ := h.first hph
      obtain ⟨d1, d2⟩ := h.calls (by rw [hph]; simp)
      split at hr
      · rename_i hn
        rw [c1] at hn
        simp only [handleFirstWrite, c1] at hr
        split at hr
        · rename_i hall
          simp only [Option.some.injEq] at hr
          subst hr
          have hw : ([] : List UInt8) ++ List.take n (flat chain0) = flat chain0 := by rw [hall, List.take_length]; rfl
          refine ⟨fun hh => absurd rfl hh, fun hh => (by cases hh), fun hh => (by cases hh), fun hh => (by cases hh), ?_, ?_⟩
          · intro _
            refine Or.inl ⟨SUCCESS, chain0, by simp [callHandler, d1, c1], d2, fun _ => ⟨by simp only [callHandler, c2]; exact hw, rfl⟩, fun _ => rfl⟩
          · simp only [callHandler, c2, hw]; exact List.prefix_refl _
        · rename_i hall
          have hlt : n < (flat chain0.dropLast).length := by
            rcases hfirst hph n rfl with h1 | h1
            · exact absurd h1 hall
            · exact h1
          obtain ⟨pre, e, m, post, f1, f2, f3, f4⟩ := findPartial_spec n chain0 (by omega)
          have hpost : post ≠ [] := by
            intro hp0
            subst hp0
            rw [f2, List.dropLast_concat] at hlt
            omega
          simp only [handlePartialWrites, c1, f1, Option.bind_eq_bind, Option.bind_some] at hr
          cases post with
          | nil => exact absurd rfl hpost
          | cons p ps =>
            simp only [Option.some.injEq] at hr
            subst hr
            have hwire : List.take n (flat chain0) ++ (e.data.drop m ++ flat (p :: ps)) = flat chain0 := by
              rw [f2, flat_append, flat_cons, f3, List.take_length_add_append, List.take_append_of_le_length (by omega)]
              simp only [List.append_assoc]
              rw [← List.append_assoc (List.take m e.data), List.take_append_drop]
            refine ⟨fun _ => ⟨d1, d2⟩, fun hh => (by cases hh), fun _ => ?_, fun _ => ?_, fun hh => (by cases hh), ?_⟩
            · show (pre ++ [e]) ++ List.filter keep (⟨temp, _⟩ :: p :: ps) = chain0
              rw [List.filter_cons, if_neg (by simp [keep, isTemp]), hkeep (p :: ps) (by
                intro x hx; apply hc; rw [f2]; simp only [List.mem_append, List.mem_cons] at hx ⊢; tauto), f2]
              simp
            · show (w.wire ++ List.take n (flat chain0)) ++ flat (⟨temp, List.drop m e.data⟩ :: p :: ps) = flat chain0
              rw [c2, flat_cons, List.nil_append]; exact hwire
            · show w.wire ++ List.take n (flat chain0) <+: flat chain0
              rw [c2, List.nil_append]; exact List.take_prefix _ _
      · cases hr
    | more =>
      rw [hph] at hr
      simp only at hr
      obtain ⟨d1, d2⟩ := h.calls (by rw [hph]; simp)
      split at hr
      · rename_i hn
        simp only [Option.some.injEq] at hr
        obtain ⟨a1, a2⟩ := advance_eq w.chain n w.wbh hn
        have e1 := h.chain hph
        have e2 := h.wire hph
        simp only [handleWrite] at hr
        revert hr a1 a2
        generalize advance w.chain n w.wbh = r
        obtain ⟨ch, wb⟩ := r
        simp only
        intro a1 a2 hr
        have hwire : (w.wire ++ List.take n (flat w.wbh)) ++ flat wb = flat chain0 := by rw [List.append_assoc, a2, e2]
        by_cases hwb : wb = []
        · rw [if_pos hwb] at hr
          subst hr
          subst hwb
          simp only [List.filter_nil, List.append_nil, flat_nil] at a1 hwire
          refine ⟨fun hh => absurd rfl hh, fun hh => (by cases hh), fun hh => (by cases hh), fun hh => (by cases hh), fun _ => ?_, ?_⟩
          · exact Or.inl ⟨SUCCESS, ch, by simp [callHandler, d1], d2, fun _ => ⟨hwire, by rw [a1, e1]⟩, fun _ => by rw [a1, e1]⟩
          · simp only [callHandler]; rw [hwire]; exact List.prefix_refl _
        · rw [if_neg hwb] at hr
          subst hr
          refine ⟨fun _ => ⟨d1, d2⟩, fun hh => (by cases hh), fun _ => (by simp only; rw [a1, e1]), fun _ => hwire, fun hh => (by cases hh), ?_⟩
          simp only
          rw [← hwire]; exact List.prefix_append _ _
      · cases hr
  | err e =>
    simp only [respond] at hr
    simp only [Proper] at hp
    cases hph : w.phase with
    | idle => rw [hph] at hr; cases hr
    | first =>
      rw [hph] at hr
      obtain ⟨c1, c2⟩ := h.first hph
      obtain ⟨d1, d2⟩ := h.calls (by rw [hph]; simp)
      simp only [Option.some.injEq] at hr
      subst hr
      exact ⟨fun hh => absurd rfl hh, fun hh => (by cases hh), fun hh => (by cases hh), fun hh => (by cases hh),
        fun _ => Or.inl ⟨e, w.chain, by simp [callHandler, d1], d2, fun hh => absurd hh hp, fun _ => c1⟩, h.pref⟩
    | more =>
      rw [hph] at hr
      obtain ⟨d1, d2⟩ := h.calls (by rw [hph]; simp)
      simp only [Option.some.injEq] at hr
      subst hr
      exact ⟨fun hh => absurd rfl hh, fun hh => (by cases hh), fun hh => (by cases hh), fun hh => (by cases hh),
        fun _ => Or.inl ⟨e, giveBack w.chain w.wbh, by simp [callHandler, d1], d2, fun hh => absurd hh hp,
          fun _ => by rw [giveBack_eq]; exact h.chain hph⟩, h.pref⟩
  | sync e =>
    simp only [respond] at hr
    simp only [Proper] at hp
    cases hph : w.phase with
    | idle => rw [hph] at hr; cases hr
    | first =>
      rw [hph] at hr
      obtain ⟨c1, c2⟩ := h.first hph
      obtain ⟨d1, d2⟩ := h.calls (by rw [hph]; simp)
      simp only [Option.some.injEq] at hr
      subst hr
      exact ⟨fun hh => absurd rfl hh, fun hh => (by cases hh), fun hh => (by cases hh), fun hh => (by cases hh),
        fun _ => Or.inr ⟨d1, ⟨e, rfl⟩, c2, c1⟩, h.pref⟩
    | more =>
      rw [hph] at hr
      obtain ⟨d1, d2⟩ := h.calls (by rw [hph]; simp)
      simp only [Option.some.injEq] at hr
      subst hr
      exact ⟨fun hh => absurd rfl hh, fun hh => (by cases hh), fun hh => (by cases hh), fun hh => (by cases hh),
        fun _ => Or.inl ⟨e, w.chain, by simp [callHandler, d1], d2, fun hh => absurd hh hp, fun hn => absurd rfl (hns hn e)⟩, h.pref⟩

/-- The first answer of the transport is complete, an error, or ends before the last element of the chain. -/
def FirstEndsEarly (chain : List Elem) (rs : List Resp) : Prop :=
  ∀ n, rs.head? = some (.ok n) → n = (flat chain).length ∨ n < (flat chain.dropLast).length

theorem respond_phase (w w' : World) (r : Resp) (h : respond w r = some w') : w'.phase ≠ .first := by
  cases r with
  | ok n =>
    simp only [respond] at h
    cases hp : w.phase <;> rw [hp] at h <;> simp only at h
    · split at h
      · simp only [handleFirstWrite] at h
        split at h
        · simp only [Option.some.injEq] at h; subst h; simp [callHandler]
        · simp only [handlePartialWrites] at h
          cases hf : findPartial n w.chain with
          | none => rw [hf] at h; simp at h
          | some x =>
            rw [hf] at h
            obtain ⟨pre, e, m, post⟩ := x
            simp only [Option.bind_eq_bind, Option.bind_some] at h
            cases post <;> simp only [Option.some.injEq] at h <;> subst h <;> simp
      · cases h
    · split at h
      · simp only [Option.some.injEq] at h
        subst h
        simp only [handleWrite]
        split
        · simp [callHandler]
        · simp
      · cases h
    · cases h
  | err e =>
    simp only [respond] at h
    cases hp : w.phase <;> rw [hp] at h <;> simp only [Option.some.injEq] at h <;> first | (subst h; simp [callHandler]) | cases h
  | sync e =>
    simp only [respond] at h
    cases hp : w.phase <;> rw [hp] at h <;> simp only [Option.some.injEq] at h <;> first | (subst h; simp [callHandler]) | cases h

theorem run_inv (ns : Prop) (chain0 : List Elem) (hc : ∀ e ∈ chain0, e.addr ≠ temp) (rs : List Resp) (w w' : World)
    (hp : ∀ r ∈ rs, Proper r) (hns : ns → ∀ r ∈ rs, ∀ e, r ≠ .sync e) (h : Inv ns chain0 w)
    (hf : w.phase = .first → FirstEndsEarly chain0 rs) (hr : run w rs = some w') : Inv ns chain0 w' := by
  induction rs generalizing w with
  | nil => simp only [run, Option.some.injEq] at hr; subst hr; exact h
  | cons r rs ih =>
    simp only [run] at hr
    cases hs : respond w r with
    | none => rw [hs] at hr; simp at hr
    | some v =>
      rw [hs] at hr
      refine ih v (fun x hx => hp x (by simp [hx])) (fun hn x hx => hns hn x (by simp [hx])) ?_ (fun hh => absurd hh (respond_phase w v r hs)) hr
      exact respond_inv ns chain0 hc w v r (hp r (by simp)) h (fun hn => hns hn r (by simp))
        (fun h1 n hn => hf h1 n (by simp [hn])) hs

theorem write_inv (ns : Prop) (chain0 : List Elem) : Inv ns chain0 (write chain0) :=
  ⟨fun _ => ⟨rfl, rfl⟩, fun _ => ⟨rfl, rfl⟩, fun hh => (by cases hh), fun hh => (by cases hh), fun hh => (by cases hh), List.nil_prefix⟩

/-- C15, full claim: whatever the transport does, only the chain's bytes go out, in order and at most once, the handler is called exactly once
(not at all exactly if `cio_buffered_stream_write` itself returned an error), and success is reported only when everything is out. -/
def WritesExactly (chain : List Elem) (w : World) : Prop :=
  w.wire <+: flat chain ∧
  (w.phase ≠ .idle → w.calls = []) ∧
  (w.phase = .idle → (∃ e c, w.calls = [(e, c)] ∧ w.returned = none ∧ (e = SUCCESS → w.wire = flat chain)) ∨
    (w.calls = [] ∧ (∃ e, w.returned = some e) ∧ w.wire = []))

/-- C15, partial.  Missing: the case that the first `write_some` ends within the last element of the chain (in particular any short write
of a chain of one element); the claim is false then, see `short_write_duplicates`. -/
theorem write_exactly_partial (chain : List Elem) (hc : ∀ e ∈ chain, e.addr ≠ temp) (rs : List Resp) (hp : ∀ r ∈ rs, Proper r)
    (hf : FirstEndsEarly chain rs) (w : World) (hr : run (write chain) rs = some w) : WritesExactly chain w := by
  have i := run_inv False chain hc rs (write chain) w hp (fun h => h.elim) (write_inv False chain) (fun _ => hf) hr
  refine ⟨i.pref, fun h => (i.calls h).1, fun h => ?_⟩
  rcases i.done h with ⟨e, c, h1, h2, h3, h4⟩ | ⟨h1, h2, h3, h4⟩
  · exact Or.inl ⟨e, c, h1, h2, fun he => (h3 he).1⟩
  · exact Or.inr ⟨h1, h2, h3⟩

/-- C16, full claim: when the handler is called the caller's write buffer has its original contents. -/
def ChainGivenBack (chain : List Elem) (w : World) : Prop := ∀ e c, (e, c) ∈ w.calls → c = chain

/-- C16, partial.  Missing: the case as above, and failures which `write_some` reports by its return value when called again for the rest of
the data; the claim is false then, see `sync_error_keeps_elements`. -/
theorem chain_given_back_partial (chain : List Elem) (hc : ∀ e ∈ chain, e.addr ≠ temp) (rs : List Resp) (hp : ∀ r ∈ rs, Proper r)
    (hf : FirstEndsEarly chain rs) (hns : ∀ r ∈ rs, ∀ e, r ≠ .sync e) (w : World) (hr : run (write chain) rs = some w) :
    ChainGivenBack chain w := by
  have i := run_inv True chain hc rs (write chain) w hp (fun _ => hns) (write_inv True chain) (fun _ => hf) hr
  intro e c hec
  by_cases hph : w.phase = .idle
  · rcases i.done hph with ⟨e', c', h1, h2, h3, h4⟩ | ⟨h1, h2, h3, h4⟩
    · rw [h1] at hec
      simp only [List.mem_singleton, Prod.mk.injEq] at hec
      rw [hec.2]; exact h4 trivial
    · rw [h1] at hec; cases hec
  · rw [(i.calls hph).1] at hec; cases hec

/-- C16: on success the chain is given back, also if `write_some` may fail synchronously. -/
theorem chain_given_back_on_success_partial (chain : List Elem) (hc : ∀ e ∈ chain, e.addr ≠ temp) (rs : List Resp)
    (hp : ∀ r ∈ rs, Proper r) (hf : FirstEndsEarly chain rs) (w : World) (hr : run (write chain) rs = some w) (c : List Elem)
    (hec : (SUCCESS, c) ∈ w.calls) : c = chain := by
  have i := run_inv False chain hc rs (write chain) w hp (fun h => h.elim) (write_inv False chain) (fun _ => hf) hr
  by_cases hph : w.phase = .idle
  · rcases i.done hph with ⟨e', c', h1, h2, h3, h4⟩ | ⟨h1, h2, h3, h4⟩
    · rw [h1] at hec
      simp only [List.mem_singleton, Prod.mk.injEq] at hec
      rw [hec.2]; exact (h3 hec.1.symm).2
    · rw [h1] at hec; cases hec
  · rw [(i.calls hph).1] at hec; cases hec

/-- A write that is not finished can always continue, and each answer of the transport brings it forward: what is still to be written gets shorter
by what was transferred.  So a transport that transfers something each time finishes the write. -/
theorem write_progress (chain : List Elem) (hc : ∀ e ∈ chain, e.addr ≠ temp) (rs : List Resp) (hp : ∀ r ∈ rs, Proper r)
    (hf : FirstEndsEarly chain rs) (w : World) (hr : run (write chain) rs = some w) (hph : w.phase = .more) (n : Nat)
    (hn : w.wire.length + n ≤ (flat chain).length) :
    ∃ w', respond w (.ok n) = some w' ∧ w'.wire.length = w.wire.length + n ∧
      (w'.phase = .idle ∨ (w'.phase = .more ∧ w'.wire.length < (flat chain).length)) := by
  have i := run_inv False chain hc rs (write chain) w hp (fun h => h.elim) (write_inv False chain) (fun _ => hf) hr
  have hl := congrArg List.length (i.wire hph)
  rw [List.length_append] at hl
  have hle : n ≤ (flat w.wbh).length := by omega
  simp only [respond, hph, if_pos hle]
  refine ⟨_, rfl, ?_⟩
  obtain ⟨a1, a2⟩ := advance_eq w.chain n w.wbh hle
  simp only [handleWrite]
  revert a1 a2
  have hne : ∀ (ch : List Elem) (k : Nat) (b : List Elem), (advance ch k b).2 ≠ [] → flat (advance ch k b).2 ≠ [] := by
    intro ch k b
    induction b generalizing ch k with
    | nil => intro h; exact absurd rfl h
    | cons e rest ih =>
      simp only [advance]
      split
      · rename_i hpw
        intro _
        simp only [partiallyWritten, decide_eq_true_eq] at hpw
        rw [flat_cons]
        intro h0
        have := congrArg List.length h0
        simp at this; omega
      · exact ih _ _
  have hne' := hne w.chain n w.wbh
  revert hne'
  generalize advance w.chain n w.wbh = r
  obtain ⟨ch, wb⟩ := r
  simp only
  intro hne' a1 a2
  have hlen : (w.wire ++ List.take n (flat w.wbh)).length = w.wire.length + n := by
    rw [List.length_append, List.length_take, Nat.min_eq_left hle]
  by_cases hwb : wb = []
  · rw [if_pos hwb]
    exact ⟨hlen, Or.inl rfl⟩
  · rw [if_neg hwb]
    refine ⟨hlen, Or.inr ⟨rfl, ?_⟩⟩
    have h2 := congrArg List.length a2
    rw [List.length_append, List.length_take, Nat.min_eq_left hle] at h2
    have h3 : 0 < (flat wb).length := List.length_pos_iff.mpr (hne' hwb)
    show (w.wire ++ List.take n (flat w.wbh)).length < _
    omega

/-! ### The code violates the full claims -/

/-- A write of one element of two bytes, of which the transport first takes one: the bytes 1 2 get out as 1 2 1 2, reported as success. -/
theorem short_write_duplicates :
    ∃ chain rs w, (∀ e ∈ chain, e.addr ≠ temp) ∧ (∀ r ∈ rs, Proper r) ∧ run (write chain) rs = some w ∧ flat chain = [1, 2] ∧
      w.wire = [1, 2, 1, 2] ∧ w.calls.map (·.1) = [SUCCESS] ∧ ¬ WritesExactly chain w := by
  refine ⟨[⟨7, [1, 2]⟩], [.ok 1, .ok 3], _, by simp [temp], by simp [Proper], rfl, rfl, rfl, rfl, ?_⟩
  rintro ⟨⟨t, ht⟩, _⟩
  have := congrArg List.length ht
  simp [flat] at this
  have h4 : ∀ l : List UInt8, l.length = 4 → l.length + t.length = 2 → False := by intro l h1 h2; omega
  exact h4 _ rfl this

/-- In general: whenever the first `write_some` ends within the last element, and the transport takes the rest in one go, everything that
remained goes out followed by a second copy of the whole chain. -/
theorem short_write_duplicates_always (pre : List Elem) (e : Elem) (m : Nat) (hm : m < e.data.length)
    (w : World) (h : run (write (pre ++ [e])) [.ok ((flat pre).length + m)] = some w) :
    w.phase = .more ∧ w.wire ++ flat w.wbh = flat (pre ++ [e]) ++ flat (pre ++ [e]) := by
  have hfl : flat (pre ++ [e]) = flat pre ++ e.data := by rw [flat_append, flat_cons, flat_nil, List.append_nil]
  have hlen : (flat pre).length + m < (flat (pre ++ [e])).length := by rw [hfl, List.length_append]; omega
  obtain ⟨pre', e', m', post, f1, f2, f3, f4⟩ := findPartial_spec ((flat pre).length + m) (pre ++ [e]) hlen
  have hpost : post = [] := by
    cases hp : post with
    | nil => rfl
    | cons p ps =>
      exfalso
      subst hp
      have hsplit : pre ++ [e] = (pre' ++ e' :: (p :: ps).dropLast) ++ [(p :: ps).getLast (by simp)] := by
        rw [f2, List.append_assoc, List.cons_append, List.dropLast_concat_getLast]
      have := List.append_inj' hsplit rfl
      have hl := congrArg (fun l => (flat l).length) this.1
      simp only [flat_append, flat_cons, List.length_append] at hl
      omega
  subst hpost
  have := List.append_inj' f2 rfl
  obtain ⟨q1, q2⟩ := this
  simp only [List.cons.injEq, and_true] at q2
  subst q1 q2
  have hmm : m' = m := by omega
  subst hmm
  simp only [run, respond, write, if_pos (Nat.le_of_lt hlen), handleFirstWrite, if_neg (Nat.ne_of_lt hlen), handlePartialWrites, f1,
    Option.bind_eq_bind, Option.bind_some, Option.some.injEq] at h
  subst h
  refine ⟨rfl, ?_⟩
  show (([] : List UInt8) ++ List.take ((flat pre).length + m') (flat (pre ++ [e]))) ++ flat (⟨temp, e.data.drop m'⟩ :: (pre ++ [e])) = _
  rw [flat_cons, List.nil_append, hfl, List.take_length_add_append, ← List.append_assoc, List.append_assoc (flat pre),
    List.take_append_drop, List.append_assoc]

/-- After a short write, `write_some` fails at once for the rest: the handler finds only one of three elements in its write buffer. -/
theorem sync_error_keeps_elements :
    ∃ chain rs w, (∀ e ∈ chain, e.addr ≠ temp) ∧ (∀ r ∈ rs, Proper r) ∧ FirstEndsEarly chain rs ∧ run (write chain) rs = some w ∧
      ¬ ChainGivenBack chain w := by
  refine ⟨[⟨7, [1, 2]⟩, ⟨8, [3]⟩, ⟨9, [4]⟩], [.ok 1, .sync (-32)], _, by simp [temp], by simp [Proper, SUCCESS], ?_, rfl, ?_⟩
  · intro n hn
    simp only [List.head?_cons, Option.some.injEq, Resp.ok.injEq] at hn
    subst hn
    exact Or.inr (by decide)
  · intro h
    exact absurd (h (-32) [⟨7, [1, 2]⟩] (by simp [callHandler])) (by decide)

/-! ### The theorems are about something -/

example : ∃ w, run (write [⟨7, [1, 2, 3]⟩, ⟨8, []⟩, ⟨9, [4, 5]⟩]) [.ok 1, .ok 0, .ok 3, .ok 1] = some w ∧
    w.wire = [1, 2, 3, 4, 5] ∧ w.calls = [(SUCCESS, [⟨7, [1, 2, 3]⟩, ⟨8, []⟩, ⟨9, [4, 5]⟩])] := ⟨_, rfl, rfl, rfl⟩
example : FirstEndsEarly [⟨7, [1, 2, 3]⟩, ⟨8, []⟩, ⟨9, [4, 5]⟩] [.ok 1, .ok 0, .ok 3, .ok 1] := by
  intro n hn; simp at hn; subst hn; exact Or.inr (by decide)

end Cio.BufferedWrite
