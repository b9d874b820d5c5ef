import Verif.BufferedWrite.Props
/-
C15, exactly: what a write that is reported as successful has put on the wire, for every behaviour of the transport.
-/
namespace Cio.BufferedWrite

/-- The first `write_some` has come back and `total` is what is to go out altogether. -/
structure Rest (total : List UInt8) (w : World) : Prop where
  first : w.phase ≠ .first
  more : w.phase = .more → w.calls = [] ∧ w.wire ++ flat w.wbh = total
  done : ∀ c, (SUCCESS, c) ∈ w.calls → w.wire = total
  pref : w.wire <+: total

theorem rest_step {total : List UInt8} {w w' : World} {r : Resp} (h : Rest total w) (hp : Proper r) (hr : respond w r = some w') : Rest total w' := by
  have hph : w.phase = .more := by
    cases hq : w.phase with
    | first => exact absurd hq h.first
    | more => rfl
    | idle => cases r <;> simp only [respond, hq] at hr <;> cases hr
  obtain ⟨m1, m2⟩ := h.more hph
  cases r with
  | ok n =>
    simp only [respond, hph] at hr
    by_cases hn : n ≤ (flat w.wbh).length
    · rw [if_pos hn, Option.some.injEq] at hr
      obtain ⟨a1, a2⟩ := advance_eq w.chain n w.wbh hn
      simp only [handleWrite] at hr
      have ht : (w.wire ++ (flat w.wbh).take n) ++ flat (advance w.chain n w.wbh).2 = total := by rw [List.append_assoc, a2, m2]
      by_cases he : (advance w.chain n w.wbh).2 = []
      · rw [if_pos he] at hr
        subst hr
        rw [he, flat_nil, List.append_nil] at ht
        exact ⟨(by simp [callHandler]), (by simp [callHandler]), fun c _ => ht, by rw [← ht]; exact List.prefix_rfl⟩
      · rw [if_neg he] at hr
        subst hr
        refine ⟨(by simp), fun _ => ⟨m1, ht⟩, fun c hc => ?_, ⟨_, ht⟩⟩
        have hc : (SUCCESS, c) ∈ w.calls := hc
        rw [m1] at hc
        cases hc
    · rw [if_neg hn] at hr
      cases hr
  | err e =>
    simp only [respond, hph, Option.some.injEq] at hr
    subst hr
    refine ⟨(by simp [callHandler]), (by simp [callHandler]), fun c hc => ?_, h.pref⟩
    simp only [callHandler, m1, List.nil_append, List.mem_singleton, Prod.mk.injEq] at hc
    exact absurd hc.1.symm hp
  | sync e =>
    simp only [respond, hph, Option.some.injEq] at hr
    subst hr
    refine ⟨(by simp [callHandler]), (by simp [callHandler]), fun c hc => ?_, h.pref⟩
    simp only [callHandler, m1, List.nil_append, List.mem_singleton, Prod.mk.injEq] at hc
    exact absurd hc.1.symm hp

theorem rest_run {total : List UInt8} (rs : List Resp) {w w' : World} (h : Rest total w) (hp : ∀ r ∈ rs, Proper r) (hr : run w rs = some w') : Rest total w' := by
  induction rs generalizing w with
  | nil => simp only [run, Option.some.injEq] at hr; subst hr; exact h
  | cons r rs ih =>
    simp only [run] at hr
    cases hs : respond w r with
    | none => rw [hs] at hr; simp at hr
    | some v =>
      rw [hs] at hr
      exact ih (rest_step h (hp r List.mem_cons_self) hs) (fun x hx => hp x (List.mem_cons_of_mem _ hx)) hr

theorem respond_first (chain : List Elem) (n : Nat) :
    respond (write chain) (.ok n) = if n ≤ (flat chain).length then handleFirstWrite { phase := .first, chain := chain, wire := [] ++ (flat chain).take n } n else none := rfl

/-- If the first `write_some` ends within the last element, this is as if the chain had to be written twice. -/
theorem late_rest {chain : List Elem} {rs : List Resp} (hp : ∀ r ∈ rs, Proper r) (hf : ¬ FirstEndsEarly chain rs) {w : World} (hr : run (write chain) rs = some w) :
    Rest (flat chain ++ flat chain) w := by
  have : ∃ n, rs.head? = some (.ok n) ∧ ¬(n = (flat chain).length ∨ n < (flat chain.dropLast).length) := by
    unfold FirstEndsEarly at hf
    apply Classical.byContradiction
    intro g
    exact hf fun n hn => Classical.byContradiction fun q => g ⟨n, hn, q⟩
  obtain ⟨n, h1, h2⟩ := this
  cases rs with
  | nil => cases h1
  | cons r rs =>
    simp only [List.head?_cons, Option.some.injEq] at h1
    subst h1
    simp only [run] at hr
    cases hs : respond (write chain) (.ok n) with
    | none => rw [hs] at hr; simp at hr
    | some v =>
      rw [hs] at hr
      have hle : n ≤ (flat chain).length := by
        apply Classical.byContradiction
        intro g
        rw [respond_first, if_neg g] at hs
        cases hs
      have hne : chain ≠ [] := by
        intro g
        subst g
        rw [flat_nil] at hle
        exact h2 (Or.inl (by rw [flat_nil]; exact Nat.le_zero.1 hle))
      obtain ⟨pre, e, hc⟩ : ∃ pre e, chain = pre ++ [e] := ⟨chain.dropLast, chain.getLast hne, (List.dropLast_concat_getLast hne).symm⟩
      subst hc
      rw [List.dropLast_concat] at h2
      have hl : (flat (pre ++ [e])).length = (flat pre).length + e.data.length := by rw [flat_append, flat_cons, flat_nil, List.append_nil, List.length_append]
      obtain ⟨m, hm⟩ : ∃ m, n = (flat pre).length + m := ⟨n - (flat pre).length, by omega⟩
      subst hm
      obtain ⟨d1, d2⟩ := short_write_duplicates_always pre e m (by omega) v (by simp only [run, hs]; rfl)
      refine rest_run rs ⟨by rw [d1]; decide, fun _ => ⟨?_, d2⟩, fun c hcv => ?_, ⟨_, d2⟩⟩ (fun x hx => hp x (List.mem_cons_of_mem _ hx)) hr
      · exact calls_nil hs d1
      · rw [calls_nil hs d1] at hcv
        cases hcv
where
  calls_nil {chain : List Elem} {n : Nat} {v : World} (hs : respond (write chain) (.ok n) = some v) (d1 : v.phase = .more) : v.calls = [] := by
    rw [respond_first] at hs
    split at hs
    · simp only [handleFirstWrite] at hs
      split at hs
      · rw [Option.some.injEq] at hs
        subst hs
        cases d1
      · simp only [handlePartialWrites] at hs
        cases hf : findPartial n chain with
        | none => rw [hf] at hs; simp at hs
        | some x =>
          obtain ⟨pre, x, m, post⟩ := x
          rw [hf] at hs
          cases post <;> simp only [Option.bind_eq_bind, Option.bind_some, Option.some.injEq] at hs <;> subst hs <;> rfl
    · cases hs

/-- C15, exactly: a write that is reported as successful has put the bytes of the chain on the wire once if the first `write_some` took all of them or ended before the last
element, and twice otherwise, for every number, size and result of the further `write_some`. -/
theorem success_wire_partial (chain : List Elem) (hc : ∀ e ∈ chain, e.addr ≠ temp) (rs : List Resp) (hp : ∀ r ∈ rs, Proper r) (w : World) (hr : run (write chain) rs = some w)
    (c : List Elem) (hs : (SUCCESS, c) ∈ w.calls) :
    (FirstEndsEarly chain rs → w.wire = flat chain) ∧ (¬ FirstEndsEarly chain rs → w.wire = flat chain ++ flat chain) := by
  refine ⟨fun hf => ?_, fun hf => (late_rest hp hf hr).done c hs⟩
  obtain ⟨-, h2, h3⟩ := write_exactly_partial chain hc rs hp hf w hr
  have hid : w.phase = .idle := by
    apply Classical.byContradiction
    intro g
    rw [h2 g] at hs
    cases hs
  rcases h3 hid with ⟨e, c', q1, -, q2⟩ | ⟨q1, -⟩
  · rw [q1, List.mem_singleton, Prod.mk.injEq] at hs
    exact q2 hs.1.symm
  · rw [q1] at hs
    cases hs

/-- C15: at no time is anything but a beginning of two copies of the chain on the wire. -/
theorem wire_prefix_of_two (chain : List Elem) (hc : ∀ e ∈ chain, e.addr ≠ temp) (rs : List Resp) (hp : ∀ r ∈ rs, Proper r) (w : World) (hr : run (write chain) rs = some w) :
    w.wire <+: flat chain ++ flat chain := by
  by_cases hf : FirstEndsEarly chain rs
  · exact (write_exactly_partial chain hc rs hp hf w hr).1.trans (List.prefix_append _ _)
  · exact (late_rest hp hf hr).pref

/-- Both cases occur. -/
example : ∃ w, run (write [⟨7, [1, 2]⟩, ⟨8, [3, 4]⟩]) [.ok 1, .ok 2, .ok 1] = some w ∧ w.wire = [1, 2, 3, 4] ∧ (SUCCESS, [⟨7, [1, 2]⟩, ⟨8, [3, 4]⟩]) ∈ w.calls :=
  ⟨_, rfl, rfl, by decide⟩
example : ∃ w, run (write [⟨7, [1, 2]⟩, ⟨8, [3, 4]⟩]) [.ok 3, .ok 2, .ok 3] = some w ∧ w.wire = [1, 2, 3, 4, 1, 2, 3, 4] ∧ w.calls.map (·.1) = [SUCCESS] :=
  ⟨_, rfl, rfl, by decide⟩

end Cio.BufferedWrite
