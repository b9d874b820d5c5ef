import Verif.WsRecv.Step
/-
From one run of a handler to the whole stream.
-/
namespace Cio.WsRecv
open Rfc6455 Masking

section
variable (o : Endian.Order) (sc : Bool)

theorem inv_header {sc rx p} (h : Inv sc rx p) : Inv sc { rx with cont := .header } p :=
  inv_cont h _ (by simp) (by simp) (by simp) (by simp)

theorem step_spec (rx rx' : Rx) (p buf buf' : List UInt8) (outs : List Out) (hi : Inv sc rx p) (hs : step o rx buf = some (rx', buf', outs)) :
    buf'.length < buf.length ∧
    Res sc p (fun fut => expect (onClose o sc) rx (buf ++ fut)) (fun fut => expect (onClose o sc) rx' (buf' ++ fut)) rx' outs := by
  have hh := inv_header hi
  unfold step at hs
  split at hs
  · next hc =>
    have e : ∀ fut, expect (onClose o sc) rx fut = receive rx.isServer (onClose o sc) rx.frag fut := by intro fut; unfold expect; rw [hc]
    simp only [e]
    split at hs
    · next b rest =>
      simp only [Option.some.injEq, Prod.mk.injEq] at hs
      obtain ⟨rfl, rfl, rfl⟩ := hs
      exact ⟨by simp, getHeader_spec o sc rx p hh b rest⟩
    · cases hs
  · next hc =>
    have e : ∀ fut, expect (onClose o sc) rx fut = firstE (onClose o sc) rx fut := by intro fut; unfold expect; rw [hc]
    simp only [e]
    split at hs
    · next b rest =>
      simp only [Option.some.injEq, Prod.mk.injEq] at hs
      obtain ⟨rfl, rfl, rfl⟩ := hs
      exact ⟨by simp, getFirstLength_spec o sc rx p hh b rest⟩
    · cases hs
  · next hc =>
    have e : ∀ fut, expect (onClose o sc) rx fut = lenE (onClose o sc) 2 rx fut := by intro fut; unfold expect; rw [hc]
    simp only [e]
    split at hs
    · next hl =>
      simp only [Option.some.injEq, Prod.mk.injEq] at hs
      obtain ⟨rfl, rfl, rfl⟩ := hs
      exact ⟨by rw [List.length_drop]; omega, getLength_spec o sc rx p hh (hi.len (.inl hc)) 2 buf hl⟩
    · cases hs
  · next hc =>
    have e : ∀ fut, expect (onClose o sc) rx fut = lenE (onClose o sc) 8 rx fut := by intro fut; unfold expect; rw [hc]
    simp only [e]
    split at hs
    · next hl =>
      simp only [Option.some.injEq, Prod.mk.injEq] at hs
      obtain ⟨rfl, rfl, rfl⟩ := hs
      exact ⟨by rw [List.length_drop]; omega, getLength_spec o sc rx p hh (hi.len (.inr hc)) 8 buf hl⟩
    · cases hs
  · next hc =>
    split at hs
    · next hl =>
      simp only [Option.some.injEq, Prod.mk.injEq] at hs
      obtain ⟨rfl, rfl, rfl⟩ := hs
      refine ⟨by rw [List.length_drop]; omega, ?_⟩
      have e : ∀ fut, expect (onClose o sc) rx (buf ++ fut) = payE (onClose o sc) { rx with mask := WsSend.toMask (buf.take 4) } (buf.drop 4 ++ fut) := by
        intro fut; unfold expect; rw [hc]
        simp only
        rw [if_neg (by rw [List.length_append]; omega), List.take_append_of_le_length hl, List.drop_append_of_le_length hl]
      simp only [e]
      refine readPayload_spec o sc { rx with mask := WsSend.toMask (buf.take 4) } p ?_ (fun h => hi.ctl (.inr hc) h) (buf.drop 4)
      exact ⟨hh.self, hh.frag, hh.utf8, hh.pay, hh.ctl, hh.len, hh.live⟩
    · cases hs
  · next hc =>
    have e : ∀ fut, expect (onClose o sc) rx fut = payE (onClose o sc) rx fut := by intro fut; unfold expect; rw [hc]
    simp only [e]
    have hpos := hi.pay hc
    by_cases hk : rx.opcode ≥ 8
    · have hct : isControl rx.opcode = true := by simpa [isControl] using hk
      rw [if_pos hct] at hs
      split at hs
      · next hl =>
        simp only [Option.some.injEq, getPayload, hct, if_true, Prod.mk.injEq] at hs
        obtain ⟨rfl, rfl, rfl⟩ := hs
        refine ⟨by rw [List.length_drop]; omega, ?_⟩
        have hl' : (buf.take rx.remaining).length = rx.remaining := by rw [List.length_take]; omega
        have := handleFrame_any o sc { rx with cont := .header } p hh (buf.take rx.remaining) (buf.drop rx.remaining) rx.remaining
          (fun _ => ⟨hl', by rw [hl']; exact hi.ctl (.inl hc) hk, rfl⟩) (fun h => absurd hk (by simpa using h))
        rw [handleFrame_cont] at this
        simp only [← List.append_assoc, List.take_append_drop] at this
        exact this
      · cases hs
    · have hct : ¬ isControl rx.opcode = true := by simpa [isControl] using hk
      rw [if_neg hct] at hs
      split at hs
      · next hl =>
        simp only [Option.some.injEq, getPayload, hct, Bool.false_eq_true, if_false, Prod.mk.injEq] at hs
        obtain ⟨rfl, rfl, rfl⟩ := hs
        have hm : min rx.remaining buf.length ≥ 1 := by omega
        refine ⟨by rw [List.length_drop]; omega, ?_⟩
        have hl' : (buf.take (min rx.remaining buf.length)).length = min rx.remaining buf.length := by rw [List.length_take]; omega
        have hi2 : Inv sc { rx with cont := .header, remaining := rx.remaining - min rx.remaining buf.length } p :=
          ⟨hh.self, hh.frag, hh.utf8, fun h => (by cases h), fun h => (by rcases h with h | h <;> cases h), hh.len, hh.live⟩
        have := handleFrame_any o sc _ p hi2 (buf.take (min rx.remaining buf.length))
          (buf.drop (min rx.remaining buf.length)) rx.remaining (fun h => absurd h hk)
          (fun _ => ⟨.inr (by intro h0; rw [h0] at hl'; simp at hl'; omega), by rw [hl']; show _ = rx.remaining - _ + _; omega, by
            intro h0
            have h0' : rx.remaining - min rx.remaining buf.length ≠ 0 := h0
            apply List.drop_eq_nil_of_le; omega⟩)
        rw [handleFrame_cont o { rx with remaining := rx.remaining - min rx.remaining buf.length } .header] at this
        simp only [← List.append_assoc, List.take_append_drop] at this
        exact this
      · cases hs
  · cases hs

theorem step_none (rx : Rx) (p buf : List UInt8) (hi : Inv sc rx p) (hs : step o rx buf = none) : expect (onClose o sc) rx buf = [] := by
  unfold step at hs
  unfold expect
  split at hs
  · next hc =>
    rw [hc]
    split at hs
    · cases hs
    · exact receive_nil _ _ _
  · next hc =>
    rw [hc]
    split at hs
    · cases hs
    · rfl
  · next hc =>
    rw [hc]
    split at hs
    · cases hs
    · next hl => exact if_pos (by omega)
  · next hc =>
    rw [hc]
    split at hs
    · cases hs
    · next hl => exact if_pos (by omega)
  · next hc =>
    rw [hc]
    split at hs
    · cases hs
    · next hl => exact if_pos (by omega)
  · next hc =>
    rw [hc]
    simp only
    have hpos := hi.pay hc
    unfold payE
    by_cases hk : rx.opcode ≥ 8
    · have hct : isControl rx.opcode = true := by simpa [isControl] using hk
      rw [if_pos hct] at hs
      rw [if_pos hk]
      split at hs
      · cases hs
      · next hl =>
        rw [if_pos (by simpa using hl)]
        rfl
    · have hct : ¬ isControl rx.opcode = true := by simpa [isControl] using hk
      rw [if_neg hct] at hs
      rw [if_neg hk]
      split at hs
      · cases hs
      · next hl =>
        have hb : buf = [] := by
          cases buf with
          | nil => rfl
          | cons x l => simp at hl
        subst hb
        rw [if_pos (show decide (rx.remaining ≤ ([] : List UInt8).length) = false by simp; omega)]
        rw [if_neg (show ¬ (rx.remaining = 0 ∨ ([] : List UInt8) ≠ []) by simp; omega)]
        simp only [List.take_nil]
        split
        · unfold um; split <;> rfl
        · rfl
  · next hc =>
    rw [hc]

/-- Two results in a row. -/
theorem Res.trans {p : List UInt8} {e1 e2 e3 : List UInt8 → List Seen} {rx1 rx2 : Rx} {o1 o2 : List Out}
    (h1 : Res sc p e1 e2 rx1 o1) (hg : rx1.cont ≠ .stopped)
    (h2 : Inv sc rx1 (pend p (seen o1)) → Res sc (pend p (seen o1)) e2 e3 rx2 o2) : Res sc p e1 e3 rx2 (o1 ++ o2) := by
  cases h1 with
  | bad q d n fin he hstop => exact absurd hstop hg
  | good h inv wf cut =>
    cases h2 inv with
    | good h' inv' wf' cut' =>
      refine .good ?_ ?_ ?_ ?_
      rotate_right
      · intro b n hlast
        rw [seen_append, pend_append]
        rw [seen_append, List.getLast?_append] at hlast
        cases hl : (seen o2).getLast? with
        | some x =>
          rw [hl] at hlast
          exact cut' b n (hl.trans hlast)
        | none =>
          rw [hl] at hlast
          rw [List.getLast?_eq_none_iff.mp hl]
          exact cut b n hlast
      · intro fut
        rw [seen_append, List.append_assoc, h', h]
      · rw [seen_append, pend_append]; exact inv'
      · rw [seen_append, texts_append]
        intro m hm
        rcases List.mem_append.mp hm with hm | hm
        · exact wf m hm
        · exact wf' m hm
    | bad q d n fin he hstop wf' hshow why ne =>
      refine .bad (o1 ++ q) d n fin (by rw [he, List.append_assoc]) hstop ?_ ?_ ?_ ?_
      rotate_right
      · rcases ne with ne | ne
        · exact .inl ne
        · right
          intro fut
          obtain ⟨x, hx⟩ := ne fut
          exact ⟨x, by rw [← h, hx, seen_append]; simp⟩
      · rw [seen_append, texts_append]
        intro m hm
        rcases List.mem_append.mp hm with hm | hm
        · exact wf m hm
        · exact wf' m hm
      · intro fut
        obtain ⟨x, hx⟩ := hshow fut
        exact ⟨x, by rw [← h, hx, seen_append]; simp⟩
      · rw [seen_append, pend_append]
        rcases why with w | ⟨w1, w2, w⟩
        · exact .inl w
        · refine .inr ⟨w1, w2, ?_⟩
          rcases w with w | w
          · left
            intro fut
            obtain ⟨x, hx⟩ := w fut
            exact ⟨x, by rw [← h, hx]; simp⟩
          · right
            refine ⟨w.1, ?_⟩
            rw [← h, w.2]; simp

theorem step_stopped (rx : Rx) (buf : List UInt8) (h : rx.cont = .stopped) : step o rx buf = none := by
  unfold step; rw [h]

theorem pump_stopped (fuel : Nat) (rx : Rx) (buf : List UInt8) (h : rx.cont = .stopped) : pump o fuel rx buf = (rx, buf, []) := by
  cases fuel with
  | zero => rfl
  | succ fuel => rw [pump, step_stopped o rx buf h]

theorem run_stopped (rx : Rx) (buf : List UInt8) (ps : List (Nat × List UInt8)) (h : rx.cont = .stopped) : (run o rx buf ps).2.2 = [] ∧
    (run o rx buf ps).1.cont = .stopped := by
  induction ps generalizing rx buf with
  | nil => exact ⟨rfl, h⟩
  | cons q ps ih =>
    obtain ⟨a, q⟩ := q
    rw [run, pump_stopped o _ { rx with addr := a } _ h]
    exact ih { rx with addr := a } _ h

theorem inv_addr {sc rx p} (a : Nat) (h : Inv sc rx p) : Inv sc { rx with addr := a } p :=
  ⟨h.self, h.frag, h.utf8, h.pay, h.ctl, h.len, h.live⟩

theorem Res.refl {p : List UInt8} {e : List UInt8 → List Seen} {rx : Rx} (h : Inv sc rx p) : Res sc p e e rx [] :=
  .good (fun _ => rfl) h (fun _ h => by cases h)

theorem pump_spec (fuel : Nat) (rx : Rx) (p buf : List UInt8) (hi : Inv sc rx p) (hf : buf.length < fuel) :
    Res sc p (fun fut => expect (onClose o sc) rx (buf ++ fut)) (fun fut => expect (onClose o sc) (pump o fuel rx buf).1 ((pump o fuel rx buf).2.1 ++ fut))
      (pump o fuel rx buf).1 (pump o fuel rx buf).2.2 ∧ step o (pump o fuel rx buf).1 (pump o fuel rx buf).2.1 = none := by
  induction fuel generalizing rx p buf with
  | zero => omega
  | succ fuel ih =>
    rw [pump]
    split
    · next hs => exact ⟨.refl sc hi, hs⟩
    · next rx1 buf1 outs hs =>
      obtain ⟨hlen, hres⟩ := step_spec o sc rx rx1 p buf buf1 outs hi hs
      generalize hrx2 : ({ rx1 with addr := rx1.addr + (buf.length - buf1.length) } : Rx) = rx2
      have hres2 : Res sc p (fun fut => expect (onClose o sc) rx (buf ++ fut)) (fun fut => expect (onClose o sc) rx2 (buf1 ++ fut)) rx2 outs := by
        subst hrx2
        cases hres with
        | good h inv wf cut => exact .good h (inv_addr _ inv) wf cut
        | bad q d n fin he hstop wf hshow why ne => exact .bad q d n fin he hstop wf hshow why ne
      by_cases hstop : rx2.cont = .stopped
      · simp only [pump_stopped o fuel rx2 buf1 hstop, List.append_nil]
        exact ⟨hres2, step_stopped o _ _ hstop⟩
      · refine ⟨.trans sc hres2 hstop (fun inv => (ih rx2 _ buf1 inv (by omega)).1), ?_⟩
        cases hres2 with
        | good h inv wf => exact (ih rx2 _ buf1 inv (by omega)).2
        | bad q d n fin he hs' => exact absurd hs' hstop

/-- The whole stream: either everything that was to be seen was seen and every text message completed is well-formed; or a text message was
rejected.  `R` is the reading of the stream, `pieces` are the pieces it arrives in. -/
inductive Outcome (p : List UInt8) (R : List UInt8 → List Seen) (pieces : List (List UInt8)) (outs : List Out) : Prop
  | good (h : seen outs = R pieces.flatten) (wf : ∀ m ∈ texts p (seen outs), Utf8.WellFormed m)
      (live : ∃ suffix, Utf8.WellFormed (pend p (seen outs) ++ suffix))
      (cut : ∀ k b n, (R (pieces.take k).flatten).getLast? = some (.byte b n true false) → Utf8.WellFormed (pend p (R (pieces.take k).flatten)))
  | bad (q : List Out) (d : List UInt8) (n : Nat) (fin : Bool) (he : outs = q ++ [.fail 1007])
      (wf : ∀ m ∈ texts p (seen q), Utf8.WellFormed m)
      (hshow : ∃ x, R pieces.flatten = seen q ++ d.map (fun b => Seen.byte b n fin false) ++ x)
      (why : (∀ suffix, ¬ Utf8.WellFormed (pend p (seen q) ++ d ++ suffix)) ∨
        (fin = true ∧ ¬ Utf8.WellFormed (pend p (seen q) ++ d) ∧
        ((∃ x, R pieces.flatten = seen q ++ d.map (fun b => Seen.byte b n fin false) ++ Seen.frameEnd n fin false :: x) ∨
          (d ≠ [] ∧ ∃ k, R (pieces.take k).flatten = seen q ++ d.map (fun b => Seen.byte b n fin false)))))
      (ne : d ≠ [] ∨ ∃ x, R pieces.flatten = seen q ++ Seen.frameEnd n fin false :: x)

theorem live_suffix {p : List UInt8} (h : Utf8.run 0 p ≠ 12) : ∃ suffix, Utf8.WellFormed (p ++ suffix) := by
  refine Classical.byContradiction fun hn => h ((Utf8.run_reject_iff _).mpr fun suffix hw => hn ⟨suffix, hw⟩)

theorem run_spec (rx : Rx) (p buf : List UInt8) (ps : List (Nat × List UInt8)) (hi : Inv sc rx p) (hb : step o rx buf = none) :
    Outcome p (fun s => expect (onClose o sc) rx (buf ++ s)) (ps.map Prod.snd) (run o rx buf ps).2.2 := by
  induction ps generalizing rx p buf with
  | nil =>
    refine .good ?_ (fun _ h => by cases h) ?_ ?_
    rotate_left
    · exact live_suffix hi.live
    · intro k b n hlast
      simp only [List.map_nil, List.take_nil, List.flatten_nil, List.append_nil, step_none o sc rx p buf hi hb] at hlast
      cases hlast
    rw [List.map_nil, List.flatten_nil, List.append_nil, step_none o sc rx p buf hi hb]
    rfl
  | cons q ps ih =>
    obtain ⟨a, q⟩ := q
    rw [run]
    generalize hpm : pump o ((buf ++ q).length + 1) { rx with addr := a } (buf ++ q) = pm
    obtain ⟨rx1, buf1, outs⟩ := pm
    have hps := pump_spec o sc ((buf ++ q).length + 1) { rx with addr := a } p (buf ++ q) (inv_addr a hi) (by omega)
    rw [hpm] at hps
    obtain ⟨hres, hnone⟩ := hps
    simp only at hres hnone ⊢
    have ea : ∀ s, expect (onClose o sc) { rx with addr := a } s = expect (onClose o sc) rx s := fun _ => rfl
    simp only [ea] at hres
    cases hres with
    | good h inv wf cut =>
      have h2 := ih rx1 _ buf1 inv hnone
      cases h2 with
      | good h' wf' live' cut' =>
        refine .good ?_ ?_ ?_ ?_
        rotate_left 2
        · rw [seen_append, pend_append]; exact live'
        · intro k b n hlast
          cases k with
          | zero =>
            simp only [List.take_zero, List.flatten_nil, List.append_nil, step_none o sc rx p buf hi hb] at hlast
            cases hlast
          | succ k =>
            rw [List.map_cons, List.take_succ_cons, List.flatten_cons, ← List.append_assoc buf, ← h] at hlast ⊢
            rw [pend_append]
            rw [List.getLast?_append] at hlast
            cases hl : (expect (onClose o sc) rx1 (buf1 ++ ((ps.map Prod.snd).take k).flatten)).getLast? with
            | some x =>
              rw [hl] at hlast
              exact cut' k b n (hl.trans hlast)
            | none =>
              rw [hl] at hlast
              rw [List.getLast?_eq_none_iff.mp hl]
              exact (Utf8.run_zero_iff _).mp (cut b n hlast)
        · rw [seen_append, h']
          rw [h]; simp
        · rw [seen_append, texts_append]
          intro m hm
          rcases List.mem_append.mp hm with hm | hm
          · exact wf m hm
          · exact wf' m hm
      | bad q' d n fin he wf' hshow why ne =>
        refine .bad (outs ++ q') d n fin (by rw [he, List.append_assoc]) ?_ ?_ ?_ ?_
        rotate_right
        · rcases ne with ne | ⟨x, hx⟩
          · exact .inl ne
          · right
            refine ⟨x, ?_⟩
            rw [List.map_cons, List.flatten_cons, ← List.append_assoc buf, ← h, hx, seen_append]; simp
        · rw [seen_append, texts_append]
          intro m hm
          rcases List.mem_append.mp hm with hm | hm
          · exact wf m hm
          · exact wf' m hm
        · obtain ⟨x, hx⟩ := hshow
          refine ⟨x, ?_⟩
          rw [List.map_cons, List.flatten_cons, ← List.append_assoc buf, ← h, hx, seen_append]; simp
        · rw [seen_append, pend_append]
          rcases why with w | ⟨w1, w2, w⟩
          · exact .inl w
          · refine .inr ⟨w1, w2, ?_⟩
            rcases w with ⟨x, hx⟩ | ⟨hd, k, hk⟩
            · left
              refine ⟨x, ?_⟩
              rw [List.map_cons, List.flatten_cons, ← List.append_assoc buf, ← h, hx]; simp
            · right
              refine ⟨hd, k + 1, ?_⟩
              rw [List.map_cons, List.take_succ_cons, List.flatten_cons, ← List.append_assoc buf, ← h, hk]; simp
    | bad q' d n fin he hstop wf hshow why ne =>
      have hr := run_stopped o rx1 buf1 ps hstop
      simp only [hr.1, List.append_nil]
      refine .bad q' d n fin he wf ?_ ?_ ?_
      rotate_right
      · rcases ne with ne | ne
        · exact .inl ne
        · right
          obtain ⟨x, hx⟩ := ne ((ps.map Prod.snd).flatten)
          refine ⟨x, ?_⟩
          rw [List.map_cons, List.flatten_cons, ← List.append_assoc buf]; exact hx
      · obtain ⟨x, hx⟩ := hshow ((ps.map Prod.snd).flatten)
        refine ⟨x, ?_⟩
        rw [List.map_cons, List.flatten_cons, ← List.append_assoc buf]; exact hx
      · rcases why with w | ⟨w1, w2, w⟩
        · exact .inl ((Utf8.run_reject_iff _).mp w)
        · refine .inr ⟨w1, fun hw => w2 ((Utf8.run_zero_iff _).mpr hw), ?_⟩
          rcases w with w | w
          · left
            obtain ⟨x, hx⟩ := w ((ps.map Prod.snd).flatten)
            refine ⟨x, ?_⟩
            rw [List.map_cons, List.flatten_cons, ← List.append_assoc buf]; exact hx
          · right
            refine ⟨w.1, 1, ?_⟩
            simp only [List.map_cons, List.take_succ_cons, List.take_zero, List.flatten_cons, List.flatten_nil]
            rw [← List.append_assoc buf]
            exact w.2

end
end Cio.WsRecv
