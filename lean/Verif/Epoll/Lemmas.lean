import Verif.Epoll.Spec
/-
The model of the event loop behaves as its specification.
-/
namespace Cio.Epoll

/-- The events in positions `i` to `num - 1`. -/
def slice (ev : Nat → Nat × Ev) (i num : Nat) : List (Nat × Ev) := (List.range' i (num - i)).map ev

theorem slice_cons {ev : Nat → Nat × Ev} {i num : Nat} (h : i < num) : slice ev i num = ev i :: slice ev (i + 1) num := by
  unfold slice
  rw [show num - i = (num - (i + 1)) + 1 by omega, List.range'_succ, List.map_cons]

theorem slice_nil {ev : Nat → Nat × Ev} {i num : Nat} (h : num ≤ i) : slice ev i num = [] := by
  unfold slice
  rw [show num - i = 0 by omega]
  rfl

theorem slice_congr {ev ev' : Nat → Nat × Ev} {i num : Nat} (h : ∀ j, i ≤ j → j < num → ev j = ev' j) :
    slice ev i num = slice ev' i num := by
  unfold slice
  apply List.map_congr_left
  intro j hj
  rw [List.mem_range'_1] at hj
  exact h j hj.1 (by omega)

theorem slice_shift {ev : Nat → Nat × Ev} {i num : Nat} (h : i < num) :
    slice (fun j => ev (j + 1)) i (num - 1) = slice ev (i + 1) num := by
  unfold slice
  rw [show num - (i + 1) = num - 1 - i by omega]
  generalize num - 1 - i = k
  clear h
  induction k generalizing i with
  | zero => rfl
  | succ k ih => rw [List.range'_succ, List.range'_succ, List.map_cons, List.map_cons, ih]

/-- The fields that `erase_pending_event` does not touch. -/
def SameRest (s r : St) : Prop := r.heap = s.heap ∧ r.counter = s.counter ∧ r.current = s.current ∧ r.log = s.log ∧ r.ub = s.ub

theorem eraseLoop_spec (n : Nat) (k : Nat) : ∀ (s : St) (i : Nat), k = s.num - i → i ≤ s.num →
    slice (eraseLoop s n k i).events i (eraseLoop s n k i).num = (slice s.events i s.num).eraseP (fun x => x.1 = n) ∧
    (∀ j < i, (eraseLoop s n k i).events j = s.events j) ∧ i ≤ (eraseLoop s n k i).num ∧ SameRest s (eraseLoop s n k i) := by
  induction k with
  | zero =>
    intro s i hk hi
    have : s.num = i := by omega
    refine ⟨?_, fun _ _ => rfl, hi, rfl, rfl, rfl, rfl, rfl⟩
    simp only [eraseLoop]
    rw [slice_nil (by omega)]
    rfl
  | succ k ih =>
    intro s i hk hi
    have hlt : i < s.num := by omega
    simp only [eraseLoop]
    by_cases h : (s.events i).1 = n
    · simp only [if_pos h]
      refine ⟨?_, ?_, by show i ≤ s.num - 1; omega, rfl, rfl, rfl, rfl, rfl⟩
      · rw [slice_cons hlt, List.eraseP_cons_of_pos (by simpa using h), ← slice_shift hlt]
        apply slice_congr
        intro j h1 h2
        rw [if_pos ⟨h1, by omega⟩]
      · intro j hj
        show (if i ≤ j ∧ j < i + (s.num - (i + 1)) then s.events (j + 1) else s.events j) = s.events j
        rw [if_neg (by omega)]
    · simp only [if_neg h]
      obtain ⟨h1, h2, h3, h4⟩ := ih s (i + 1) (by omega) (by omega)
      refine ⟨?_, fun j hj => h2 j (by omega), by omega, h4⟩
      rw [slice_cons (show i < (eraseLoop s n k (i + 1)).num by omega), h1, h2 i (by omega), slice_cons hlt,
        List.eraseP_cons_of_neg (by simpa using h)]

theorem eraseP_nodup (n : Nat) (l : List (Nat × Ev)) (h : (l.map Prod.fst).Nodup) :
    l.eraseP (fun x => x.1 = n) = l.filter (fun x => x.1 ≠ n) := by
  induction l with
  | nil => rfl
  | cons a as ih =>
    simp only [List.map_cons, List.nodup_cons] at h
    by_cases ha : a.1 = n
    · rw [List.eraseP_cons_of_pos (by simpa using ha), List.filter_cons_of_neg (by simpa using ha)]
      symm
      rw [List.filter_eq_self]
      intro x hx
      have : x.1 ≠ n := fun hxn => h.1 (by rw [ha, ← hxn]; exact List.mem_map_of_mem hx)
      simpa using this
    · rw [List.eraseP_cons_of_neg (by simpa using ha), List.filter_cons_of_pos (by simpa using ha), ih h.2]

/-! ### The heap is what the log says -/

structure HeapOK (s : St) : Prop where
  zero : s.heap 0 = ⟨true, true, true, false⟩
  added : ∀ n, n ≠ 0 → (s.heap n).inKernel = added n s.log
  alive : ∀ n, (s.heap n).inKernel = true → (s.heap n).alive = true
  read : ∀ n, n ≠ 0 → (s.heap n).regIn = wantsRead n s.log
  write : ∀ n, n ≠ 0 → (s.heap n).regOut = wantsWrite n s.log

theorem HeapOK.legal {s : St} (h : HeapOK s) (o : Op) : legal s o = allowed s.log o := by
  have key : ∀ n, (decide (n ≠ 0) && (s.heap n).inKernel) = (decide (n ≠ 0) && Epoll.added n s.log) := by
    intro n
    by_cases hn : n = 0
    · simp [hn]
    · rw [h.added n hn]
  cases o with
  | add n ok =>
    show (decide (n ≠ 0) && !(s.heap n).inKernel) = (decide (n ≠ 0) && !Epoll.added n s.log)
    by_cases hn : n = 0
    · simp [hn]
    · rw [h.added n hn]
  | cancel => rfl
  | registerRead n ok => exact key n
  | unregisterRead n ok => exact key n
  | registerWrite n ok => exact key n
  | unregisterWrite n ok => exact key n
  | remove n => exact key n

theorem added_snoc (n : Nat) (l : Log) (o : Obs) : added n (l ++ [o]) = (match o with
    | .op (.add m ok) => if m = n then ok else added n l
    | .op (.remove m) => if m = n then false else added n l
    | _ => added n l) := by
  unfold added
  rw [List.foldl_append]
  rfl

theorem wantsRead_snoc (n : Nat) (l : Log) (o : Obs) : wantsRead n (l ++ [o]) = (match o with
    | .op (.add m _) => if m = n then false else wantsRead n l
    | .op (.registerRead m _) => if m = n then true else wantsRead n l
    | .op (.unregisterRead m _) => if m = n then false else wantsRead n l
    | _ => wantsRead n l) := by
  unfold wantsRead
  rw [List.foldl_append]
  rfl

theorem wantsWrite_snoc (n : Nat) (l : Log) (o : Obs) : wantsWrite n (l ++ [o]) = (match o with
    | .op (.add m _) => if m = n then false else wantsWrite n l
    | .op (.registerWrite m _) => if m = n then true else wantsWrite n l
    | .op (.unregisterWrite m _) => if m = n then false else wantsWrite n l
    | .write m _ => if m = n then false else wantsWrite n l
    | _ => wantsWrite n l) := by
  unfold wantsWrite
  rw [List.foldl_append]
  rfl

theorem removed_snoc (n : Nat) (l : Log) (o : Obs) : removed n (l ++ [o]) = (removed n l || o == .op (.remove n)) := by
  unfold removed
  rw [List.contains_append]
  simp only [List.contains_cons, List.contains_nil, Bool.or_false]
  congr 1
  rw [Bool.eq_iff_iff]
  simp only [beq_iff_eq]
  exact eq_comm

theorem setN_heap (s : St) (n : Nat) (f : Notifier → Notifier) (x : Nat) :
    (setN s n f).heap x = if x = n then f (s.heap x) else s.heap x := rfl

theorem erasePending_same (s : St) (n : Nat) : SameRest s (erasePending s n) := by
  unfold erasePending
  by_cases h' : s.counter + 1 ≤ s.num
  · exact (eraseLoop_spec n _ s _ rfl h').2.2.2
  · rw [show s.num - (s.counter + 1) = 0 by omega]
    exact ⟨rfl, rfl, rfl, rfl, rfl⟩

/-- What removing a notifier does to the heap. -/
theorem remove_heap (s : St) (n x : Nat) :
    (remove s n).heap x = if x = n then { s.heap x with inKernel := false, alive := false } else s.heap x := by
  have h := erasePending_same (setN s n fun e => { e with inKernel := false }) n
  unfold remove
  simp only
  split
  · rw [setN_heap]
    show (if x = n then _ else (erasePending _ n).heap x) = _
    rw [h.1, setN_heap]
    by_cases hx : x = n <;> simp [hx]
  · rw [setN_heap, h.1, setN_heap]
    by_cases hx : x = n <;> simp [hx]

theorem remove_log (s : St) (n : Nat) : (remove s n).log = s.log := by
  have h := erasePending_same (setN s n fun e => { e with inKernel := false }) n
  unfold remove
  simp only
  split
  · exact h.2.2.2.1
  · exact h.2.2.2.1

theorem remove_ub (s : St) (n : Nat) : (remove s n).ub = s.ub := by
  have h := erasePending_same (setN s n fun e => { e with inKernel := false }) n
  unfold remove
  simp only
  split
  · exact h.2.2.2.2
  · exact h.2.2.2.2

theorem remove_counter (s : St) (n : Nat) : (remove s n).counter = s.counter := by
  have h := erasePending_same (setN s n fun e => { e with inKernel := false }) n
  unfold remove
  simp only
  split
  · exact h.2.1
  · exact h.2.1

theorem remove_current (s : St) (n : Nat) : (remove s n).current = if s.current = some n then none else s.current := by
  have h := erasePending_same (setN s n fun e => { e with inKernel := false }) n
  unfold remove
  simp only
  rw [show (erasePending (setN s n fun e => { e with inKernel := false }) n).current = s.current from h.2.2.1]
  split
  · rfl
  · exact h.2.2.1

theorem remove_slice (s : St) (n : Nat) (h : s.counter < s.num) :
    slice (remove s n).events (s.counter + 1) (remove s n).num = (slice s.events (s.counter + 1) s.num).eraseP (fun x => x.1 = n) ∧
    s.counter < (remove s n).num := by
  have h1 := eraseLoop_spec n _ (setN s n fun e => { e with inKernel := false }) (s.counter + 1) rfl h
  unfold remove
  simp only
  split
  · exact ⟨h1.1, h1.2.2.1⟩
  · exact ⟨h1.1, h1.2.2.1⟩

theorem doOp_log (s : St) (o : Op) (h : HeapOK s) : (doOp s o).log = specOp s.log o := by
  unfold doOp specOp
  rw [h.legal]
  by_cases hl : allowed s.log o
  · rw [if_pos hl, if_pos hl]
    cases o <;> first | rfl | exact remove_log _ _
  · rw [if_neg hl, if_neg hl]

theorem doOp_ub (s : St) (o : Op) : (doOp s o).ub = s.ub := by
  unfold doOp
  split
  · cases o <;> first | rfl | exact remove_ub _ _
  · rfl

theorem doOp_heapOK (s : St) (o : Op) (h : HeapOK s) : HeapOK (doOp s o) := by
  unfold doOp
  by_cases hl : legal s o = true
  · rw [if_pos hl]
    obtain ⟨hz, ha, hv, hr, hw⟩ := h
    cases o with
    | cancel =>
      refine ⟨hz, fun n hn => ?_, hv, fun n hn => ?_, fun n hn => ?_⟩
      · rw [show (applyOp { s with log := s.log ++ [.op .cancel] } .cancel).log = s.log ++ [.op .cancel] from rfl, added_snoc]; exact ha n hn
      · rw [show (applyOp { s with log := s.log ++ [.op .cancel] } .cancel).log = s.log ++ [.op .cancel] from rfl, wantsRead_snoc]; exact hr n hn
      · rw [show (applyOp { s with log := s.log ++ [.op .cancel] } .cancel).log = s.log ++ [.op .cancel] from rfl, wantsWrite_snoc]; exact hw n hn
    | remove m =>
      have hm : m ≠ 0 := by
        simp only [legal, Bool.and_eq_true, decide_eq_true_eq] at hl
        exact hl.1
      simp only [applyOp]
      refine ⟨?_, fun n hn => ?_, fun n => ?_, fun n hn => ?_, fun n hn => ?_⟩
      · rw [remove_heap, if_neg (fun h => hm h.symm)]; exact hz
      · rw [remove_heap, remove_log]
        show _ = added n (s.log ++ [.op (.remove m)])
        rw [added_snoc]
        by_cases hnm : n = m
        · simp [hnm]
        · simp [hnm, Ne.symm (show n ≠ m from hnm), ha n hn]
      · rw [remove_heap]
        by_cases hnm : n = m
        · simp [hnm]
        · simpa [hnm] using hv n
      · rw [remove_heap, remove_log]
        show _ = wantsRead n (s.log ++ [.op (.remove m)])
        rw [wantsRead_snoc]
        by_cases hnm : n = m
        · simp only [hnm, if_true]; exact hr m hm
        · simpa [hnm] using hr n hn
      · rw [remove_heap, remove_log]
        show _ = wantsWrite n (s.log ++ [.op (.remove m)])
        rw [wantsWrite_snoc]
        by_cases hnm : n = m
        · simp only [hnm, if_true]; exact hw m hm
        · simpa [hnm] using hw n hn
    | add m ok =>
      have hm : m ≠ 0 := by
        simp only [legal, Bool.and_eq_true, decide_eq_true_eq] at hl
        exact hl.1
      simp only [applyOp]
      refine ⟨?_, fun n hn => ?_, fun n => ?_, fun n hn => ?_, fun n hn => ?_⟩
      · rw [setN_heap, if_neg (fun h => hm h.symm)]; exact hz
      · rw [setN_heap]
        show _ = added n (s.log ++ [.op (.add m ok)])
        rw [added_snoc]
        by_cases hnm : n = m
        · simp [hnm]
        · simpa [hnm, Ne.symm (show n ≠ m from hnm)] using ha n hn
      · rw [setN_heap]
        by_cases hnm : n = m
        · simp [hnm]
        · simpa [hnm] using hv n
      · rw [setN_heap]
        show _ = wantsRead n (s.log ++ [.op (.add m ok)])
        rw [wantsRead_snoc]
        by_cases hnm : n = m
        · simp [hnm]
        · simpa [hnm, Ne.symm (show n ≠ m from hnm)] using hr n hn
      · rw [setN_heap]
        show _ = wantsWrite n (s.log ++ [.op (.add m ok)])
        rw [wantsWrite_snoc]
        by_cases hnm : n = m
        · simp [hnm]
        · simpa [hnm, Ne.symm (show n ≠ m from hnm)] using hw n hn
    | registerRead m ok | unregisterRead m ok | registerWrite m ok | unregisterWrite m ok =>
      have hm : m ≠ 0 := by
        simp only [legal, Bool.and_eq_true, decide_eq_true_eq] at hl
        exact hl.1
      simp only [applyOp]
      refine ⟨?_, fun n hn => ?_, fun n => ?_, fun n hn => ?_, fun n hn => ?_⟩
      · rw [setN_heap, if_neg (fun h => hm h.symm)]; exact hz
      · rw [setN_heap]
        simp only [setN]
        rw [added_snoc]
        by_cases hnm : n = m
        · subst hnm; simpa using ha n hn
        · simpa [hnm, Ne.symm (show n ≠ m from hnm)] using ha n hn
      · rw [setN_heap]
        by_cases hnm : n = m
        · subst hnm; simpa using hv n
        · simpa [hnm] using hv n
      · rw [setN_heap]
        simp only [setN]
        rw [wantsRead_snoc]
        by_cases hnm : n = m
        · subst hnm; first | simp; done | simpa using hr n hn
        · simpa [hnm, Ne.symm (show n ≠ m from hnm)] using hr n hn
      · rw [setN_heap]
        simp only [setN]
        rw [wantsWrite_snoc]
        by_cases hnm : n = m
        · subst hnm; first | simp; done | simpa using hw n hn
        · simpa [hnm, Ne.symm (show n ≠ m from hnm)] using hw n hn
  · rw [if_neg hl]; exact h

/-! ### Callbacks inside a batch -/

/-- The state while callbacks of the event of notifier `n` run; `tail` are the events reported behind it, `start` is the length of
the log when they were reported. -/
structure Mid (start n : Nat) (tail : List (Nat × Ev)) (s : St) : Prop where
  heap : HeapOK s
  lt : s.counter < s.num
  pend : slice s.events (s.counter + 1) s.num = tail.filter (fun x => !removed x.1 (s.log.drop start))
  cur : s.current = if removed n (s.log.drop start) then none else some n
  inK : ∀ x ∈ tail, removed x.1 (s.log.drop start) = false → (s.heap x.1).inKernel = true
  inKn : removed n (s.log.drop start) = false → (s.heap n).inKernel = true
  nodup : (n :: tail.map Prod.fst).Nodup
  start : start ≤ s.log.length

theorem Mid.push {start n : Nat} {tail : List (Nat × Ev)} {s : St} (h : Mid start n tail s) {o : Obs} (ho : ∀ m, o ≠ .op (.remove m)) (m : Nat) :
    removed m ((s.log ++ [o]).drop start) = removed m (s.log.drop start) := by
  rw [List.drop_append_of_le_length h.start, removed_snoc]
  have : (o == .op (.remove m)) = false := by
    rw [beq_eq_false_iff_ne]; exact ho m
  rw [this, Bool.or_false]

/-- A change of the heap that keeps notifiers in the kernel, together with a new log entry that is no removal. -/
theorem Mid.upd {start n : Nat} {tail : List (Nat × Ev)} {s s' : St} (h : Mid start n tail s) {o : Obs} (ho : ∀ m, o ≠ .op (.remove m))
    (hheap : HeapOK s') (hlog : s'.log = s.log ++ [o]) (hc : s'.counter = s.counter) (hn : s'.num = s.num) (he : s'.events = s.events)
    (hcur : s'.current = s.current) (hk : ∀ m, (s.heap m).inKernel = true → (s'.heap m).inKernel = true) : Mid start n tail s' := by
  have hp := h.push ho
  refine ⟨hheap, by rw [hc, hn]; exact h.lt, ?_, ?_, ?_, ?_, h.nodup, ?_⟩
  · rw [hc, hn, he, hlog, h.pend]
    simp only [hp]
  · rw [hlog, hp, hcur]; exact h.cur
  · intro x hx hr
    rw [hlog, hp] at hr
    exact hk _ (h.inK x hx hr)
  · intro hr
    rw [hlog, hp] at hr
    exact hk _ (h.inKn hr)
  · rw [hlog]
    have := h.start
    simp only [List.length_append, List.length_cons, List.length_nil]
    omega

theorem doOp_mid {start n : Nat} {tail : List (Nat × Ev)} {s : St} (h : Mid start n tail s) (o : Op) : Mid start n tail (doOp s o) := by
  have hh := doOp_heapOK s o h.heap
  have hlog := doOp_log s o h.heap
  by_cases hl : legal s o = true
  · have hal : allowed s.log o = true := by rw [← h.heap.legal]; exact hl
    rw [specOp, if_pos hal] at hlog
    by_cases hrem : ∃ m, o = .remove m
    · obtain ⟨m, rfl⟩ := hrem
      have hd : doOp s (.remove m) = remove { s with log := s.log ++ [.op (.remove m)] } m := by
        unfold doOp; rw [if_pos hl]; rfl
      have hr : ∀ x, removed x ((s.log ++ [Obs.op (.remove m)]).drop start) = (removed x (s.log.drop start) || decide (x = m)) := by
        intro x
        rw [List.drop_append_of_le_length h.start, removed_snoc]
        congr 1
        rw [Bool.eq_iff_iff, beq_iff_eq, decide_eq_true_eq]
        constructor
        · intro h
          injection h with h
          injection h with h
          exact h.symm
        · rintro rfl
          rfl
      obtain ⟨hs1, hs2⟩ := remove_slice { s with log := s.log ++ [.op (.remove m)] } m h.lt
      have hcnt := remove_counter { s with log := s.log ++ [.op (.remove m)] } m
      have hcur := remove_current { s with log := s.log ++ [.op (.remove m)] } m
      have hhp := fun x => remove_heap { s with log := s.log ++ [.op (.remove m)] } m x
      rw [← hd] at hs1 hs2 hcnt hcur
      simp only [← hd] at hhp
      simp only at hs1 hs2 hcnt hcur hhp
      have hnd := (List.nodup_cons.mp h.nodup).2
      have hsub : ((tail.filter (fun x => !removed x.1 (s.log.drop start))).map Prod.fst).Nodup :=
        (List.Sublist.map Prod.fst List.filter_sublist).nodup hnd
      refine ⟨hh, by rw [hcnt]; exact hs2, ?_, ?_, ?_, ?_, h.nodup, ?_⟩
      · rw [hcnt, hs1, h.pend, eraseP_nodup _ _ hsub, List.filter_filter, hlog]
        congr 1
        funext x
        rw [hr, Bool.not_or]
        by_cases hx : x.1 = m <;> simp [hx]
      · rw [hcur, hlog, hr, h.cur]
        by_cases hx : removed n (s.log.drop start) = true
        · simp [hx]
        · simp only [Bool.not_eq_true] at hx
          by_cases hnm : n = m
          · simp [hx, hnm]
          · simp [hx, hnm]
      · intro x hx hrx
        rw [hlog, hr, Bool.or_eq_false_iff, decide_eq_false_iff_not] at hrx
        rw [hhp, if_neg hrx.2]
        exact h.inK x hx hrx.1
      · intro hrx
        rw [hlog, hr, Bool.or_eq_false_iff, decide_eq_false_iff_not] at hrx
        rw [hhp, if_neg hrx.2]
        exact h.inKn hrx.1
      · rw [hlog]
        have := h.start
        simp only [List.length_append, List.length_cons, List.length_nil]
        omega
    · refine h.upd (o := .op o) ?_ hh hlog ?_ ?_ ?_ ?_ ?_
      · intro m hm
        injection hm with hm
        exact hrem ⟨m, hm⟩
      all_goals
        unfold doOp
        rw [if_pos hl]
        cases o with
        | remove m => exact absurd ⟨m, rfl⟩ hrem
        | cancel => first | rfl | (intro m hm; exact hm)
        | add n ok =>
          first
          | rfl
          | (intro m hm
             show (if m = n then _ else s.heap m).inKernel = true
             simp only [legal, Bool.and_eq_true, Bool.not_eq_true'] at hl
             have : m ≠ n := by
               intro hmn
               rw [hmn, hl.2] at hm
               exact Bool.noConfusion hm
             rw [if_neg this]; exact hm)
        | registerRead n ok | unregisterRead n ok | registerWrite n ok | unregisterWrite n ok =>
          first
          | rfl
          | (intro m hm
             simp only [applyOp, setN]
             split <;> exact hm)
  · have : doOp s o = s := by unfold doOp; rw [if_neg hl]
    rw [this]; exact h

theorem ops_mid {start n : Nat} {tail : List (Nat × Ev)} (ops : List Op) {s : St} (h : Mid start n tail s) :
    Mid start n tail (ops.foldl doOp s) ∧ (ops.foldl doOp s).log = ops.foldl specOp s.log ∧ (ops.foldl doOp s).ub = s.ub := by
  induction ops generalizing s with
  | nil => exact ⟨h, rfl, rfl⟩
  | cons o os ih =>
    obtain ⟨h1, h2, h3⟩ := ih (doOp_mid h o)
    simp only [List.foldl_cons]
    refine ⟨h1, ?_, ?_⟩
    · rw [h2, doOp_log s o h.heap]
    · rw [h3, doOp_ub]

theorem ops_counter (ops : List Op) (s : St) : (ops.foldl doOp s).counter = s.counter := by
  induction ops generalizing s with
  | nil => rfl
  | cons o os ih =>
    simp only [List.foldl_cons]
    rw [ih]
    unfold doOp
    split
    · cases o <;> first | rfl | exact remove_counter _ _
    · rfl

theorem HeapOK.quiet {s s' : St} (h : HeapOK s) (n : Nat) (hl : s'.log = s.log ++ [.read n]) (hh : s'.heap = s.heap) : HeapOK s' := by
  refine ⟨by rw [hh]; exact h.zero, ?_, ?_, ?_, ?_⟩
  · intro m hm
    rw [hh, hl, added_snoc]; exact h.added m hm
  · rw [hh]; exact h.alive
  · intro m hm
    rw [hh, hl, wantsRead_snoc]; exact h.read m hm
  · intro m hm
    rw [hh, hl, wantsWrite_snoc]; exact h.write m hm

theorem read_mid (env : Env) {start n : Nat} {tail : List (Nat × Ev)} {s : St} (h : Mid start n tail s) :
    Mid start n tail (callback env s (.read n)) ∧ (callback env s (.read n)).log = specCallback env s.log (.read n) ∧
      (callback env s (.read n)).ub = s.ub ∧ (callback env s (.read n)).counter = s.counter := by
  unfold callback specCallback
  have hm : Mid start n tail { s with log := s.log ++ [.read n] } :=
    h.upd (o := .read n) (fun m hm => by cases hm) (h.heap.quiet n rfl rfl) rfl rfl rfl rfl rfl (fun _ hm => hm)
  obtain ⟨h1, h2, h3⟩ := ops_mid (env (s.log ++ [.read n])) hm
  exact ⟨h1, h2, h3, ops_counter _ _⟩

theorem write_mid (env : Env) {start n : Nat} {tail : List (Nat × Ev)} {s : St} (h : Mid start n tail s) (hn : n ≠ 0) (er : Bool) :
    let s' := setN s n fun e => { e with regOut := false }
    Mid start n tail (callback env s' (.write n er)) ∧ (callback env s' (.write n er)).log = specCallback env s.log (.write n er) ∧
      (callback env s' (.write n er)).ub = s.ub ∧ (callback env s' (.write n er)).counter = s.counter := by
  intro s'
  unfold callback specCallback
  have hk : ∀ m, (s'.heap m).inKernel = (s.heap m).inKernel := by
    intro m; show (if m = n then _ else s.heap m).inKernel = _
    split <;> rfl
  have ha : ∀ m, (s'.heap m).alive = (s.heap m).alive := by
    intro m; show (if m = n then _ else s.heap m).alive = _
    split <;> rfl
  have hri : ∀ m, (s'.heap m).regIn = (s.heap m).regIn := by
    intro m; show (if m = n then _ else s.heap m).regIn = _
    split <;> rfl
  have hm : Mid start n tail { s' with log := s.log ++ [.write n er] } := by
    refine h.upd (o := .write n er) (fun m hm => by cases hm) ?_ rfl rfl rfl rfl rfl (fun m hm => by rw [← hm]; exact hk m)
    refine ⟨?_, fun m hm => ?_, fun m => ?_, fun m hm => ?_, fun m hm => ?_⟩
    · show (if 0 = n then _ else s.heap 0) = _
      rw [if_neg (fun h => hn h.symm)]; exact h.heap.zero
    · show (s'.heap m).inKernel = added m (s.log ++ [.write n er])
      rw [hk, added_snoc]; exact h.heap.added m hm
    · show (s'.heap m).inKernel = true → (s'.heap m).alive = true
      rw [hk, ha]; exact h.heap.alive m
    · show (s'.heap m).regIn = wantsRead m (s.log ++ [.write n er])
      rw [hri, wantsRead_snoc]; exact h.heap.read m hm
    · show (if m = n then _ else s.heap m).regOut = wantsWrite m (s.log ++ [.write n er])
      rw [wantsWrite_snoc]
      by_cases hmn : m = n
      · simp [hmn]
      · simpa [hmn, Ne.symm (show m ≠ n from hmn)] using h.heap.write m hm
  obtain ⟨h1, h2, h3⟩ := ops_mid (env (s.log ++ [.write n er])) hm
  exact ⟨h1, h2, h3, ops_counter _ _⟩

theorem access_ok {s : St} {n : Nat} (h : HeapOK s) (hk : (s.heap n).inKernel = true) : access s n = s := by
  unfold access
  rw [h.alive n hk]
  simp

/-- The body of the loop for the event `(n, e)` at the current position. -/
theorem body_spec (env : Env) {start n : Nat} {e : Ev} {tail : List (Nat × Ev)} {s : St} (h : Mid start n tail { s with current := some n })
    (hn : n ≠ 0) (hev : s.events s.counter = (n, e)) (hr : removed n (s.log.drop start) = false) :
    ∃ s', body env s = ({ s' with counter := s'.counter + 1 }, false) ∧ Mid start n tail s' ∧ s'.ub = s.ub ∧
      s'.counter = s.counter ∧ s'.log = specEvent env start n e s.log := by
  unfold body
  rw [hev]
  simp only
  rw [if_neg hn, access_ok h.heap (h.inKn hr)]
  unfold specEvent
  have hreg : (s.heap n).regIn = wantsRead n s.log := h.heap.read n hn
  rw [show ({ s with current := some n } : St).heap n = s.heap n from rfl, hreg]
  have key : ∀ s1 : St, Mid start n tail s1 → s1.ub = s.ub → s1.counter = s.counter →
      ∃ s', handleRemoved env s1 n e = s' ∧ Mid start n tail s' ∧ s'.ub = s.ub ∧ s'.counter = s.counter ∧
        s'.log = (if !removed n (s1.log.drop start) && e.output && wantsWrite n s1.log then specCallback env s1.log (.write n e.error)
          else s1.log) := by
    intro s1 h1 hu hc
    unfold handleRemoved
    rw [h1.cur]
    by_cases hrm : removed n (s1.log.drop start) = true
    · simp only [hrm, if_true, Bool.not_true, Bool.false_and]
      exact ⟨s1, rfl, h1, hu, hc, rfl⟩
    · simp only [Bool.not_eq_true] at hrm
      simp only [hrm, Option.isSome_some, if_true, Bool.not_false, Bool.true_and, Bool.false_eq_true, if_false]
      rw [access_ok h1.heap (h1.inKn hrm), h1.heap.write n hn]
      by_cases hw : (e.output && wantsWrite n s1.log) = true
      · rw [if_pos hw, if_pos hw]
        obtain ⟨h2, h3, h4, h5⟩ := write_mid env h1 hn e.error
        exact ⟨_, rfl, h2, by rw [h4, hu], by rw [h5, hc], h3⟩
      · rw [if_neg hw, if_neg hw]
        exact ⟨s1, rfl, h1, hu, hc, rfl⟩
  by_cases hin : (e.input && wantsRead n s.log) = true
  · rw [if_pos hin, if_pos hin]
    obtain ⟨h2, h3, h4, h5⟩ := read_mid env h
    obtain ⟨s', h6, h7, h8, h9, h10⟩ := key _ h2 h4 h5
    refine ⟨s', by rw [h6], h7, h8, h9, ?_⟩
    rw [h10, h3]
  · rw [if_neg hin, if_neg hin]
    obtain ⟨s', h6, h7, h8, h9, h10⟩ := key _ h rfl rfl
    exact ⟨s', by rw [h6], h7, h8, h9, h10⟩

/-- The state between two events of a batch; `rest` are the events reported from this position on. -/
structure Between (start : Nat) (rest : List (Nat × Ev)) (s : St) : Prop where
  heap : HeapOK s
  pend : slice s.events s.counter s.num = rest.filter (fun x => !removed x.1 (s.log.drop start))
  inK : ∀ x ∈ rest, removed x.1 (s.log.drop start) = false → (s.heap x.1).inKernel = true
  nodup : (rest.map Prod.fst).Nodup
  start : start ≤ s.log.length

theorem eraseLoop_num (n k : Nat) : ∀ (s : St) (i : Nat), (eraseLoop s n k i).num ≤ s.num := by
  induction k with
  | zero => exact fun s i => Nat.le_refl _
  | succ k ih =>
    intro s i
    unfold eraseLoop
    split
    · exact Nat.sub_le _ _
    · exact ih s _

theorem remove_num (s : St) (n : Nat) : (remove s n).num ≤ s.num := by
  have h := eraseLoop_num n ((setN s n fun e => { e with inKernel := false }).num - (s.counter + 1))
    (setN s n fun e => { e with inKernel := false }) (s.counter + 1)
  unfold remove
  simp only
  split
  · exact h
  · exact h

theorem ops_num (ops : List Op) (s : St) : (ops.foldl doOp s).num ≤ s.num := by
  induction ops generalizing s with
  | nil => exact Nat.le_refl _
  | cons o os ih =>
    simp only [List.foldl_cons]
    refine Nat.le_trans (ih _) ?_
    unfold doOp
    split
    · cases o <;> first | exact Nat.le_refl _ | exact remove_num _ _
    · exact Nat.le_refl _

theorem callback_num (env : Env) (s : St) (o : Obs) : (callback env s o).num ≤ s.num := ops_num _ _

theorem handleRemoved_num (env : Env) (s : St) (n : Nat) (e : Ev) : (handleRemoved env s n e).num ≤ s.num := by
  unfold handleRemoved
  split
  · simp only
    split
    · exact callback_num _ _ _
    · exact Nat.le_refl _
  · exact Nat.le_refl _

theorem body_num (env : Env) (s : St) : (body env s).1.num ≤ s.num := by
  unfold body
  simp only
  split
  · exact Nat.le_refl _
  · simp only
    refine Nat.le_trans (handleRemoved_num _ _ _ _) ?_
    split
    · exact callback_num _ _ _
    · exact Nat.le_refl _

theorem forLoop_spec (env : Env) (start : Nat) (rest : List (Nat × Ev)) : ∀ (k : Nat) (s : St), Between start rest s → s.num - s.counter ≤ k →
    ∃ s', forLoop env k s = (s', (specBatch env start rest s.log).2) ∧ s'.log = (specBatch env start rest s.log).1 ∧
      s'.ub = s.ub ∧ HeapOK s' := by
  induction rest with
  | nil =>
    intro k s h hk
    have hle : s.num ≤ s.counter := by
      have := h.pend
      by_cases hlt : s.counter < s.num
      · rw [slice_cons hlt] at this; simp at this
      · omega
    refine ⟨s, ?_, rfl, rfl, h.heap⟩
    cases k with
    | zero => rfl
    | succ k => simp only [forLoop, if_neg (show ¬ s.counter < s.num by omega), specBatch]
  | cons x rest ih =>
    obtain ⟨n, e⟩ := x
    intro k s h hk
    have hnd := List.nodup_cons.mp h.nodup
    by_cases hr : removed n (s.log.drop start) = true
    · have hb : Between start rest s := by
        refine ⟨h.heap, ?_, fun x hx => h.inK x (List.mem_cons_of_mem _ hx), hnd.2, h.start⟩
        rw [h.pend, List.filter_cons_of_neg (by simp [hr])]
      obtain ⟨s', h1, h2, h3, h4⟩ := ih k s hb hk
      refine ⟨s', ?_, ?_, h3, h4⟩
      · rw [h1]; simp only [specBatch, hr, if_true]
      · rw [h2]; simp only [specBatch, hr, if_true]
    · simp only [Bool.not_eq_true] at hr
      have hp := h.pend
      rw [List.filter_cons_of_pos (by simp [hr])] at hp
      have hlt : s.counter < s.num := by
        by_cases hlt : s.counter < s.num
        · exact hlt
        · rw [slice_nil (by omega)] at hp; exact absurd hp.symm (by simp)
      rw [slice_cons hlt] at hp
      injection hp with hev hp
      obtain ⟨k, rfl⟩ : ∃ k', k = k' + 1 := ⟨k - 1, by omega⟩
      simp only [forLoop, if_pos hlt, specBatch, hr, Bool.false_eq_true, if_false]
      by_cases hn : n = 0
      · subst hn
        have : body env s = (s, true) := by
          unfold body
          rw [hev]
          rfl
        rw [this]
        exact ⟨s, by simp, by simp, rfl, h.heap⟩
      · rw [if_neg hn]
        have hmid : Mid start n rest { s with current := some n } := by
          refine ⟨⟨h.heap.zero, h.heap.added, h.heap.alive, h.heap.read, h.heap.write⟩, hlt, hp, ?_,
            fun x hx => h.inK x (List.mem_cons_of_mem _ hx), fun hr => h.inK (n, e) (by simp) hr, h.nodup, h.start⟩
          simp [hr]
        obtain ⟨s1, h1, h2, h3, h4, h5⟩ := body_spec env hmid hn hev hr
        rw [h1]
        simp only
        have hb : Between start rest { s1 with counter := s1.counter + 1 } :=
          ⟨⟨h2.heap.zero, h2.heap.added, h2.heap.alive, h2.heap.read, h2.heap.write⟩, h2.pend, h2.inK, hnd.2, h2.start⟩
        have hnum : s1.num ≤ s.num := by
          have := body_num env s
          rw [h1] at this
          exact this
        obtain ⟨s', h6, h7, h8, h9⟩ := ih k { s1 with counter := s1.counter + 1 } hb (by
          show s1.num - (s1.counter + 1) ≤ k
          omega)
        simp only at h6 h7 h8
        rw [← h5]
        exact ⟨s', h6, h7, by rw [h8, h3], h9⟩

theorem dedup_mem (seen : List Nat) (l : List (Nat × Ev)) : ∀ x ∈ dedup seen l, x ∈ l ∧ x.1 ∉ seen := by
  induction l generalizing seen with
  | nil => intro x hx; cases hx
  | cons a as ih =>
    obtain ⟨n, e⟩ := a
    intro x hx
    simp only [dedup] at hx
    split at hx
    · have := ih _ _ hx
      exact ⟨List.mem_cons_of_mem _ this.1, this.2⟩
    · rename_i hn
      rw [List.mem_cons] at hx
      rcases hx with rfl | hx
      · exact ⟨by simp, hn⟩
      · have := ih _ _ hx
        exact ⟨List.mem_cons_of_mem _ this.1, fun h => this.2 (List.mem_cons_of_mem _ h)⟩

theorem dedup_nodup (seen : List Nat) (l : List (Nat × Ev)) : ((dedup seen l).map Prod.fst).Nodup := by
  induction l generalizing seen with
  | nil => exact List.nodup_nil
  | cons a as ih =>
    obtain ⟨n, e⟩ := a
    simp only [dedup]
    split
    · exact ih _
    · rw [List.map_cons, List.nodup_cons]
      refine ⟨?_, ih _⟩
      rw [List.mem_map]
      rintro ⟨x, hx, hxn⟩
      have := (dedup_mem _ _ x hx).2
      rw [hxn] at this
      simp at this

theorem kernelWait_eq {s : St} (h : HeapOK s) (p : List (Nat × Ev)) : kernelWait s p = specWait s.log p := by
  unfold kernelWait specWait
  congr 3
  funext x
  by_cases hx : x.1 = 0
  · rw [hx, h.zero]; rfl
  · rw [h.added _ hx]; simp [hx]

theorem kernelWait_nodup (s : St) (p : List (Nat × Ev)) : ((kernelWait s p).map Prod.fst).Nodup :=
  (List.Sublist.map Prod.fst (List.take_sublist _ _)).nodup (dedup_nodup _ _)

theorem kernelWait_mem {s : St} {p : List (Nat × Ev)} {x : Nat × Ev} (hx : x ∈ kernelWait s p) : (s.heap x.1).inKernel = true := by
  have h1 := (dedup_mem _ _ x (List.mem_of_mem_take hx)).1
  rw [List.mem_filter] at h1
  exact h1.2

theorem slice_getD (b : List (Nat × Ev)) (d : Nat × Ev) : slice (fun j => b.getD j d) 0 b.length = b := by
  unfold slice
  apply List.ext_getElem
  · simp
  · intro i h1 h2
    simp [List.getElem?_eq_getElem h2]

theorem dispatch_spec (env : Env) (s : St) (h : HeapOK s) (p : List (Nat × Ev)) :
    ∃ s', dispatch env s (kernelWait s p) = (s', (specBatch env (s.log.length + 1) (specWait s.log p) (s.log ++ [.wait (specWait s.log p)])).2) ∧
      s'.log = (specBatch env (s.log.length + 1) (specWait s.log p) (s.log ++ [.wait (specWait s.log p)])).1 ∧ s'.ub = s.ub ∧ HeapOK s' := by
  rw [← kernelWait_eq h]
  unfold dispatch
  simp only
  have hd : ∀ n, removed n ((s.log ++ [Obs.wait (kernelWait s p)]).drop (s.log.length + 1)) = false := by
    intro n
    rw [show s.log.length + 1 = (s.log ++ [Obs.wait (kernelWait s p)]).length by simp, List.drop_length]
    rfl
  refine forLoop_spec env (s.log.length + 1) (kernelWait s p) (kernelWait s p).length _ ⟨?_, ?_, ?_, kernelWait_nodup s p, ?_⟩ (by simp)
  · refine ⟨h.zero, fun n hn => ?_, h.alive, fun n hn => ?_, fun n hn => ?_⟩
    · show _ = added n (s.log ++ [Obs.wait (kernelWait s p)])
      rw [added_snoc]; exact h.added n hn
    · show _ = wantsRead n (s.log ++ [Obs.wait (kernelWait s p)])
      rw [wantsRead_snoc]; exact h.read n hn
    · show _ = wantsWrite n (s.log ++ [Obs.wait (kernelWait s p)])
      rw [wantsWrite_snoc]; exact h.write n hn
  · show slice (fun j => (kernelWait s p).getD j _) 0 (kernelWait s p).length = List.filter (fun x => !removed x.1 ((s.log ++ [Obs.wait (kernelWait s p)]).drop (s.log.length + 1))) (kernelWait s p)
    simp only [hd, Bool.not_false]
    rw [slice_getD]
    exact (List.filter_eq_self.mpr (fun _ _ => rfl)).symm
  · intro x hx _
    exact kernelWait_mem hx
  · simp

theorem run_spec (env : Env) (ws : List Wait) : ∀ (s : St), HeapOK s →
    ∃ s', run env s ws = (s', (specRun env s.log ws).2) ∧ s'.log = (specRun env s.log ws).1 ∧ s'.ub = s.ub ∧ HeapOK s' := by
  induction ws with
  | nil => intro s h; exact ⟨s, rfl, rfl, rfl, h⟩
  | cons w ws ih =>
    intro s h
    cases w with
    | interrupted => exact ih s h
    | failed => exact ⟨s, rfl, rfl, rfl, h⟩
    | events p =>
      obtain ⟨s1, h1, h2, h3, h4⟩ := dispatch_spec env s h p
      simp only [run, specRun]
      rw [h1]
      generalize specBatch env (s.log.length + 1) (specWait s.log p) (s.log ++ [.wait (specWait s.log p)]) = r at h2 ⊢
      obtain ⟨l, b⟩ := r
      cases b with
      | true => exact ⟨s1, rfl, h2, h3, h4⟩
      | false =>
        obtain ⟨s2, h5, h6, h7, h8⟩ := ih s1 h4
        simp only at h2
        rw [h2] at h5 h6
        exact ⟨s2, h5, h6, by rw [h7, h3], h8⟩

theorem exec_spec (env : Env) (as : List Act) : ∀ (s : St), HeapOK s →
    (exec env s as).log = specExec env s.log as ∧ (exec env s as).ub = s.ub ∧ HeapOK (exec env s as) := by
  induction as with
  | nil => intro s h; exact ⟨rfl, rfl, h⟩
  | cons a as ih =>
    intro s h
    cases a with
    | call o =>
      simp only [exec, specExec]
      have := ih (doOp s o) (doOp_heapOK s o h)
      rw [doOp_log s o h, doOp_ub] at this
      exact this
    | run ws =>
      obtain ⟨s1, h1, h2, h3, h4⟩ := run_spec env ws s h
      simp only [exec, specExec]
      rw [h1]
      generalize specRun env s.log ws = r at h2 ⊢
      obtain ⟨l, res⟩ := r
      simp only at h2
      cases res with
      | running => exact ⟨h2, h3, h4⟩
      | ok | error =>
        have := ih s1 h4
        rw [h2, h3] at this
        exact this

theorem initial_heapOK : HeapOK initial := by
  refine ⟨rfl, fun n hn => ?_, fun n => ?_, fun n hn => ?_, fun n hn => ?_⟩
  · simp [initial, hn, added]
  · by_cases hn : n = 0 <;> simp [initial, hn]
  · simp [initial, hn, wantsRead]
  · simp [initial, hn, wantsWrite]

end Cio.Epoll
