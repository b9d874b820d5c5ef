import Verif.HttpChunks.Spec
/-
The invariant of requests that say how long their body is.
-/
namespace Cio.HttpChunks

theorem lineEnd_plain (l : List Mark) (x : List Mark) (h : ∀ m ∈ l, m.byte ≠ 13) :
    lineEnd (l ++ x) = (lineEnd x).map (· + l.length) := by
  induction l with
  | nil => cases h : lineEnd x <;> simp [h]
  | cons a t ih =>
    have h1 : a.byte ≠ 13 := h a (by simp)
    have ih := ih (fun m hm => h m (by simp [hm]))
    cases ht : t ++ x with
    | nil =>
      simp at ht
      simp [ht.1, ht.2, lineEnd]
    | cons b r =>
      rw [List.cons_append, ht]
      rw [lineEnd, if_neg (by simp [h1]), ← ht, ih]
      cases lineEnd x <;> simp <;> omega

/-- A line that ends with CR LF, in a buffer with some bytes of the stream. -/
theorem lineEnd_take (l : List Mark) (a b : Mark) (x : List Mark) (n k : Nat) (h : ∀ m ∈ l, m.byte ≠ 13) (ha : a.byte = 13) (hb : b.byte = 10)
    (hk : lineEnd ((l ++ a :: b :: x).take n) = some k) : k = l.length + 2 := by
  by_cases h1 : n ≤ l.length
  · rw [List.take_append_of_le_length h1] at hk
    have := lineEnd_plain (l.take n) [] (fun m hm => h m (List.mem_of_mem_take hm))
    simp [lineEnd] at this
    rw [this] at hk; exact absurd hk (by simp)
  · rw [List.take_append, List.take_of_length_le (by omega), lineEnd_plain l _ h] at hk
    obtain ⟨m, hm⟩ : ∃ m, n - l.length = m + 1 := ⟨n - l.length - 1, by omega⟩
    rw [hm] at hk
    cases m with
    | zero => simp [lineEnd] at hk
    | succ m =>
      simp [lineEnd, ha, hb] at hk
      omega

/-- Mark-level pieces. -/
def MPieces (r : Req) (l : List (List Mark)) : Prop :=
  ∃ body : List (List Mark), l = lineMarks r :: r.headers.map headerMarks ++ [blankMarks r.framing] ++ body ∧ body.flatten = framingMarks r.framing ∧ ∀ p ∈ body, p ≠ []

inductive AllM : List Req → List (List Mark) → Prop where
  | nil : AllM [] []
  | cons {r rs l ls} : MPieces r l → AllM rs ls → AllM (r :: rs) (l ++ ls)

theorem AllM.append {a b la lb} (h : AllM a la) (h2 : AllM b lb) : AllM (a ++ b) (la ++ lb) := by
  induction h with
  | nil => exact h2
  | cons h _ ih => rw [List.append_assoc]; exact .cons h ih

theorem AllM.snoc {a la r l} (h : AllM a la) (h2 : MPieces r l) : AllM (a ++ [r]) (la ++ l) := by
  have : AllM [r] (l ++ []) := .cons h2 .nil
  rw [List.append_nil] at this
  exact h.append this

/-- The chunks of the head of a request. -/
def headChunks (r : Req) : List (List Mark) := lineMarks r :: r.headers.map headerMarks ++ [blankMarks r.framing]

/-- Where the connection is within a request `q` followed by `qs`; `cur`: the chunks of this request. -/
inductive Phase (q : Req) (qs : List Req) (tail : List Mark) : State → List (List Mark) → Prop where
  | line (s : State) : s.finish = .requestLine → s.remaining = 0 → s.rest = reqMarks q ++ (qs.flatMap reqMarks ++ tail) → Phase q qs tail s []
  | header (s : State) (h1 h2 : List Bytes) : q.headers = h1 ++ h2 → s.finish = .headerLine → s.remaining = 0 →
      s.rest = restMarks h2 q.framing ++ (qs.flatMap reqMarks ++ tail) → Phase q qs tail s (lineMarks q :: h1.map headerMarks)
  | body (s : State) (b2 : Bytes) (bs : List (List Mark)) : qs ≠ [] → b2 ≠ [] → bs.flatten ++ bodyMarks b2 = framingMarks q.framing → (∀ p ∈ bs, p ≠ []) →
      s.finish = .bytes → s.remaining = b2.length → s.rest = bodyMarks b2 ++ (qs.flatMap reqMarks ++ tail) → Phase q qs tail s (headChunks q ++ bs)
  | free (s : State) (bs : List (List Mark)) : qs = [] → Phase q qs tail s (headChunks q ++ bs)

def Inv (all : List Req) (tail : List Mark) (s : State) : Prop :=
  ∃ dn l q qs cur, all = dn ++ q :: qs ∧ AllM dn l ∧ s.fed.reverse = l ++ cur ∧ Phase q qs tail s cur

theorem plain_no13 (l : Bytes) (h : 13 ∉ l) : ∀ m ∈ plain l, m.byte ≠ 13 := by
  intro m hm
  simp [plain] at hm
  obtain ⟨b, hb, rfl⟩ := hm
  rintro h'; simp at h'; exact h (h' ▸ hb)

theorem plain_evs (l : Bytes) : (plain l).flatMap (·.evs) = [] := by
  induction l with
  | nil => rfl
  | cons b t ih => simp [plain]

theorem lineMarks_evs (r : Req) : (lineMarks r).flatMap (·.evs) = [] := by
  have : (r.url.map (fun b => ({ byte := b, url := true } : Mark))).flatMap (·.evs) = [] := by
    induction r.url with
    | nil => rfl
    | cons b t ih => simp
  simp only [lineMarks, List.flatMap_append, plain_evs, this, crlf, List.append_nil]

theorem headerMarks_evs (h : Bytes) : (headerMarks h).flatMap (·.evs) = [] := by
  simp only [headerMarks, List.flatMap_append, plain_evs, crlf, List.append_nil]

theorem bodyMarks_append (x y : Bytes) (h : y ≠ []) : bodyMarks (x ++ y) = plain x ++ bodyMarks y := by
  induction x with
  | nil => rfl
  | cons a t ih =>
    cases hty : t ++ y with
    | nil => simp at hty; exact absurd hty.2 h
    | cons c r =>
      rw [List.cons_append, hty, bodyMarks, ← hty, ih]
      · rfl
      · simp

theorem bodyMarks_length (x : Bytes) : (bodyMarks x).length = x.length := by
  induction x with
  | nil => rfl
  | cons a t ih => cases t with
    | nil => rfl
    | cons b r => simp [bodyMarks] at ih ⊢; exact ih

theorem bodyMarks_evs (x : Bytes) (h : x ≠ []) : (bodyMarks x).flatMap (·.evs) = [.message] := by
  induction x with
  | nil => exact absurd rfl h
  | cons a t ih => cases t with
    | nil => rfl
    | cons b r =>
      rw [bodyMarks]
      · simpa using ih (by simp)
      · simp

/-- A chunk without callbacks while no body is expected. -/
theorem parse_quiet (s : State) (c x : List Mark) (avail : Nat) (hr : s.remaining = 0) (hx : s.rest = c ++ x) (he : c.flatMap (·.evs) = []) :
    parse s avail c.length = runFinish { s with fed := c :: s.fed, rest := x } := by
  have h1 : s.rest.take c.length = c := by rw [hx]; simp
  have h2 : s.rest.drop c.length = x := by rw [hx]; simp
  simp [parse, hr, h1, h2, execute, he]

theorem Inv.step {pre : List Req} {r : Req} {tail : List Mark} {s s' : State} (hpre : ∀ q ∈ pre, q.HasLength) (hok : ∀ q ∈ pre ++ [r], q.Ok)
    (hi : Inv (pre ++ [r]) tail s) (hs : Step s s') : Inv (pre ++ [r]) tail s' := by
  obtain ⟨dn, l, q, qs, cur, hall, hl, hfed, hph⟩ := hi
  obtain ⟨avail, num, hav, hres, rfl⟩ := hs
  have hq : q.Ok := hok q (by rw [hall]; simp)
  obtain ⟨o1, o2, o3, o4⟩ := hq
  have hlen : qs ≠ [] → q.HasLength := by
    intro hne
    apply hpre
    obtain ⟨z, zs, rfl⟩ : ∃ zs z, qs = zs ++ [z] := ⟨qs.dropLast, qs.getLast hne, (List.dropLast_concat_getLast hne).symm⟩
    have : pre ++ [r] = (dn ++ q :: z) ++ [zs] := by rw [hall]; simp
    have := (List.append_inj' this rfl).1
    rw [this]; simp
  -- the next request
  have hnext : ∀ s2 : State, ∀ cur2, qs ≠ [] → s2.finish = .requestLine → s2.remaining = 0 → s2.rest = qs.flatMap reqMarks ++ tail → MPieces q cur2 →
      s2.fed.reverse = l ++ cur2 → Inv (pre ++ [r]) tail s2 := by
    intro s2 cur2 hne e1 e2 e3 e4 e5
    cases qs with
    | nil => exact absurd rfl hne
    | cons q2 qs2 =>
      refine ⟨dn ++ [q], l ++ cur2, q2, qs2, [], by rw [hall]; simp, hl.snoc e4, by rw [e5]; simp, .line s2 e1 e2 ?_⟩
      rw [e3]; simp
  cases hph with
  | line e1 e2 e3 =>
    have hnum : num = (lineMarks q).length := by
      rw [readResult, e1] at hres
      simp only at hres
      have hrest : s.rest = (plain q.method ++ q.url.map (fun b => { byte := b, url := true }) ++ plain q.version) ++ { byte := 13 } :: { byte := 10 } :: (restMarks q.headers q.framing ++ (qs.flatMap reqMarks ++ tail)) := by
        rw [e3]; simp [reqMarks, lineMarks, crlf, plain]
      rw [hrest] at hres
      rw [lineEnd_take _ _ _ _ _ _ ?_ rfl rfl hres]
      · simp [lineMarks, crlf, plain]; omega
      · intro m hm
        simp only [List.mem_append] at hm
        rcases hm with (hm | hm) | hm
        · exact plain_no13 _ o1 m hm
        · simp at hm; obtain ⟨b, hb, rfl⟩ := hm
          rintro h'; simp at h'; exact o2 (h' ▸ hb)
        · exact plain_no13 _ o3 m hm
    subst hnum
    rw [parse_quiet s (lineMarks q) (restMarks q.headers q.framing ++ (qs.flatMap reqMarks ++ tail)) avail e2 (by rw [e3, reqMarks, List.append_assoc]) (lineMarks_evs q)]
    refine ⟨dn, l, q, qs, [lineMarks q], hall, hl, ?_, .header _ [] q.headers rfl ?_ ?_ ?_⟩
    · simp [runFinish, e1, hfed]
    · simp [runFinish, e1]
    · simp [runFinish, e1, e2]
    · simp [runFinish, e1]
  | header h1 h2 e0 e1 e2 e3 =>
    cases h2 with
    | cons h h2 =>
      have hh := o4 h (by rw [e0]; simp)
      have hnum : num = (headerMarks h).length := by
        rw [readResult, e1] at hres
        simp only at hres
        have hrest : s.rest = plain h ++ { byte := 13 } :: { byte := 10 } :: (restMarks h2 q.framing ++ (qs.flatMap reqMarks ++ tail)) := by
          rw [e3]; simp [restMarks, headerMarks, crlf, plain]
        rw [hrest] at hres
        rw [lineEnd_take _ _ _ _ _ _ (plain_no13 _ hh.1) rfl rfl hres]
        simp [headerMarks, crlf, plain]
      subst hnum
      rw [parse_quiet s (headerMarks h) (restMarks h2 q.framing ++ (qs.flatMap reqMarks ++ tail)) avail e2 (by rw [e3]; simp [restMarks]) (headerMarks_evs h)]
      refine ⟨dn, l, q, qs, lineMarks q :: (h1 ++ [h]).map headerMarks, hall, hl, ?_, .header _ (h1 ++ [h]) h2 (by rw [e0]; simp) ?_ ?_ ?_⟩
      · simp [runFinish, e1, hfed]
      · simp [runFinish, e1]
      · simp [runFinish, e1, e2]
      · simp [runFinish, e1]
    | nil =>
      simp at e0
      have hnum : num = 2 := by
        rw [readResult, e1] at hres
        simp only at hres
        have hrest : s.rest = [] ++ { byte := 13 } :: { byte := 10, evs := headerEvents q.framing } :: (framingMarks q.framing ++ (qs.flatMap reqMarks ++ tail)) := by
          rw [e3]; simp [restMarks, blankMarks]
        rw [hrest] at hres
        have := lineEnd_take [] _ _ _ _ _ (by simp) rfl rfl hres
        simpa using this
      subst hnum
      have ht : s.rest.take 2 = blankMarks q.framing := by rw [e3]; simp [restMarks, blankMarks]
      have hd : s.rest.drop 2 = framingMarks q.framing ++ (qs.flatMap reqMarks ++ tail) := by rw [e3]; simp [restMarks, blankMarks]
      have hev : (blankMarks q.framing).flatMap (·.evs) = headerEvents q.framing := by simp [blankMarks]
      have hp : parse s avail 2 = runFinish ((headerEvents q.framing).foldl callback { s with fed := blankMarks q.framing :: s.fed, rest := framingMarks q.framing ++ (qs.flatMap reqMarks ++ tail) }) := by
        simp [parse, e2, ht, hd, execute, hev]
      rw [hp]
      have hhead : lineMarks q :: h1.map headerMarks ++ [blankMarks q.framing] = headChunks q := by rw [headChunks, e0]
      cases qs with
      | nil =>
        -- the last request
        refine ⟨dn, l, q, [], headChunks q ++ [], hall, hl, ?_, .free _ [] rfl⟩
        have : ∀ (evs : List Ev) (s : State), (runFinish (evs.foldl callback s)).fed = s.fed := by
          intro evs
          induction evs with
          | nil => intro s; simp [runFinish]; split <;> rfl
          | cons e t ih => intro s; rw [List.foldl_cons, ih]; cases e <;> simp [callback]; split <;> rfl
        rw [this]
        simp [hfed, ← hhead]
      | cons q2 qs2 =>
        obtain ⟨body, hb⟩ := hlen (by simp)
        cases body with
        | nil =>
          apply hnext _ (headChunks q) (by simp)
          · simp [hb, headerEvents, callback, runFinish]
          · simp [hb, headerEvents, callback, runFinish, e2]
          · simp [hb, headerEvents, callback, runFinish, framingMarks, bodyMarks]
          · exact ⟨[], by simp [headChunks], by simp [hb, framingMarks, bodyMarks], by simp⟩
          · simp [hb, headerEvents, callback, runFinish, hfed]
            rw [← hb, ← hhead]; simp
        | cons b body =>
          refine ⟨dn, l, q, q2 :: qs2, headChunks q ++ [], hall, hl, ?_, .body _ (b :: body) [] (by simp) (by simp) (by simp [hb, framingMarks]) (by simp) ?_ ?_ ?_⟩
          · simp [hb, headerEvents, callback, runFinish, hfed]
            rw [← hb, ← hhead]; simp
          · simp [hb, headerEvents, callback, runFinish]
          · simp [hb, headerEvents, callback, runFinish]
          · simp [hb, headerEvents, callback, runFinish, framingMarks]
  | body b2 bs hne hb2 hbs hbp e1 e2 e3 =>
    have hav1 : 1 ≤ avail := by
      rw [readResult, e1] at hres
      simp only at hres
      split at hres
      · assumption
      · exact absurd hres (by simp)
    have hpos : b2.length > 0 := List.length_pos_iff.mpr hb2
    by_cases hlt : avail < b2.length
    · have hsplit : b2 = b2.take avail ++ b2.drop avail := (List.take_append_drop _ _).symm
      have hdne : b2.drop avail ≠ [] := by simp; omega
      have hbm : bodyMarks b2 = plain (b2.take avail) ++ bodyMarks (b2.drop avail) := by
        have := bodyMarks_append (b2.take avail) (b2.drop avail) hdne
        rwa [← hsplit] at this
      have hpl : (plain (b2.take avail)).length = avail := by simp [plain]; omega
      have ht : s.rest.take avail = plain (b2.take avail) := by
        rw [e3, hbm, List.append_assoc, List.take_append_of_le_length (by omega), List.take_of_length_le (by omega)]
      have hd : s.rest.drop avail = bodyMarks (b2.drop avail) ++ (qs.flatMap reqMarks ++ tail) := by
        rw [e3, hbm, List.append_assoc]
        exact List.drop_left' hpl
      have hmin : min avail s.remaining = avail := by rw [e2]; omega
      have hp : parse s avail num = runFinish { s with remaining := s.remaining - avail, fed := plain (b2.take avail) :: s.fed, rest := bodyMarks (b2.drop avail) ++ (qs.flatMap reqMarks ++ tail) } := by
        simp [parse, e2, hpos]
        rw [← e2, hmin, ht, hd]
        simp [execute, plain_evs]
      rw [hp]
      refine ⟨dn, l, q, qs, headChunks q ++ (bs ++ [plain (b2.take avail)]), hall, hl, ?_, .body _ (b2.drop avail) (bs ++ [plain (b2.take avail)]) hne hdne ?_ ?_ ?_ ?_ ?_⟩
      · simp [runFinish, e1, hfed]
      · rw [← hbs, hbm]; simp
      · intro p hp'
        simp at hp'
        rcases hp' with hp' | rfl
        · exact hbp p hp'
        · intro hc; rw [hc] at hpl; simp at hpl; omega
      · simp [runFinish, e1]
      · simp [runFinish, e1, e2]
      · simp [runFinish, e1]
    · have ht : s.rest.take b2.length = bodyMarks b2 := by
        rw [e3, List.take_append_of_le_length (by rw [bodyMarks_length]; omega), List.take_of_length_le (by rw [bodyMarks_length]; omega)]
      have hd : s.rest.drop b2.length = qs.flatMap reqMarks ++ tail := by
        rw [e3]; exact List.drop_left' (bodyMarks_length b2)
      have hmin : min avail s.remaining = b2.length := by rw [e2]; omega
      have hp : parse s avail num = { s with remaining := 0, fed := bodyMarks b2 :: s.fed, rest := qs.flatMap reqMarks ++ tail, finish := .requestLine } := by
        simp [parse, e2, hpos]
        rw [← e2, hmin, ht, hd]
        simp [execute, bodyMarks_evs b2 hb2, callback, runFinish]
        omega
      rw [hp]
      apply hnext _ (headChunks q ++ (bs ++ [bodyMarks b2])) hne
      · rfl
      · rfl
      · rfl
      · refine ⟨bs ++ [bodyMarks b2], by simp [headChunks], by rw [← hbs]; simp, ?_⟩
        intro p hp'
        simp at hp'
        rcases hp' with hp' | rfl
        · exact hbp p hp'
        · intro hc
          have := bodyMarks_length b2
          rw [hc] at this; simp at this; omega
      · simp [hfed]
  | free bs hqs =>
    refine ⟨dn, l, q, qs, headChunks q ++ (bs ++ (s.rest.take (if s.remaining > 0 then min avail s.remaining else num)) :: []), hall, hl, ?_, .free _ _ hqs⟩
    have : ∀ (evs : List Ev) (s : State), (runFinish (evs.foldl callback s)).fed = s.fed := by
      intro evs
      induction evs with
      | nil => intro s; simp [runFinish]; split <;> rfl
      | cons e t ih => intro s; rw [List.foldl_cons, ih]; cases e <;> simp [callback]; split <;> rfl
    simp only [parse, execute, this]
    by_cases hr : s.remaining > 0
    · simp [hr, hfed]
    · simp [hr, hfed]

end Cio.HttpChunks
