import Verif.HttpChunks.Waiting
/-
C44: when the reading of requests gets stuck, and when it does not.
-/
namespace Cio.HttpChunks

theorem lineEnd_there (l : List Mark) (a b : Mark) (x : List Mark) (n : Nat) (h : ∀ m ∈ l, m.byte ≠ 13) (ha : a.byte = 13) (hb : b.byte = 10) (hn : l.length + 2 ≤ n) :
    lineEnd ((l ++ a :: b :: x).take n) = some (l.length + 2) := by
  rw [List.take_append, List.take_of_length_le (by omega), lineEnd_plain l _ h]
  obtain ⟨m, hm⟩ : ∃ m, n - l.length = m + 2 := ⟨n - l.length - 2, by omega⟩
  rw [hm]
  simp [lineEnd, ha, hb]; omega

theorem line_there (q : Req) (hok : q.Ok) (T : List Mark) (avail : Nat) (h : (lineMarks q).length ≤ avail) : lineEnd ((reqMarks q ++ T).take avail) = some (lineMarks q).length := by
  obtain ⟨o1, o2, o3, _⟩ := hok
  have hl : (lineMarks q).length = (plain q.method ++ q.url.map (fun b => ({ byte := b, url := true } : Mark)) ++ plain q.version).length + 2 := by
    simp [lineMarks, crlf, plain]; omega
  have hrest : reqMarks q ++ T = (plain q.method ++ q.url.map (fun b => { byte := b, url := true }) ++ plain q.version) ++ { byte := 13 } :: { byte := 10 } :: (restMarks q.headers q.framing ++ T) := by
    simp [reqMarks, lineMarks, crlf, plain]
  rw [hrest, lineEnd_there _ _ _ _ _ ?_ rfl rfl (by rw [← hl]; exact h), hl]
  intro m hm
  simp only [List.mem_append] at hm
  rcases hm with (hm | hm) | hm
  · exact plain_no13 _ o1 m hm
  · simp at hm; obtain ⟨b, hb, rfl⟩ := hm
    rintro h'; simp at h'; exact o2 (h' ▸ hb)
  · exact plain_no13 _ o3 m hm

theorem header_there (h : Bytes) (hh : 13 ∉ h) (T : List Mark) (avail : Nat) (ha : (headerMarks h).length ≤ avail) : lineEnd ((headerMarks h ++ T).take avail) = some (headerMarks h).length := by
  have hl : (headerMarks h).length = (plain h).length + 2 := by simp [headerMarks, crlf, plain]
  have hrest : headerMarks h ++ T = plain h ++ { byte := 13 } :: { byte := 10 } :: T := by simp [headerMarks, crlf, plain]
  rw [hrest, lineEnd_there _ _ _ _ _ (plain_no13 _ hh) rfl rfl (by rw [← hl]; exact ha), hl]

/-- All of the current request may have arrived. -/
theorem np_all {rs dn qs : List Req} {q : Req} {s : State} {x : List Mark} {avail : Nat} (hrs : rs = dn ++ q :: qs) (hrest : s.rest = x ++ qs.flatMap reqMarks)
    (hlen : x.length ≤ (reqMarks q).length) (ha : avail ≤ x.length) : NotPipelined rs (wireLen rs - s.rest.length) avail := by
  intro pre post hpp hc
  have e : wireLen rs = wireLen dn + ((reqMarks q).length + wireLen qs) := by
    rw [hrs, wireLen_append, show q :: qs = [q] ++ qs from rfl, wireLen_append, wireLen_one]
  have e2 : s.rest.length = x.length + wireLen qs := by rw [hrest, List.length_append]; rfl
  have hl : dn.length < pre.length := by
    apply Nat.lt_of_not_le
    intro hle
    have : pre <+: dn := by
      have h1 : pre <+: rs := ⟨post, hpp.symm⟩
      have h2 : dn <+: rs := ⟨q :: qs, hrs.symm⟩
      exact List.prefix_of_prefix_length_le h1 h2 hle
    obtain ⟨t, ht⟩ := this
    have : wireLen dn = wireLen pre + wireLen t := by rw [← ht, wireLen_append]
    omega
  have hp : dn ++ [q] <+: pre := by
    have h1 : pre <+: rs := ⟨post, hpp.symm⟩
    have h2 : dn ++ [q] <+: rs := ⟨qs, by rw [hrs]; simp⟩
    exact List.prefix_of_prefix_length_le h2 h1 (by simp; omega)
  obtain ⟨t, ht⟩ := hp
  have : wireLen pre = wireLen dn + (reqMarks q).length + wireLen t := by rw [← ht, wireLen_append, wireLen_append, wireLen_one]
  omega

/-- Reading the header of a first request without Content-Length, all of which has arrived. -/
theorem read_headers {rs dn qs : List Req} {q : Req} (hrs : rs = dn ++ q :: qs) (hok : q.Ok) (hf : q.framing = .none) (h1 h2 : List Bytes) (hh : q.headers = h1 ++ h2) (s : State)
    (hr : WReach rs s) (e1 : s.finish = .headerLine) (e2 : s.remaining = 0) (e3 : s.rest = restMarks h2 q.framing ++ qs.flatMap reqMarks) :
    ∃ s', WReach rs s' ∧ s'.finish = .requestLine ∧ s'.remaining = sizeMax ∧ s'.rest = qs.flatMap reqMarks := by
  induction h2 generalizing h1 s with
  | cons h h2 ih =>
    have ho := hok.2.2.2 h (by rw [hh]; simp)
    have hrest : s.rest = headerMarks h ++ (restMarks h2 q.framing ++ qs.flatMap reqMarks) := by rw [e3]; simp [restMarks]
    have hle : (headerMarks h).length ≤ (restMarks (h :: h2) q.framing).length := by simp only [restMarks, List.flatMap_cons, List.length_append]; omega
    have hnp := np_all (avail := (restMarks (h :: h2) q.framing).length) hrs e3 (by rw [reqMarks, hh]; simp only [restMarks, List.length_append, List.flatMap_append]; omega) (Nat.le_refl _)
    have hres : readResult s (restMarks (h :: h2) q.framing).length = some (headerMarks h).length := by
      rw [readResult, e1, hrest]; exact header_there h ho.1 _ _ hle
    have hp := parse_quiet s (headerMarks h) (restMarks h2 q.framing ++ qs.flatMap reqMarks) (restMarks (h :: h2) q.framing).length e2 hrest (headerMarks_evs h)
    refine ih (h1 ++ [h]) (by rw [hh]; simp) (parse s (restMarks (h :: h2) q.framing).length (headerMarks h).length) (hr.step ⟨_, _, ?_, hnp, hres, rfl⟩) ?_ ?_ ?_
    · rw [e3]; simp
    · rw [hp]; simp [runFinish, e1]
    · rw [hp]; simp [runFinish, e1, e2]
    · rw [hp]; simp [runFinish, e1]
  | nil =>
    have hlen : (restMarks [] q.framing).length = 2 := by simp [restMarks, blankMarks, hf, framingMarks]
    have hnp := np_all (avail := 2) hrs e3 (by rw [reqMarks, List.length_append, restMarks, restMarks]; simp only [List.length_append, List.flatMap_nil, List.length_nil]; omega) (by omega)
    have hrest : s.rest = [] ++ { byte := 13 } :: { byte := 10, evs := headerEvents q.framing } :: (framingMarks q.framing ++ qs.flatMap reqMarks) := by
      rw [e3]; simp [restMarks, blankMarks]
    have hres : readResult s 2 = some 2 := by
      rw [readResult, e1, hrest]
      exact lineEnd_there [] _ _ _ 2 (by simp) rfl rfl (by simp)
    have ht : s.rest.take 2 = blankMarks q.framing := by rw [e3]; simp [restMarks, blankMarks]
    have hd : s.rest.drop 2 = framingMarks q.framing ++ qs.flatMap reqMarks := by rw [e3]; simp [restMarks, blankMarks]
    have hev : (blankMarks q.framing).flatMap (·.evs) = headerEvents q.framing := by simp [blankMarks]
    have hp : parse s 2 2 = runFinish ((headerEvents q.framing).foldl callback { s with fed := blankMarks q.framing :: s.fed, rest := framingMarks q.framing ++ qs.flatMap reqMarks }) := by
      simp [parse, e2, ht, hd, execute, hev]
    refine ⟨parse s 2 2, hr.step ⟨2, 2, by rw [e3, List.length_append]; omega, hnp, hres, rfl⟩, ?_, ?_, ?_⟩
    · rw [hp]; simp [hf, headerEvents, callback, runFinish]
    · rw [hp]; simp [hf, headerEvents, callback, runFinish, sizeMax]
    · rw [parse_rest, show fedLen s 2 2 = 2 by (unfold fedLen; rw [if_neg (by omega)]), hd, hf]; rfl

/-- C44, deviation: whatever two requests without Content-Length (e.g. GET requests) a client sends on one connection, waiting for the first response: if
all bytes of the second request but the last one arrive together, the last byte is not taken notice of any more when it arrives.  The request is complete,
but the server goes on waiting for another end of line. -/
theorem second_request_stuck (r1 r2 : Req) (ok1 : r1.Ok) (ok2 : r2.Ok) (f1 : r1.framing = .none) (f2 : r2.framing = .none) (hsz : wireLen [r1, r2] < sizeMax) :
    ∃ s, WReach [r1, r2] s ∧ s.fed.reverse.flatten ++ s.rest = [r1, r2].flatMap reqMarks ∧ s.rest.length = 1 ∧ ∀ s', ¬ Step s s' := by
  -- the first request
  have hrs : [r1, r2] = [] ++ r1 :: [r2] := rfl
  have hw : wireLen [r1, r2] = (reqMarks r1).length + (reqMarks r2).length := by simp [wireLen]
  have hl1 : (lineMarks r1).length ≤ (reqMarks r1).length := by simp [reqMarks]
  have hs0 : (start ([r1, r2].flatMap reqMarks)).rest = reqMarks r1 ++ [r2].flatMap reqMarks := by simp [start]
  have hnp0 := np_all (avail := (reqMarks r1).length) hrs hs0 (Nat.le_refl _) (Nat.le_refl _)
  have hres0 : readResult (start ([r1, r2].flatMap reqMarks)) (reqMarks r1).length = some (lineMarks r1).length := by
    have : (start ([r1, r2].flatMap reqMarks)).finish = .requestLine := rfl
    rw [readResult, this, hs0]; exact line_there r1 ok1 _ _ hl1
  have hp0 := parse_quiet (start ([r1, r2].flatMap reqMarks)) (lineMarks r1) (restMarks r1.headers r1.framing ++ [r2].flatMap reqMarks) (reqMarks r1).length rfl
    (by rw [hs0, reqMarks, List.append_assoc]) (lineMarks_evs r1)
  have hw1 : WReach [r1, r2] (parse (start ([r1, r2].flatMap reqMarks)) (reqMarks r1).length (lineMarks r1).length) :=
    WReach.refl.step ⟨_, _, by rw [hs0]; simp, hnp0, hres0, rfl⟩
  obtain ⟨s, hr, e1, e2, e3⟩ := read_headers hrs ok1 f1 [] r1.headers rfl _ hw1 (by rw [hp0]; simp [runFinish, start]) (by rw [hp0]; simp [runFinish, start]) (by rw [hp0]; simp [runFinish, start])
  -- the second request
  have e3' : s.rest = reqMarks r2 ++ ([] : List Req).flatMap reqMarks := by rw [e3]; simp
  have hrs2 : [r1, r2] = [r1] ++ r2 :: [] := rfl
  let w := lineMarks r2 ++ (r2.headers.flatMap headerMarks ++ [{ byte := 13 }])
  have hwm : reqMarks r2 = w ++ [{ byte := 10, evs := [.headers none, .message] }] := by
    simp [w, reqMarks, restMarks, f2, blankMarks, headerEvents, framingMarks]
  have hwl : (reqMarks r2).length = w.length + 1 := by rw [hwm]; simp
  have hlw : (lineMarks r2).length ≤ w.length := by simp [w]
  have hev : w.flatMap (·.evs) = [] := by
    have hh : (r2.headers.flatMap headerMarks).flatMap (·.evs) = [] := by
      rw [List.flatMap_assoc, List.flatMap_eq_nil_iff]
      intro h _
      exact headerMarks_evs h
    simp only [w, List.flatMap_append, lineMarks_evs, hh]; rfl
  have hnp := np_all (avail := w.length) hrs2 e3' (Nat.le_refl _) (by omega)
  have hres : readResult s w.length = some (lineMarks r2).length := by
    rw [readResult, e1, e3']; exact line_there r2 ok2 _ _ hlw
  have hfl : fedLen s w.length (lineMarks r2).length = w.length := by
    unfold fedLen; rw [if_pos (by rw [e2]; decide), e2]; omega
  have ht : s.rest.take w.length = w := by rw [e3', hwm]; simp
  have hd : (parse s w.length (lineMarks r2).length).rest = [{ byte := 10, evs := [.headers none, .message] }] := by
    rw [parse_rest, hfl, e3', hwm]; simp
  have hp : parse s w.length (lineMarks r2).length = runFinish (before s w.length) := by rw [parse_eq, hfl, ht, hev]; rfl
  have hfin : (parse s w.length (lineMarks r2).length).finish = .headerLine := by rw [hp]; simp [runFinish, before, e1]
  have hw2 : WReach [r1, r2] (parse s w.length (lineMarks r2).length) := hr.step ⟨_, _, by rw [e3']; simp; omega, hnp, hres, rfl⟩
  refine ⟨_, hw2, (bytes_in_order _ _ hw2.reach).1, by rw [hd]; rfl, ?_⟩
  rintro s' ⟨avail, num, hav, hrr, _⟩
  rw [readResult, hfin, hd] at hrr
  cases avail with
  | zero => simp [lineEnd] at hrr
  | succ n => simp [lineEnd] at hrr

/-- Concrete requests that meet its hypotheses. -/
example : ∃ s, WReach [get "/a", get "/b"] s ∧ s.rest.length = 1 ∧ ∀ s', ¬ Step s s' := by
  have ok : ∀ u, 13 ∉ str u → (get u).Ok := by
    intro u hu
    refine ⟨?_, hu, ?_, ?_⟩
    · show 13 ∉ str "GET "; decide +kernel
    · show 13 ∉ str " HTTP/1.1"; decide +kernel
    · intro h hh; simp [get] at hh; subst hh; decide +kernel
  obtain ⟨s, h1, _, h2, h3⟩ := second_request_stuck (get "/a") (get "/b") (ok _ (by decide +kernel)) (ok _ (by decide +kernel)) rfl rfl (by decide +kernel)
  exact ⟨s, h1, h2, h3⟩

theorem allM_flatten {rs : List Req} {l : List (List Mark)} (h : AllM rs l) : l.flatten = rs.flatMap reqMarks := by
  induction h with
  | nil => rfl
  | @cons r rs l ls hm _ ih =>
    rw [List.flatten_append, ih, List.flatMap_cons]
    obtain ⟨body, rfl, h2, _⟩ := hm
    congr 1
    rw [List.flatten_append, h2]
    simp [reqMarks, restMarks, List.flatMap_def]

/-- C44: as long as all earlier requests of the connection carry a Content-Length, reading never gets stuck: if bytes of the head of a request or of a body
have arrived, and all of them, there is a read that is answered - up to the head of the request `r`. -/
theorem never_stuck_partial (pre : List Req) (r : Req) (tail : List Mark) (hpre : ∀ q ∈ pre, q.HasLength) (hok : ∀ q ∈ pre ++ [r], q.Ok) (s : State)
    (h : Reach (start ((pre ++ [r]).flatMap reqMarks ++ tail)) s) (hrest : (framingMarks r.framing ++ tail).length < s.rest.length) : ∃ s', Step s s' := by
  obtain ⟨dn, l, q, qs, cur, hall, hl, hfed, hph⟩ := reach_inv pre r tail hpre hok s h
  have hq : q.Ok := hok q (by rw [hall]; simp)
  cases hph with
  | line e1 e2 e3 =>
    refine ⟨_, s.rest.length, (lineMarks q).length, Nat.le_refl _, ?_, rfl⟩
    rw [readResult, e1, e3]
    exact line_there q hq _ _ (by simp only [reqMarks, List.length_append]; omega)
  | header h1 h2 e0 e1 e2 e3 =>
    cases h2 with
    | cons h h2 =>
      refine ⟨_, s.rest.length, (headerMarks h).length, Nat.le_refl _, ?_, rfl⟩
      have hr : s.rest = headerMarks h ++ (restMarks h2 q.framing ++ (qs.flatMap reqMarks ++ tail)) := by rw [e3]; simp [restMarks]
      rw [readResult, e1, hr]
      exact header_there h (hq.2.2.2 h (by rw [e0]; simp)).1 _ _ (by simp)
    | nil =>
      refine ⟨_, s.rest.length, 2, Nat.le_refl _, ?_, rfl⟩
      have hr : s.rest = [] ++ { byte := 13 } :: { byte := 10, evs := headerEvents q.framing } :: (framingMarks q.framing ++ (qs.flatMap reqMarks ++ tail)) := by
        rw [e3]; simp [restMarks, blankMarks]
      rw [readResult, e1, hr]
      exact lineEnd_there [] _ _ _ _ (by simp) rfl rfl (by simp)
  | body b2 bs hne hb2 hbs hbp e1 e2 e3 =>
    refine ⟨_, s.rest.length, s.rest.length, Nat.le_refl _, ?_, rfl⟩
    rw [readResult, e1]
    simp only
    rw [if_pos (by omega)]
  | free bs hqs =>
    subst hqs
    obtain ⟨h1, h2⟩ := List.append_inj' hall rfl
    simp at h2
    subst h1 h2
    have hb := (bytes_in_order _ s h).1
    have := congrArg List.length hb
    rw [hfed, List.flatten_append, allM_flatten hl] at this
    simp only [List.flatten_append, List.length_append, List.flatMap_append, List.flatMap_cons, List.flatMap_nil, List.append_nil] at this hrest
    have hh : (headChunks r).flatten.length + (framingMarks r.framing).length = (reqMarks r).length := by
      simp [headChunks, reqMarks, restMarks, List.flatMap_def]; omega
    omega

set_option maxRecDepth 100000 in
/-- C44, deviation: even if the client waits for each response, the header lines of the second GET request are not kept in one piece: the parser is given
"Ho" and "st: a" and reports the header field in two parts. -/
theorem header_cut_in_two :
    ∃ s, WReach [get "/a", get "/b"] s ∧ s.fed.reverse.map chunkBytes = [str "GET /a HTTP/1.1\r\n", str "Host: a\r\n", str "\r\n", str "GET /b HTTP/1.1\r\nHo", str "st: a\r\n\r\n"] := by
  have hst : ∀ (s : State) (a : Nat) (s' : State), WReach [get "/a", get "/b"] s → stepC s a = some s' → a ≤ s.rest.length →
      (∀ n < 3, wireLen [get "/a", get "/b"] - s.rest.length < wireLen ([get "/a", get "/b"].take n) →
        wireLen [get "/a", get "/b"] - s.rest.length + a ≤ wireLen ([get "/a", get "/b"].take n)) → WReach [get "/a", get "/b"] s' := by
    intro s a s' hr hs ha hn
    refine hr.step ?_
    unfold stepC at hs
    cases hrr : readResult s a with
    | none => rw [hrr] at hs; exact absurd hs (by simp)
    | some n =>
      rw [hrr] at hs
      simp at hs
      refine ⟨a, n, ha, ?_, hrr, hs.symm⟩
      intro pre post hpp hc
      have hp : pre = [get "/a", get "/b"].take pre.length := by rw [hpp]; simp
      have hl : pre.length < 3 := by have := congrArg List.length hpp; simp at this; omega
      have := hn pre.length hl
      rw [← hp] at this
      exact this hc
  let s0 := start ([get "/a", get "/b"].flatMap reqMarks)
  let s1 := parse s0 28 17
  let s2 := parse s1 11 9
  let s3 := parse s2 2 2
  let s4 := parse s3 19 17
  let s5 := parse s4 9 7
  have r1 : WReach [get "/a", get "/b"] s1 := by
    apply hst s0 28 s1 .refl
    · have : readResult s0 28 = some 17 := by decide +kernel
      rw [stepC, this]; rfl
    · decide +kernel
    · decide +kernel
  have r2 : WReach [get "/a", get "/b"] s2 := by
    apply hst s1 11 s2 r1
    · have : readResult s1 11 = some 9 := by decide +kernel
      rw [stepC, this]; rfl
    · decide +kernel
    · decide +kernel
  have r3 : WReach [get "/a", get "/b"] s3 := by
    apply hst s2 2 s3 r2
    · have : readResult s2 2 = some 2 := by decide +kernel
      rw [stepC, this]; rfl
    · decide +kernel
    · decide +kernel
  have r4 : WReach [get "/a", get "/b"] s4 := by
    apply hst s3 19 s4 r3
    · have : readResult s3 19 = some 17 := by decide +kernel
      rw [stepC, this]; rfl
    · decide +kernel
    · decide +kernel
  have r5 : WReach [get "/a", get "/b"] s5 := by
    apply hst s4 9 s5 r4
    · have : readResult s4 9 = some 7 := by decide +kernel
      rw [stepC, this]; rfl
    · decide +kernel
    · decide +kernel
  exact ⟨s5, r5, by decide +kernel⟩

/-- Requests that meet the hypotheses of `urls_complete_waiting_partial`: a POST with a body, then only GETs, then a POST again. -/
example : Fine [post "/b" "1234567", get "/a", get "/b", post "/c" "7654321"] where
  ok := by
    intro q hq
    simp at hq
    rcases hq with rfl | rfl | rfl | rfl <;> refine ⟨⟨by decide +kernel, by decide +kernel, by decide +kernel, ?_⟩, by decide +kernel⟩ <;>
      (intro h hh; simp [post, get] at hh; subst hh; decide +kernel)
  noUpgrade := by
    intro q hq
    simp at hq
    rcases hq with rfl | rfl | rfl <;> simp [post, get]
  order := by
    have hb : ∀ u, ¬ (get u).HasBody := by rintro u ⟨b, body, h⟩; simp [get] at h
    simp [hb]
  size := by decide +kernel

end Cio.HttpChunks
