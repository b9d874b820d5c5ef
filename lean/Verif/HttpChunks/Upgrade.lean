import Verif.HttpChunks.Props
/-
A connection that is handed over to another protocol: what `parse` (http_server.c 563-615) does with the bytes around the end of an upgrade request
(C61).  The bytes behind that request are not for the HTTP parser: it stops behind the empty line, whatever it was given.
-/
namespace Cio.HttpChunks

/-! ### Model -/

/-- What the HTTP server does with the connection. -/
inductive Mode where
  /-- it reads requests -/
  | reading
  /-- `parser->upgrade`, http_server.c 610: it does not read any more, the websocket does -/
  | upgraded
  /-- it answered with "400 Bad Request" because the parser did not take all bytes, http_server.c 596-603 -/
  | refused
deriving DecidableEq, Repr

structure UState where
  http : State
  mode : Mode := .reading

/-- `parse`, http_server.c 563-615, on a connection with an upgrade request behind which `behind` bytes follow: `http_parser_execute` consumes
(`nparsed`, line 588) nothing behind that request. -/
def parseUpgrade (behind : Nat) (s : State) (avail num : Nat) : UState :=
  let n := if s.remaining > 0 then min avail s.remaining else num
  let s' := if s.remaining > 0 then { s with remaining := s.remaining - n } else s
  let nparsed := min n (s.rest.length - behind)
  let s' := execute { s' with fed := s.rest.take nparsed :: s.fed, rest := s.rest.drop nparsed } (s.rest.take nparsed)
  if nparsed ≠ n then ⟨s', .refused⟩
  else if s'.rest.length ≤ behind then ⟨s', .upgraded⟩
  else ⟨runFinish s', .reading⟩

/-- One read of the HTTP server is answered. -/
def UStep (behind : Nat) (s s' : UState) : Prop :=
  s.mode = .reading ∧ ∃ avail num, avail ≤ s.http.rest.length ∧ readResult s.http avail = some num ∧ s' = parseUpgrade behind s.http avail num

inductive UReach (behind : Nat) (s : UState) : UState → Prop where
  | refl : UReach behind s s
  | step {s' s''} : UReach behind s s' → UStep behind s' s'' → UReach behind s s''

/-! ### Specification -/

/-- What is sent on the connection: requests, an upgrade request, and the bytes of the other protocol. -/
def connection (pre : List Req) (u : Req) (post : Bytes) : List Mark := (pre ++ [u]).flatMap reqMarks ++ plain post

/-- The HTTP server at the beginning of the connection. -/
def opened (pre : List Req) (u : Req) (post : Bytes) : UState := ⟨start (connection pre u post), .reading⟩

/-- A request for another protocol. -/
def Req.IsUpgrade (r : Req) : Prop := r.framing = .upgrade

/-! ### Proofs -/

/-- A read gives the parser nothing behind the current request. -/
theorem chunk_within {q : Req} {qs : List Req} {tail : List Mark} {s : State} {cur : List (List Mark)} (hq : q.Ok)
    (hph : Phase q qs tail s cur) (hnf : ∀ bs, cur ≠ headChunks q ++ bs ∨ qs ≠ []) {avail num : Nat} (hres : readResult s avail = some num) :
    (if s.remaining > 0 then min avail s.remaining else num) + (qs.flatMap reqMarks ++ tail).length ≤ s.rest.length := by
  obtain ⟨o1, o2, o3, o4⟩ := hq
  cases hph with
  | line e1 e2 e3 =>
    rw [readResult, e1] at hres
    simp only at hres
    have hrest : s.rest = (plain q.method ++ q.url.map (fun b => { byte := b, url := true }) ++ plain q.version) ++ { byte := 13 } :: { byte := 10 } :: (restMarks q.headers q.framing ++ (qs.flatMap reqMarks ++ tail)) := by
      rw [e3]; simp [reqMarks, lineMarks, crlf, plain]
    rw [hrest] at hres ⊢
    have := lineEnd_take _ _ _ _ _ _ (by
      intro m hm
      simp only [List.mem_append] at hm
      rcases hm with (hm | hm) | hm
      · exact plain_no13 _ o1 m hm
      · simp at hm; obtain ⟨b, hb, rfl⟩ := hm
        rintro h'; simp at h'; exact o2 (h' ▸ hb)
      · exact plain_no13 _ o3 m hm) rfl rfl hres
    rw [if_neg (by omega), this]
    simp only [List.length_append, List.length_cons]
    omega
  | header h1 h2 e0 e1 e2 e3 =>
    rw [readResult, e1] at hres
    simp only at hres
    cases h2 with
    | cons h h2 =>
      have hh := o4 h (by rw [e0]; simp)
      have hrest : s.rest = plain h ++ { byte := 13 } :: { byte := 10 } :: (restMarks h2 q.framing ++ (qs.flatMap reqMarks ++ tail)) := by
        rw [e3]; simp [restMarks, headerMarks, crlf, plain]
      rw [hrest] at hres ⊢
      have := lineEnd_take _ _ _ _ _ _ (plain_no13 _ hh.1) rfl rfl hres
      rw [if_neg (by omega), this]
      simp only [List.length_append, List.length_cons]
      omega
    | nil =>
      have hrest : s.rest = [] ++ { byte := 13 } :: { byte := 10, evs := headerEvents q.framing } :: (framingMarks q.framing ++ (qs.flatMap reqMarks ++ tail)) := by
        rw [e3]; simp [restMarks, blankMarks]
      rw [hrest] at hres ⊢
      have := lineEnd_take [] _ _ _ _ _ (by simp) rfl rfl hres
      rw [if_neg (by omega), this]
      simp only [List.length_append, List.length_cons, List.length_nil]
      omega
  | body b2 bs hne hb2 hbs hbp e1 e2 e3 =>
    have hpos : b2.length > 0 := List.length_pos_iff.mpr hb2
    rw [if_pos (by omega), e3, List.length_append (as := bodyMarks b2), bodyMarks_length, e2]
    omega
  | free bs hqs => rcases hnf bs with h | h
                   · exact absurd rfl h
                   · exact absurd hqs h

theorem mpieces_flatten {r : Req} {l : List (List Mark)} (h : MPieces r l) : l.flatten = reqMarks r := by
  obtain ⟨body, rfl, h2, _⟩ := h
  simp [reqMarks, restMarks, h2, List.flatMap_def]

theorem allM_flatten {rs : List Req} {l : List (List Mark)} (h : AllM rs l) : l.flatten = rs.flatMap reqMarks := by
  induction h with
  | nil => rfl
  | cons h _ ih => rw [List.flatten_append, ih, mpieces_flatten h, List.flatMap_cons]

theorem headChunks_flatten {r : Req} (h : r.IsUpgrade) : (headChunks r).flatten = reqMarks r := by
  have h' : r.framing = .upgrade := h
  simp [headChunks, reqMarks, restMarks, List.flatMap_def, h', framingMarks]

/-- While bytes of the upgrade request are missing, the connection is within a request. -/
theorem not_free {pre : List Req} {u : Req} {tail : List Mark} {s : State} (hu : u.IsUpgrade)
    (hb : s.fed.reverse.flatten ++ s.rest = (pre ++ [u]).flatMap reqMarks ++ tail) (hlt : tail.length < s.rest.length)
    {dn l q qs cur bs} (hall : pre ++ [u] = dn ++ q :: qs) (hl : AllM dn l) (hfed : s.fed.reverse = l ++ cur) (hqs : qs = []) :
    cur ≠ headChunks q ++ bs := by
  subst hqs
  rintro rfl
  obtain ⟨h1, h2⟩ := List.append_inj' hall rfl
  simp at h2
  subst h1 h2
  have := congrArg List.length hb
  rw [hfed, List.flatten_append, List.flatten_append, allM_flatten hl, headChunks_flatten hu] at this
  simp only [List.length_append, List.flatMap_append, List.flatMap_cons, List.flatMap_nil, List.append_nil] at this
  omega

/-- As long as the server reads, it is in a state of the model without upgrades; the bytes are as they were sent. -/
structure UInv (pre : List Req) (u : Req) (post : Bytes) (s : UState) : Prop where
  reading : s.mode = .reading → Reach (start (connection pre u post)) s.http ∧ post.length < s.http.rest.length
  bytes : s.http.fed.reverse.flatten ++ s.http.rest = connection pre u post
  ended : s.mode = .upgraded → s.http.rest.length = post.length
  ok : s.mode ≠ .refused

theorem UInv.start (pre : List Req) (u : Req) (post : Bytes) : UInv pre u post (opened pre u post) where
  reading _ := by
    refine ⟨.refl, ?_⟩
    have : 0 < (reqMarks u).length := by simp [reqMarks, lineMarks, crlf, plain]; omega
    simp only [opened, HttpChunks.start, connection, List.flatMap_append, List.flatMap_cons, List.flatMap_nil, List.append_nil, List.length_append]
    simp only [plain, List.length_map] at *
    omega
  bytes := by simp [opened, HttpChunks.start]
  ended h := by simp [opened] at h
  ok h := by simp [opened] at h

theorem UInv.step {pre : List Req} {u : Req} {post : Bytes} {s s' : UState} (hpre : ∀ q ∈ pre, q.HasLength) (hok : ∀ q ∈ pre ++ [u], q.Ok)
    (hu : u.IsUpgrade) (hi : UInv pre u post s) (hs : UStep post.length s s') : UInv pre u post s' := by
  obtain ⟨hm, avail, num, hav, hres, rfl⟩ := hs
  obtain ⟨hr, hlt⟩ := hi.reading hm
  have hpl : (plain post).length = post.length := by simp [plain]
  have hinv := reach_inv pre u (plain post) hpre hok s.http hr
  obtain ⟨dn, l, q, qs, cur, hall, hl, hfed, hph⟩ := hinv
  have hqok : q.Ok := hok q (by rw [hall]; simp)
  have hb := hi.bytes
  have hch := chunk_within hqok hph (fun bs => by
    by_cases hqs : qs = []
    · exact .inl (not_free hu (by rw [hb, connection]) (by omega) hall hl hfed hqs)
    · exact .inr hqs) hres
  have hstep : Step s.http (parse s.http avail num) := ⟨avail, num, hav, hres, rfl⟩
  have hbd := readResult_bounds s.http avail num hav hres
  generalize hn : (if s.http.remaining > 0 then min avail s.http.remaining else num) = n at hch
  have hlen : n + post.length ≤ s.http.rest.length := by
    rw [List.length_append, hpl] at hch; omega
  have hmin : min n (s.http.rest.length - post.length) = n := by omega
  have hpar : parse s.http avail num = runFinish (execute { (if s.http.remaining > 0 then { s.http with remaining := s.http.remaining - n } else s.http) with
      fed := s.http.rest.take n :: s.http.fed, rest := s.http.rest.drop n } (s.http.rest.take n)) := by
    simp only [parse, hn]
  have hx : parseUpgrade post.length s.http avail num =
      (let x := execute { (if s.http.remaining > 0 then { s.http with remaining := s.http.remaining - n } else s.http) with
        fed := s.http.rest.take n :: s.http.fed, rest := s.http.rest.drop n } (s.http.rest.take n)
       if x.rest.length ≤ post.length then ⟨x, .upgraded⟩ else ⟨runFinish x, .reading⟩) := by
    simp only [parseUpgrade, hn, hmin, ne_eq, not_true_eq_false, if_false]
  generalize hxx : execute { (if s.http.remaining > 0 then { s.http with remaining := s.http.remaining - n } else s.http) with
        fed := s.http.rest.take n :: s.http.fed, rest := s.http.rest.drop n } (s.http.rest.take n) = x at hpar hx
  have hf : x.fed = s.http.rest.take n :: s.http.fed ∧ x.rest = s.http.rest.drop n := by
    rw [← hxx, execute]; exact callbacks_fed _ _
  have hxb : x.fed.reverse.flatten ++ x.rest = connection pre u post := by rw [← hb, hf.1, hf.2]; simp
  have hxl : x.rest.length = s.http.rest.length - n := by rw [hf.2]; simp
  rw [hx]
  dsimp only
  by_cases hc : x.rest.length ≤ post.length
  · rw [if_pos hc]
    exact ⟨(fun h => nomatch h), hxb, fun _ => (by show x.rest.length = _; omega), (fun h => nomatch h)⟩
  · rw [if_neg hc]
    refine ⟨fun _ => ⟨?_, ?_⟩, ?_, (fun h => nomatch h), (fun h => nomatch h)⟩
    · show Reach _ (runFinish x); rw [← hpar]; exact hr.step hstep
    · show _ < (runFinish x).rest.length; rw [(runFinish_fed x).2]; omega
    · show (runFinish x).fed.reverse.flatten ++ (runFinish x).rest = _
      rw [(runFinish_fed x).1, (runFinish_fed x).2]; exact hxb

theorem ureach_inv {pre : List Req} {u : Req} {post : Bytes} (hpre : ∀ q ∈ pre, q.HasLength) (hok : ∀ q ∈ pre ++ [u], q.Ok)
    (hu : u.IsUpgrade) {s : UState} (h : UReach post.length (opened pre u post) s) : UInv pre u post s := by
  induction h with
  | refl => exact UInv.start pre u post
  | step _ hs ih => exact ih.step hpre hok hu hs

theorem append_plain {a b : List Mark} {m : List Mark} {post : Bytes} (h : a ++ b = m ++ plain post) (hl : b.length = post.length) : a = m ∧ b = plain post :=
  List.append_inj' h (by simpa [plain] using hl)

/-- C61: however the bytes arrive, an upgrade request is never answered with "400 Bad Request" because of the bytes behind it, and when the connection has
been handed over, the HTTP parser has got exactly the bytes up to the end of the upgrade request; the websocket reads everything behind it. -/
theorem behind_upgrade_untouched_partial (pre : List Req) (u : Req) (post : Bytes) (hpre : ∀ q ∈ pre, q.HasLength) (hok : ∀ q ∈ pre ++ [u], q.Ok)
    (hu : u.IsUpgrade) (s : UState) (h : UReach post.length (opened pre u post) s) :
    s.mode ≠ .refused ∧
    (s.mode = .upgraded → chunkBytes s.http.rest = post ∧ chunkBytes s.http.fed.reverse.flatten = (pre ++ [u]).flatMap Req.bytes) ∧
    (s.mode = .reading → ∃ x, x ≠ [] ∧ chunkBytes s.http.rest = x ++ post) := by
  have hi := ureach_inv hpre hok hu h
  have hfl : ∀ rs : List Req, chunkBytes (rs.flatMap reqMarks) = rs.flatMap Req.bytes := by
    intro rs
    induction rs with
    | nil => rfl
    | cons a t ih =>
      have := reqMarks_bytes a
      simp only [chunkBytes, List.flatMap_cons, List.map_append] at *
      rw [this, ih]
  refine ⟨hi.ok, ?_, ?_⟩
  · intro hm
    obtain ⟨h1, h2⟩ := append_plain hi.bytes (hi.ended hm)
    rw [h1, h2, plain_bytes]
    exact ⟨rfl, hfl _⟩
  · intro hm
    have hlt := (hi.reading hm).2
    refine ⟨chunkBytes (s.http.rest.take (s.http.rest.length - post.length)), ?_, ?_⟩
    · intro hc
      have := congrArg List.length hc
      simp only [chunkBytes, List.length_map, List.length_take, List.length_nil] at this
      omega
    · have hsplit : s.http.rest = s.http.rest.take (s.http.rest.length - post.length) ++ s.http.rest.drop (s.http.rest.length - post.length) := (List.take_append_drop _ _).symm
      have hb := hi.bytes
      rw [hsplit, ← List.append_assoc] at hb
      have := (append_plain hb (by simp; omega)).2
      have hc : chunkBytes s.http.rest = chunkBytes (s.http.rest.take (s.http.rest.length - post.length)) ++ chunkBytes (s.http.rest.drop (s.http.rest.length - post.length)) := by
        conv => lhs; rw [hsplit]
        simp only [chunkBytes, List.map_append]
      rw [hc, this, plain_bytes]

/-- Some bytes with a line end contain a first line end. -/
theorem lineEnd_some (l x : List Mark) (a b : Mark) (ha : a.byte = 13) (hb : b.byte = 10) : ∃ k, lineEnd (l ++ a :: b :: x) = some k := by
  induction l with
  | nil => exact ⟨2, by simp [lineEnd, ha, hb]⟩
  | cons c t ih =>
    obtain ⟨k, hk⟩ := ih
    cases ht : t ++ a :: b :: x with
    | nil => simp at ht
    | cons d r =>
      rw [List.cons_append, ht, lineEnd]
      split
      · exact ⟨_, rfl⟩
      · rw [← ht, hk]; exact ⟨_, rfl⟩

/-- C61: the HTTP server gets to the end of the upgrade request: as long as it reads and the rest of the connection has arrived, its read is answered, and every
answered read leaves less. -/
theorem upgrade_reached_partial (pre : List Req) (u : Req) (post : Bytes) (hpre : ∀ q ∈ pre, q.HasLength) (hok : ∀ q ∈ pre ++ [u], q.Ok)
    (hu : u.IsUpgrade) (s : UState) (h : UReach post.length (opened pre u post) s) (hm : s.mode = .reading) :
    (∃ num, readResult s.http s.http.rest.length = some num) ∧ ∀ s', UStep post.length s s' → s'.http.rest.length < s.http.rest.length := by
  have hi := ureach_inv hpre hok hu h
  obtain ⟨hr, hlt⟩ := hi.reading hm
  constructor
  · have hinv := reach_inv pre u (plain post) hpre hok s.http hr
    obtain ⟨dn, l, q, qs, cur, hall, hl, hfed, hph⟩ := hinv
    have hle : ∀ f, s.http.finish = f → f ≠ .bytes → readResult s.http s.http.rest.length = lineEnd s.http.rest := by
      intro f hf hne
      unfold readResult
      rw [hf, List.take_length]
      cases f <;> first | rfl | exact absurd rfl hne
    cases hph with
    | line e1 e2 e3 =>
      rw [hle _ e1 (by simp), e3]
      obtain ⟨k, hk⟩ := lineEnd_some (plain q.method ++ q.url.map (fun b => { byte := b, url := true }) ++ plain q.version)
        (restMarks q.headers q.framing ++ (qs.flatMap reqMarks ++ plain post)) { byte := 13 } { byte := 10 } rfl rfl
      exact ⟨k, by rw [← hk]; simp [reqMarks, lineMarks, crlf, plain]⟩
    | header h1 h2 e0 e1 e2 e3 =>
      rw [hle _ e1 (by simp), e3]
      obtain ⟨k, hk⟩ := lineEnd_some (h2.flatMap headerMarks) (framingMarks q.framing ++ (qs.flatMap reqMarks ++ plain post)) { byte := 13 } { byte := 10, evs := headerEvents q.framing } rfl rfl
      exact ⟨k, by rw [← hk]; simp [restMarks, blankMarks]⟩
    | body b2 bs hne hb2 hbs hbp e1 e2 e3 =>
      unfold readResult
      rw [e1]
      exact ⟨_, if_pos (by omega)⟩
    | free bs hqs =>
      have hpl : (plain post).length = post.length := by simp [plain]
      exact absurd rfl (not_free hu (by rw [hi.bytes, connection]) (by omega) hall hl hfed hqs (bs := bs))
  · rintro s' ⟨_, avail, num, hav, hres, rfl⟩
    have hbd := readResult_bounds s.http avail num hav hres
    have hrest : (parseUpgrade post.length s.http avail num).http.rest =
        s.http.rest.drop (min (if s.http.remaining > 0 then min avail s.http.remaining else num) (s.http.rest.length - post.length)) := by
      unfold parseUpgrade
      dsimp only
      generalize (if s.http.remaining > 0 then min avail s.http.remaining else num) = n
      generalize (if s.http.remaining > 0 then { s.http with remaining := s.http.remaining - n } else s.http) = t
      split
      · rw [execute, (callbacks_fed _ _).2]
      · split
        · rw [execute, (callbacks_fed _ _).2]
        · rw [(runFinish_fed _).2, execute, (callbacks_fed _ _).2]
    rw [hrest, List.length_drop]
    split <;> omega

/-! ### The statement is false without the condition -/

/-- One step, computed. -/
def ustepC (behind : Nat) (s : UState) (avail : Nat) : Option UState :=
  if s.mode = .reading ∧ avail ≤ s.http.rest.length then (readResult s.http avail).map (parseUpgrade behind s.http avail) else none

def urunC (behind : Nat) (s : UState) : List Nat → Option UState
  | [] => some s
  | a :: l => (ustepC behind s a).bind (urunC behind · l)

theorem urunC_reach {behind : Nat} {s0 s s' : UState} {l : List Nat} (h0 : UReach behind s0 s) (h : urunC behind s l = some s') : UReach behind s0 s' := by
  induction l generalizing s with
  | nil => simp [urunC] at h; exact h ▸ h0
  | cons a t ih =>
    rw [urunC] at h
    unfold ustepC at h
    split at h
    · next ha =>
      cases hr : readResult s.http a with
      | none => rw [hr] at h; exact absurd h (by simp)
      | some n => rw [hr] at h; exact ih (h0.step ⟨ha.1, a, n, ha.2, hr, rfl⟩) h
    · exact absurd h (by simp)

def upgradeReq (url : String) : Req :=
  { method := str "GET ", url := str url, version := str " HTTP/1.1", headers := [str "Upgrade: websocket", str "Connection: Upgrade"], framing := .upgrade }

/-- A masked text frame "Hi". -/
def hiFrame : Bytes := [0x81, 0x82, 0, 0, 0, 0, 0x48, 0x69]

set_option maxRecDepth 100000 in
/-- C61, deviation: after a request without Content-Length on the same connection, an upgrade request that arrives together with the first frame is refused with
"400 Bad Request". -/
theorem upgrade_refused :
    ∃ s, UReach hiFrame.length (opened [get "/a"] (upgradeReq "/ws") hiFrame) s ∧ s.mode = .refused := by
  have h : (urunC hiFrame.length (opened [get "/a"] (upgradeReq "/ws") hiFrame) [28, 11, 2, 69]).map (·.mode) = some .refused := by decide +kernel
  cases hs : urunC hiFrame.length (opened [get "/a"] (upgradeReq "/ws") hiFrame) [28, 11, 2, 69] with
  | none => rw [hs] at h; exact absurd h (by simp)
  | some s =>
    rw [hs] at h
    simp only [Option.map_some, Option.some.injEq] at h
    exact ⟨s, urunC_reach .refl hs, h⟩

/-- The hypotheses are met by a POST request and an upgrade request. -/
example : (∀ q ∈ [post "/a" "1234567"], q.HasLength) ∧ (∀ q ∈ [post "/a" "1234567"] ++ [upgradeReq "/ws"], q.Ok) ∧ (upgradeReq "/ws").IsUpgrade := by
  refine ⟨?_, ?_, rfl⟩
  · intro q hq
    simp at hq
    exact hq ▸ ⟨_, rfl⟩
  · intro q hq
    simp at hq
    rcases hq with rfl | rfl <;> refine ⟨by decide +kernel, by decide +kernel, by decide +kernel, ?_⟩ <;>
      (intro h hh; simp [post, upgradeReq] at hh; first | (subst hh; decide +kernel) | (rcases hh with rfl | rfl <;> decide +kernel))

set_option maxRecDepth 100000 in
/-- With everything in one packet the connection is handed over with the frame in the buffer. -/
example : (urunC hiFrame.length (opened [post "/a" "1234567"] (upgradeReq "/ws") hiFrame) [115, 97, 78, 76, 69, 51, 31, 10]).map
    (fun s => (s.mode, chunkBytes s.http.rest)) = some (.upgraded, hiFrame) := by decide +kernel

end Cio.HttpChunks
