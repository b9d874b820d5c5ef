import Verif.HttpChunks.Inv
/-
C44: how the bytes of a connection reach the HTTP parser and the handlers.
-/
namespace Cio.HttpChunks

/-- A new connection, see `handle_accept`, http_server.c 652 and 704. -/
def start (stream : List Mark) : State := { rest := stream }

/-- The bytes of a chunk. -/
def chunkBytes (c : List Mark) : Bytes := c.map (·.byte)

theorem runFinish_fed (s : State) : (runFinish s).fed = s.fed ∧ (runFinish s).rest = s.rest := by
  cases h : s.finish <;> simp [runFinish, h]

theorem callbacks_fed (evs : List Ev) (s : State) : (evs.foldl callback s).fed = s.fed ∧ (evs.foldl callback s).rest = s.rest := by
  induction evs generalizing s with
  | nil => exact ⟨rfl, rfl⟩
  | cons e t ih =>
    rw [List.foldl_cons, (ih _).1, (ih _).2]
    cases e with
    | message => exact ⟨rfl, rfl⟩
    | headers cl => simp only [callback]; split <;> exact ⟨rfl, rfl⟩

theorem lineEnd_bounds (l : List Mark) (n : Nat) (h : lineEnd l = some n) : 2 ≤ n ∧ n ≤ l.length := by
  induction l generalizing n with
  | nil => simp [lineEnd] at h
  | cons a t ih =>
    cases t with
    | nil => simp [lineEnd] at h
    | cons b r =>
      rw [lineEnd] at h
      split at h
      · simp at h; simp; omega
      · simp at h
        obtain ⟨m, hm, rfl⟩ := h
        have := ih m hm
        simp at this ⊢; omega

theorem readResult_bounds (s : State) (avail num : Nat) (ha : avail ≤ s.rest.length) (h : readResult s avail = some num) : 1 ≤ num ∧ num ≤ avail := by
  unfold readResult at h
  cases hf : s.finish <;> rw [hf] at h
  case bytes =>
    simp only at h
    split at h
    · simp at h; omega
    · exact absurd h (by simp)
  all_goals
    have := lineEnd_bounds _ _ h
    simp at this; omega

/-- What a step feeds. -/
theorem step_feeds {s s' : State} (h : Step s s') : ∃ n, 1 ≤ n ∧ n ≤ s.rest.length ∧ s'.fed = s.rest.take n :: s.fed ∧ s'.rest = s.rest.drop n := by
  obtain ⟨avail, num, ha, hr, rfl⟩ := h
  have hb := readResult_bounds s avail num ha hr
  refine ⟨if s.remaining > 0 then min avail s.remaining else num, ?_, ?_, ?_, ?_⟩
  · split <;> omega
  · split <;> omega
  · simp only [parse]
    rw [(runFinish_fed _).1, execute, (callbacks_fed _ _).1]
    try (split <;> rfl)
  · simp only [parse]
    rw [(runFinish_fed _).2, execute, (callbacks_fed _ _).2]

/-- C44: whatever is sent and however it arrives, the parser gets the bytes of the connection in order, each byte once, and every call makes progress. -/
theorem bytes_in_order (stream : List Mark) (s : State) (h : Reach (start stream) s) :
    s.fed.reverse.flatten ++ s.rest = stream ∧ ∀ c ∈ s.fed, c ≠ [] := by
  induction h with
  | refl => exact ⟨by simp [start], by simp [start]⟩
  | step _ hs ih =>
    obtain ⟨n, h1, h2, h3, h4⟩ := step_feeds hs
    obtain ⟨i1, i2⟩ := ih
    rw [h3, h4]
    refine ⟨by rw [← i1]; simp, ?_⟩
    intro c hc
    simp at hc
    rcases hc with rfl | hc
    · intro hc
      have := congrArg List.length hc
      simp at this
      rcases this with h | h
      · omega
      · rw [h] at h2; simp at h2; omega
    · exact i2 c hc

/-- Two lists agree as far as both go. -/
def Agree {α} (a b : List α) : Prop := a <+: b ∨ b <+: a

theorem reach_inv (pre : List Req) (r : Req) (tail : List Mark) (hpre : ∀ q ∈ pre, q.HasLength) (hok : ∀ q ∈ pre ++ [r], q.Ok) (s : State)
    (h : Reach (start ((pre ++ [r]).flatMap reqMarks ++ tail)) s) : Inv (pre ++ [r]) tail s := by
  induction h with
  | refl =>
    obtain ⟨q, qs, hq⟩ : ∃ q qs, pre ++ [r] = q :: qs := by
      cases pre with
      | nil => exact ⟨r, [], rfl⟩
      | cons a t => exact ⟨a, t ++ [r], rfl⟩
    refine ⟨[], [], q, qs, [], by simpa using hq, .nil, rfl, .line _ rfl rfl ?_⟩
    simp only [start, hq, List.flatMap_cons, List.append_assoc]
  | step _ hs ih => exact ih.step hpre hok hs

theorem prefix_append_left {α} (l : List α) {a b : List α} (h : a <+: b) : l ++ a <+: l ++ b := by
  obtain ⟨t, rfl⟩ := h; exact ⟨t, by simp⟩

/-- Every request can be cut this way. -/
theorem mpieces_exists (q : Req) : ∃ m, MPieces q m ∧ headChunks q <+: m := by
  by_cases hz : framingMarks q.framing = []
  · exact ⟨_, ⟨[], rfl, by simp [hz], by simp⟩, ⟨[], by simp [headChunks]⟩⟩
  · exact ⟨_, ⟨[framingMarks q.framing], rfl, by simp, by simpa using hz⟩, ⟨[framingMarks q.framing], by simp [headChunks]⟩⟩

theorem allM_exists (rs : List Req) : ∃ l, AllM rs l := by
  induction rs with
  | nil => exact ⟨[], .nil⟩
  | cons a t ih =>
    obtain ⟨lt, hlt⟩ := ih
    obtain ⟨m, hm, _⟩ := mpieces_exists a
    exact ⟨_, .cons hm hlt⟩

/-- The chunks agree with an aligned sequence. -/
theorem inv_agree (pre : List Req) (r : Req) (tail : List Mark) (s : State) (hi : Inv (pre ++ [r]) tail s) :
    ∃ l, AllM pre l ∧ Agree s.fed.reverse (l ++ headChunks r) := by
  obtain ⟨dn, l, q, qs, cur, hall, hl, hfed, hph⟩ := hi
  rw [hfed]
  by_cases hqs : qs = []
  · subst hqs
    obtain ⟨h1, h2⟩ := List.append_inj' hall rfl
    simp at h2
    subst h1 h2
    refine ⟨l, hl, ?_⟩
    cases hph with
    | line _ _ _ => exact .inl (prefix_append_left l ⟨_, rfl⟩)
    | header h1 h2 e0 _ _ _ =>
      refine .inl (prefix_append_left l ⟨h2.map headerMarks ++ [blankMarks r.framing], ?_⟩)
      rw [headChunks, e0]; simp
    | body b2 bs hne => exact absurd rfl hne
    | free bs _ => exact .inr (prefix_append_left l ⟨bs, rfl⟩)
  · obtain ⟨qs', z, hz⟩ : ∃ qs' z, qs = qs' ++ [z] := ⟨qs.dropLast, qs.getLast hqs, (List.dropLast_concat_getLast hqs).symm⟩
    subst hz
    have hall' : pre ++ [r] = (dn ++ q :: qs') ++ [z] := by rw [hall]; simp
    obtain ⟨h1, h2⟩ := List.append_inj' hall' rfl
    simp at h2
    subst h1 h2
    have hcur : ∃ m, MPieces q m ∧ cur <+: m := by
      cases hph with
      | line _ _ _ => obtain ⟨m, h1, _⟩ := mpieces_exists q; exact ⟨m, h1, ⟨_, rfl⟩⟩
      | header h1 h2 e0 _ _ _ =>
        obtain ⟨m, h3, h4⟩ := mpieces_exists q
        refine ⟨m, h3, List.IsPrefix.trans ⟨h2.map headerMarks ++ [blankMarks q.framing], ?_⟩ h4⟩
        rw [headChunks, e0]; simp
      | body b2 bs hne hb2 hbs hbp _ _ _ =>
        refine ⟨headChunks q ++ (bs ++ [bodyMarks b2]), ⟨bs ++ [bodyMarks b2], by simp [headChunks], by rw [← hbs]; simp, ?_⟩, ⟨[bodyMarks b2], by simp⟩⟩
        intro p hp
        simp at hp
        rcases hp with hp | rfl
        · exact hbp p hp
        · intro hc
          have := bodyMarks_length b2
          rw [hc] at this
          have := List.length_pos_iff.mpr hb2
          simp at *; omega
      | free bs hq => exact absurd hq hqs
    obtain ⟨m, hm, hc⟩ := hcur
    obtain ⟨l2, hl2⟩ := allM_exists qs'
    refine ⟨l ++ (m ++ l2), hl.append (.cons hm hl2), .inl ?_⟩
    rw [List.append_assoc]
    refine prefix_append_left l (List.IsPrefix.trans hc ⟨l2 ++ headChunks r, by simp⟩)

theorem plain_bytes (l : Bytes) : chunkBytes (plain l) = l := by
  induction l with
  | nil => rfl
  | cons a t ih => simp [chunkBytes, plain] at ih ⊢; exact ih

theorem bodyMarks_bytes (l : Bytes) : chunkBytes (bodyMarks l) = l := by
  induction l with
  | nil => rfl
  | cons a t ih => cases t with
    | nil => rfl
    | cons b r => rw [bodyMarks]
                  · simp only [chunkBytes, List.map_cons] at ih ⊢; rw [ih]
                  · simp

theorem lineMarks_bytes (r : Req) : chunkBytes (lineMarks r) = r.method ++ r.url ++ r.version ++ [13, 10] := by
  simp [lineMarks, chunkBytes, plain, crlf, Function.comp_def]

theorem headerMarks_bytes (h : Bytes) : chunkBytes (headerMarks h) = h ++ [13, 10] := by
  simp [headerMarks, chunkBytes, plain, crlf, Function.comp_def]

theorem framing_bytes (f : Framing) : chunkBytes (framingMarks f) = f.bytes := by
  cases f with
  | none => rfl
  | length body => exact bodyMarks_bytes body
  | chunked b body => exact bodyMarks_bytes (b :: body)
  | upgrade => rfl

/-- The marks of a request are its bytes. -/
theorem reqMarks_bytes (r : Req) : chunkBytes (reqMarks r) = r.bytes := by
  have h1 := lineMarks_bytes r
  have h2 := framing_bytes r.framing
  have h3 : ∀ hs : List Bytes, chunkBytes (hs.flatMap headerMarks) = hs.flatMap (· ++ [13, 10]) := by
    intro hs
    induction hs with
    | nil => rfl
    | cons a t ih =>
      have := headerMarks_bytes a
      simp only [chunkBytes, List.flatMap_cons, List.map_append] at *
      rw [this, ih]
  have h3 := h3 r.headers
  simp only [chunkBytes] at *
  simp only [reqMarks, restMarks, Req.bytes, List.map_append, h1, h2, h3, blankMarks, List.map_cons, List.map_nil, List.append_assoc]

/-- The bytes of the head of a request, cut into lines. -/
def headLines (r : Req) : List Bytes := (r.method ++ r.url ++ r.version ++ [13, 10]) :: r.headers.map (· ++ [13, 10]) ++ [[13, 10]]

theorem headChunks_bytes (r : Req) : (headChunks r).map chunkBytes = headLines r := by
  simp only [headChunks, headLines, List.map_cons, List.map_append, List.map_map, lineMarks_bytes, List.map_nil]
  congr 2
  apply List.map_congr_left
  intro a _
  exact headerMarks_bytes a

theorem mpieces_bytes {r : Req} {l : List (List Mark)} (h : MPieces r l) : Pieces r (l.map chunkBytes) := by
  obtain ⟨body, rfl, h2, h3⟩ := h
  refine ⟨body.map chunkBytes, ?_, ?_, ?_⟩
  · have := headChunks_bytes r
    simp only [headChunks, headLines] at this
    rw [List.map_append, this]
  · rw [← framing_bytes, ← h2]
    simp [chunkBytes, List.map_flatten, Function.comp_def]
    try rfl
  · intro p hp
    simp at hp
    obtain ⟨a, ha, rfl⟩ := hp
    have := h3 a ha
    simpa [chunkBytes] using this

theorem allM_bytes {rs : List Req} {l : List (List Mark)} (h : AllM rs l) : AllPieces rs (l.map chunkBytes) := by
  induction h with
  | nil => exact .nil
  | cons h _ ih => rw [List.map_append]; exact .cons (mpieces_bytes h) ih

/-- C44: as long as all earlier requests of the connection had a Content-Length field, the request line and every header line reach the parser in one
piece, and no call of the parser goes beyond the end of a request, however the bytes arrive.  `tail`: whatever comes behind. -/
theorem lines_in_one_piece_partial (pre : List Req) (r : Req) (tail : List Mark) (hpre : ∀ q ∈ pre, q.HasLength) (hok : ∀ q ∈ pre ++ [r], q.Ok) (s : State)
    (h : Reach (start ((pre ++ [r]).flatMap reqMarks ++ tail)) s) :
    ∃ l, AllPieces pre l ∧ Agree (s.fed.reverse.map chunkBytes) (l ++ headLines r) := by
  obtain ⟨l, hl, ha⟩ := inv_agree pre r tail s (reach_inv pre r tail hpre hok s h)
  refine ⟨l.map chunkBytes, allM_bytes hl, ?_⟩
  rw [← headChunks_bytes, ← List.map_append]
  rcases ha with ha | ha
  · left; exact ha.map _
  · right; exact ha.map _

/-- The calls of `on_url` for a chunk: the parser calls it for each contiguous part of a URL. -/
def urlCalls : List Mark → List Bytes
  | [] => []
  | m :: l => if m.url then joinUrl m.byte ((l.head?.map (·.url)).getD false) (urlCalls l) else urlCalls l
where
  /-- a byte in front of a call, which it belongs to if the next byte is part of the URL -/
  joinUrl (b : UInt8) (next : Bool) (calls : List Bytes) : List Bytes :=
    match next, calls with
    | true, u :: us => (b :: u) :: us
    | _, us => [b] :: us

theorem urlCalls_none (l : List Mark) (h : ∀ m ∈ l, m.url = false) : urlCalls l = [] := by
  induction l with
  | nil => rfl
  | cons a t ih => simp [urlCalls, h a (by simp), ih (fun m hm => h m (by simp [hm]))]

theorem urlCalls_skip (l x : List Mark) (h : ∀ m ∈ l, m.url = false) : urlCalls (l ++ x) = urlCalls x := by
  induction l with
  | nil => rfl
  | cons a t ih =>
    have h1 := h a (by simp)
    simpa [urlCalls, h1] using ih (fun m hm => h m (by simp [hm]))

theorem urlCalls_url (u : Bytes) (hu : u ≠ []) (x : List Mark) (h : ∀ m ∈ x, m.url = false) : urlCalls (u.map (fun b => ({ byte := b, url := true } : Mark)) ++ x) = [u] := by
  induction u with
  | nil => exact absurd rfl hu
  | cons a t ih =>
    cases t with
    | nil =>
      have := urlCalls_none x h
      cases x with
      | nil => rfl
      | cons m l =>
        have hm := h m (by simp)
        show urlCalls ({ byte := a, url := true } :: m :: l) = [[a]]
        rw [urlCalls, this]
        simp [hm, urlCalls.joinUrl]
    | cons b r =>
      have := ih (by simp)
      simp only [List.map_cons, List.cons_append] at this ⊢
      rw [urlCalls, this]
      simp [urlCalls.joinUrl]

theorem urlCalls_line (r : Req) (h : r.url ≠ []) : urlCalls (lineMarks r) = [r.url] := by
  have hp : ∀ (l : Bytes) (m : Mark), m ∈ plain l → m.url = false := by
    intro l m hm; simp [plain] at hm; obtain ⟨b, _, rfl⟩ := hm; rfl
  rw [lineMarks, List.append_assoc, List.append_assoc, urlCalls_skip _ _ (hp _), urlCalls_url _ h]
  intro m hm
  simp only [crlf, List.mem_append] at hm
  rcases hm with hm | hm
  · exact hp _ m hm
  · exact hp _ m hm

theorem bodyMarks_url (l : Bytes) (m : Mark) (h : m ∈ bodyMarks l) : m.url = false := by
  induction l with
  | nil => simp [bodyMarks] at h
  | cons a t ih => cases t with
    | nil => simp [bodyMarks] at h; rw [h]
    | cons b r =>
      rw [bodyMarks] at h
      · simp only [List.mem_cons] at h
        rcases h with rfl | h
        · rfl
        · exact ih h
      · simp

theorem urlCalls_head (r : Req) (h : r.url ≠ []) : (headChunks r).flatMap urlCalls = [r.url] := by
  have h1 : (r.headers.map headerMarks).flatMap urlCalls = [] := by
    rw [List.flatMap_eq_nil_iff]
    intro c hc
    simp at hc
    obtain ⟨a, _, rfl⟩ := hc
    apply urlCalls_none
    intro m hm; simp [headerMarks, crlf, plain] at hm
    rcases hm with ⟨b, _, rfl⟩ | rfl | rfl <;> rfl
  have h2 : urlCalls (blankMarks r.framing) = [] := rfl
  rw [headChunks, List.cons_append, List.flatMap_cons, List.flatMap_append, h1, urlCalls_line r h]
  simp [h2]

theorem urlCalls_allM {rs : List Req} {l : List (List Mark)} (h : AllM rs l) (hu : ∀ q ∈ rs, q.url ≠ []) : l.flatMap urlCalls = rs.map (·.url) := by
  induction h with
  | nil => rfl
  | @cons r rs l ls hm _ ih =>
    rw [List.flatMap_append, ih (fun q hq => hu q (by simp [hq])), List.map_cons]
    obtain ⟨body, rfl, h2, _⟩ := hm
    have hb : body.flatMap urlCalls = [] := by
      rw [List.flatMap_eq_nil_iff]
      intro c hc
      apply urlCalls_none
      intro m hm'
      have : m ∈ framingMarks r.framing := by rw [← h2]; exact List.mem_flatten.mpr ⟨c, hc, hm'⟩
      cases hf : r.framing with
      | none => rw [hf] at this; simp [framingMarks] at this
      | length b => rw [hf] at this; exact bodyMarks_url _ m this
      | chunked b bs => rw [hf] at this; exact bodyMarks_url _ m this
      | upgrade => rw [hf] at this; simp [framingMarks] at this
    have := urlCalls_head r (hu r (by simp))
    rw [headChunks] at this
    rw [List.flatMap_append, this, hb]; rfl

/-- C44: under the same condition, each URL is handed to the location lookup once and completely, in the order of the requests, up to the request `r`. -/
theorem urls_complete_partial (pre : List Req) (r : Req) (tail : List Mark) (hpre : ∀ q ∈ pre, q.HasLength) (hok : ∀ q ∈ pre ++ [r], q.Ok)
    (hu : ∀ q ∈ pre ++ [r], q.url ≠ []) (s : State) (h : Reach (start ((pre ++ [r]).flatMap reqMarks ++ tail)) s) :
    Agree (s.fed.reverse.flatMap urlCalls) ((pre ++ [r]).map (·.url)) := by
  obtain ⟨l, hl, ha⟩ := inv_agree pre r tail s (reach_inv pre r tail hpre hok s h)
  have h1 := urlCalls_allM hl (fun q hq => hu q (by simp [hq]))
  have h2 := urlCalls_head r (hu r (by simp))
  have h3 : (l ++ headChunks r).flatMap urlCalls = (pre ++ [r]).map (·.url) := by rw [List.flatMap_append, h1, h2]; simp
  rw [← h3]
  rcases ha with ⟨t, ht⟩ | ⟨t, ht⟩
  · left; rw [← ht, List.flatMap_append]; exact ⟨_, rfl⟩
  · right; exact ⟨t.flatMap urlCalls, by rw [← ht, List.flatMap_append (xs := l ++ headChunks r)]⟩

/- ### The statement is false without the condition -/

def str (s : String) : Bytes := s.toList.map (·.toNat.toUInt8)

def get (url : String) : Req := { method := str "GET ", url := str url, version := str " HTTP/1.1", headers := [str "Host: a"], framing := .none }

def post (url : String) (body : String) : Req :=
  { method := str "POST ", url := str url, version := str " HTTP/1.1", headers := [str "Content-Length: 7"], framing := .length (str body) }

/-- One step, computed. -/
def stepC (s : State) (avail : Nat) : Option State := (readResult s avail).map (parse s avail)

theorem stepC_step {s s' : State} {avail : Nat} (h : avail ≤ s.rest.length) (hs : stepC s avail = some s') : Step s s' := by
  unfold stepC at hs
  cases hr : readResult s avail with
  | none => rw [hr] at hs; exact absurd hs (by simp)
  | some n => rw [hr] at hs; simp at hs; exact ⟨avail, n, h, hr, hs.symm⟩

/-- Steps with given numbers of bytes in the buffer. -/
def runC (s : State) : List Nat → Option State
  | [] => some s
  | a :: l => if a ≤ s.rest.length then (stepC s a).bind (runC · l) else none

theorem runC_reach {s0 s s' : State} {l : List Nat} (h0 : Reach s0 s) (h : runC s l = some s') : Reach s0 s' := by
  induction l generalizing s with
  | nil => simp [runC] at h; exact h ▸ h0
  | cons a t ih =>
    rw [runC] at h
    split at h
    · next ha =>
      cases hs : stepC s a with
      | none => rw [hs] at h; exact absurd h (by simp)
      | some v => rw [hs] at h; exact ih (h0.step (stepC_step ha hs)) h
    · exact absurd h (by simp)

/-- A GET request, a POST request with seven bytes of body and a GET request on one connection, each in a packet of its own. -/
def threeRequests : List Req := [get "/a", post "/b" "1234567", get "/secret"]

set_option maxRecDepth 100000 in
/-- C44, deviation: `remaining_content_length` is left at the wrong value by a request without Content-Length; the URL of the third request is cut: the
location lookup is done with "/se". -/
theorem url_cut_in_two :
    ∃ s, Reach (start (threeRequests.flatMap reqMarks)) s ∧ s.fed.reverse.flatMap urlCalls = [str "/a", str "/b", str "/se", str "cret"] ∧ s.rest = [] := by
  have h : (runC (start (threeRequests.flatMap reqMarks)) [28, 11, 2, 46, 33, 26, 11, 2]).map (fun s => (s.fed.reverse.flatMap urlCalls, s.rest)) =
      some ([str "/a", str "/b", str "/se", str "cret"], []) := by decide +kernel
  cases hs : runC (start (threeRequests.flatMap reqMarks)) [28, 11, 2, 46, 33, 26, 11, 2] with
  | none => rw [hs] at h; exact absurd h (by simp)
  | some s =>
    rw [hs] at h
    simp only [Option.map_some, Option.some.injEq, Prod.mk.injEq] at h
    exact ⟨s, runC_reach .refl hs, h.1, h.2⟩

set_option maxRecDepth 100000 in
/-- C44, deviation: the same requests are understood if the second one arrives in three parts: what the handlers see depends on how the bytes arrive. -/
theorem url_depends_on_segmentation :
    ∃ s, Reach (start (threeRequests.flatMap reqMarks)) s ∧ s.fed.reverse.flatMap urlCalls = [str "/a", str "/b", str "/secret"] ∧ s.rest = [] := by
  have h : (runC (start (threeRequests.flatMap reqMarks)) [28, 11, 2, 18, 21, 7, 33, 11, 2]).map (fun s => (s.fed.reverse.flatMap urlCalls, s.rest)) =
      some ([str "/a", str "/b", str "/secret"], []) := by decide +kernel
  cases hs : runC (start (threeRequests.flatMap reqMarks)) [28, 11, 2, 18, 21, 7, 33, 11, 2] with
  | none => rw [hs] at h; exact absurd h (by simp)
  | some s =>
    rw [hs] at h
    simp only [Option.map_some, Option.some.injEq, Prod.mk.injEq] at h
    exact ⟨s, runC_reach .refl hs, h.1, h.2⟩

/-- Requests that meet the hypotheses of the theorems. -/
example : (∀ q ∈ [post "/a" "1234567", post "/b" "7654321"], q.HasLength) ∧ (∀ q ∈ [post "/a" "1234567", post "/b" "7654321", get "/c"], q.Ok ∧ q.url ≠ []) := by
  constructor
  · intro q hq
    simp at hq
    rcases hq with rfl | rfl
    · exact ⟨_, rfl⟩
    · exact ⟨_, rfl⟩
  · intro q hq
    simp at hq
    rcases hq with rfl | rfl | rfl <;> refine ⟨⟨by decide +kernel, by decide +kernel, by decide +kernel, ?_⟩, by decide +kernel⟩ <;>
      (intro h hh; simp [post, get] at hh; subst hh; decide +kernel)

set_option maxRecDepth 100000 in
/-- They are read to the end. -/
example : (runC (start ([post "/a" "1234567", post "/b" "7654321", get "/c"].flatMap reqMarks)) [50, 40, 9, 1, 6, 46, 28, 9, 28, 28, 11, 2]).map
    (fun s => (s.fed.reverse.flatMap urlCalls, s.rest)) = some ([str "/a", str "/b", str "/c"], []) := by decide +kernel

end Cio.HttpChunks
