import Verif.HttpChunks.Props
/-
C44 for clients that wait for the response before they send the next request.
-/
namespace Cio.HttpChunks

/-- The length of some requests on the wire. -/
def wireLen (rs : List Req) : Nat := (rs.flatMap reqMarks).length

/-- With `c` bytes of the connection consumed and `avail` bytes in the buffer, nothing of a later request is in the buffer: every end of a request
that is still ahead is not passed.  This is what a client guarantees that waits for the response before it sends the next request. -/
def NotPipelined (rs : List Req) (c avail : Nat) : Prop := ∀ pre post, rs = pre ++ post → c < wireLen pre → c + avail ≤ wireLen pre

/-- A read is answered, the client does not pipeline. -/
def WStep (rs : List Req) (s s' : State) : Prop :=
  ∃ avail num, avail ≤ s.rest.length ∧ NotPipelined rs (wireLen rs - s.rest.length) avail ∧ readResult s avail = some num ∧ s' = parse s avail num

/-- Histories of a connection whose client sends the requests `rs`, one after the other, and waits for each response. -/
inductive WReach (rs : List Req) : State → Prop where
  | refl : WReach rs (start (rs.flatMap reqMarks))
  | step {s s'} : WReach rs s → WStep rs s s' → WReach rs s'

theorem WStep.step {rs : List Req} {s s' : State} (h : WStep rs s s') : Step s s' := by
  obtain ⟨a, n, h1, _, h2, h3⟩ := h; exact ⟨a, n, h1, h2, h3⟩

theorem WReach.reach {rs : List Req} {s : State} (h : WReach rs s) : Reach (start (rs.flatMap reqMarks)) s := by
  induction h with
  | refl => exact .refl
  | step _ hs ih => exact ih.step hs.step

/-- The request does not say how long its body is. -/
def Req.NoLength (r : Req) : Prop := r.framing = .none ∨ ∃ b body, r.framing = .chunked b body

/-- The request has a body whose length it says. -/
def Req.HasBody (r : Req) : Prop := ∃ b body, r.framing = .length (b :: body)

/-- An event that only lets `remaining_content_length` be as it is or huge. -/
def Mild (e : Ev) : Prop := e = .headers none ∨ e = .headers (some 0)

theorem mild_fold (es : List Ev) (h : ∀ e ∈ es, Mild e) (s : State) :
    ((es.foldl callback s).finish = s.finish ∨ (es.foldl callback s).finish = .bytes) ∧
    ((es.foldl callback s).remaining = s.remaining ∨ (es.foldl callback s).remaining = sizeMax) := by
  induction es generalizing s with
  | nil => exact ⟨.inl rfl, .inl rfl⟩
  | cons e t ih =>
    rw [List.foldl_cons]
    have hi := ih (fun x hx => h x (by simp [hx])) (callback s e)
    rcases h e (by simp) with rfl | rfl
    · have e1 : (callback s (.headers none)).finish = .bytes := by simp [callback, sizeMax]
      have e2 : (callback s (.headers none)).remaining = sizeMax := by simp [callback, sizeMax]
      rw [e1, e2] at hi
      exact ⟨.inr (by rcases hi.1 with h | h <;> exact h), .inr (by rcases hi.2 with h | h <;> exact h)⟩
    · have e1 : callback s (.headers (some 0)) = s := by simp [callback]
      rw [e1] at hi ⊢
      exact hi

/-- Where the end of a message is reported. -/
theorem reqMarks_last (q : Req) (h1 : ¬ q.HasBody) (h2 : q.framing ≠ .upgrade) :
    ∃ w m es, reqMarks q = w ++ [m] ∧ m.evs = es ++ [.message] ∧ (∀ e ∈ w.flatMap (·.evs), Mild e) ∧ ∀ e ∈ es, Mild e := by
  have hh : (q.headers.flatMap headerMarks).flatMap (·.evs) = [] := by
    rw [List.flatMap_assoc]
    rw [List.flatMap_eq_nil_iff]
    intro h _
    exact headerMarks_evs h
  cases hf : q.framing with
  | none =>
    refine ⟨lineMarks q ++ (q.headers.flatMap headerMarks ++ [{ byte := 13 }]), { byte := 10, evs := [.headers none, .message] }, [.headers none], ?_, rfl, ?_, ?_⟩
    · simp [reqMarks, restMarks, hf, blankMarks, headerEvents, framingMarks]
    · rw [List.flatMap_append, List.flatMap_append, lineMarks_evs, hh]; simp
    · simp [Mild]
  | length body =>
    cases body with
    | nil =>
      refine ⟨lineMarks q ++ (q.headers.flatMap headerMarks ++ [{ byte := 13 }]), { byte := 10, evs := [.headers (some 0), .message] }, [.headers (some 0)], ?_, rfl, ?_, ?_⟩
      · simp [reqMarks, restMarks, hf, blankMarks, headerEvents, framingMarks, bodyMarks]
      · rw [List.flatMap_append, List.flatMap_append, lineMarks_evs, hh]; simp
      · simp [Mild]
    | cons b body => exact absurd ⟨b, body, hf⟩ h1
  | chunked b body =>
    obtain ⟨w, z, hw⟩ : ∃ w z, b :: body = w ++ [z] := ⟨(b :: body).dropLast, (b :: body).getLast (by simp), (List.dropLast_concat_getLast (by simp)).symm⟩
    refine ⟨lineMarks q ++ (q.headers.flatMap headerMarks ++ (blankMarks q.framing ++ plain w)), { byte := z, evs := [.message] }, [], ?_, rfl, ?_, by simp⟩
    · simp only [reqMarks, restMarks, hf, framingMarks, hw]
      rw [bodyMarks_append w [z] (by simp)]
      simp [bodyMarks]
    · rw [List.flatMap_append, List.flatMap_append, List.flatMap_append, lineMarks_evs, hh, plain_evs]
      simp [blankMarks, hf, headerEvents, Mild]
  | upgrade => exact absurd hf h2

theorem mem_evs_of_prefix {w y x z : List Mark} {m : Mark} (h : w ++ [m] = y ++ x) (hz : z <+: x) (hne : z ≠ x) : ∀ e ∈ z.flatMap (·.evs), e ∈ w.flatMap (·.evs) := by
  obtain ⟨t, rfl⟩ := hz
  have ht : t ≠ [] := by rintro rfl; simp at hne
  obtain ⟨t', c, rfl⟩ : ∃ t' c, t = t' ++ [c] := ⟨t.dropLast, t.getLast ht, (List.dropLast_concat_getLast ht).symm⟩
  have h' : w ++ [m] = (y ++ z ++ t') ++ [c] := by rw [h]; simp
  obtain ⟨h1, _⟩ := List.append_inj' h' rfl
  intro e he
  rw [h1]
  simp only [List.flatMap_append, List.mem_append]
  exact .inl (.inr he)

theorem mem_evs_of_suffix {w y x : List Mark} {m : Mark} (h : w ++ [m] = y ++ x) (hne : x ≠ []) : ∃ x', x = x' ++ [m] ∧ ∀ e ∈ x'.flatMap (·.evs), e ∈ w.flatMap (·.evs) := by
  obtain ⟨x', c, rfl⟩ : ∃ x' c, x = x' ++ [c] := ⟨x.dropLast, x.getLast hne, (List.dropLast_concat_getLast hne).symm⟩
  have h' : w ++ [m] = (y ++ x') ++ [c] := by rw [h]; simp
  obtain ⟨h1, h2⟩ := List.append_inj' h' rfl
  simp at h2
  refine ⟨x', by rw [h2], ?_⟩
  intro e he
  rw [h1]
  simp only [List.flatMap_append, List.mem_append]
  exact .inr he

/-- The URLs handed to the location lookup so far. -/
def urls (s : State) : List Bytes := s.fed.reverse.flatMap urlCalls

/-- The number of bytes `parse` gives to the parser. -/
def fedLen (s : State) (avail num : Nat) : Nat := if s.remaining > 0 then min avail s.remaining else num

/-- The state `parse` runs the parser in. -/
def before (s : State) (n : Nat) : State :=
  { s with remaining := if s.remaining > 0 then s.remaining - n else s.remaining, fed := s.rest.take n :: s.fed, rest := s.rest.drop n }

theorem parse_eq (s : State) (avail num : Nat) :
    parse s avail num = runFinish (((s.rest.take (fedLen s avail num)).flatMap (·.evs)).foldl callback (before s (fedLen s avail num))) := by
  unfold parse fedLen before execute
  by_cases h : s.remaining > 0
  · simp only [h, if_true]
  · simp only [h, if_false]

theorem parse_rest (s : State) (avail num : Nat) : (parse s avail num).rest = s.rest.drop (fedLen s avail num) := by
  rw [parse_eq, (runFinish_fed _).2, (callbacks_fed _ _).2]; rfl

theorem parse_urls (s : State) (avail num : Nat) : urls (parse s avail num) = urls s ++ urlCalls (s.rest.take (fedLen s avail num)) := by
  unfold urls
  rw [parse_eq, (runFinish_fed _).1, (callbacks_fed _ _).1]
  simp [before]

theorem runFinish_remaining (s : State) : (runFinish s).remaining = s.remaining := by
  cases h : s.finish <;> simp [runFinish, h]

theorem runFinish_going (s : State) (f : Finish) (hf : f ≠ .restart) (h : s.finish = f ∨ s.finish = .bytes) :
    (runFinish s).finish = .headerLine ∨ (runFinish s).finish = .bytes := by
  rcases h with h | h
  · cases f with
    | requestLine => left; simp [runFinish, h]
    | headerLine => left; simp [runFinish, h]
    | bytes => right; simp [runFinish, h]
    | restart => exact absurd rfl hf
  · right; simp [runFinish, h]

/-- A step while `remaining_content_length` is huge: everything in the buffer is given to the parser. -/
theorem huge_step (q : Req) (y x T : List Mark) (s : State) (avail num : Nat) (h1 : ¬ q.HasBody) (h2 : q.framing ≠ .upgrade) (hq : reqMarks q = y ++ x) (hx : x ≠ [])
    (hrest : s.rest = x ++ T) (hrem : s.remaining > s.rest.length) (hT : T.length < sizeMax) (hTx : x.length + T.length < sizeMax) (ha : avail ≤ x.length) (hfin : s.finish ≠ .restart) :
    fedLen s avail num = avail ∧ (parse s avail num).remaining > (parse s avail num).rest.length ∧
      (avail < x.length → (parse s avail num).finish = .headerLine ∨ (parse s avail num).finish = .bytes) ∧
      (avail = x.length → (parse s avail num).finish = .requestLine) := by
  obtain ⟨w, m, es, hw, hm, hmw, hme⟩ := reqMarks_last q h1 h2
  have hlen : s.rest.length = x.length + T.length := by rw [hrest]; simp
  have hn : fedLen s avail num = avail := by unfold fedLen; rw [if_pos (by omega)]; omega
  have hbr : (before s avail).remaining = s.remaining - avail := by simp only [before]; rw [if_pos (by omega)]
  refine ⟨hn, ?_⟩
  rw [parse_rest, parse_eq, hn, runFinish_remaining]
  have ht : s.rest.take avail = x.take avail := by rw [hrest, List.take_append_of_le_length ha]
  rw [ht]
  by_cases hlt : avail < x.length
  · have hmild : ∀ e ∈ (x.take avail).flatMap (·.evs), Mild e := by
      intro e he
      refine hmw e (mem_evs_of_prefix (hw ▸ hq) (List.take_prefix _ _) ?_ e he)
      intro hc
      have := congrArg List.length hc
      simp at this; omega
    obtain ⟨a1, a2⟩ := mild_fold _ hmild (before s avail)
    refine ⟨?_, ?_, ?_⟩
    · rw [hbr] at a2
      rw [List.length_drop]
      rcases a2 with a2 | a2 <;> rw [a2] <;> omega
    · intro _
      exact runFinish_going _ s.finish hfin a1
    · intro hc; omega
  · have he : avail = x.length := by omega
    have hxt : x.take avail = x := by rw [he]; simp
    rw [hxt]
    obtain ⟨x', hx', hme'⟩ := mem_evs_of_suffix (hw ▸ hq) hx
    have hmild : ∀ e ∈ x'.flatMap (·.evs) ++ es, Mild e := by
      intro e he
      rw [List.mem_append] at he
      rcases he with he | he
      · exact hmw e (hme' e he)
      · exact hme e he
    obtain ⟨a1, a2⟩ := mild_fold _ hmild (before s avail)
    have hev : x.flatMap (·.evs) = (x'.flatMap (·.evs) ++ es) ++ [.message] := by rw [hx']; simp [hm]
    rw [hev, List.foldl_append]
    generalize hg : (x'.flatMap (·.evs) ++ es).foldl callback (before s avail) = g at a1 a2 ⊢
    simp only [List.foldl_cons, List.foldl_nil, callback]
    refine ⟨?_, ?_, ?_⟩
    · rw [hbr] at a2
      rw [List.length_drop]
      rcases a2 with a2 | a2 <;> rw [a2] <;> omega
    · intro hc; omega
    · intro _
      simp [runFinish]

/-- Where the connection is. -/
inductive WPhase (dn : List Req) (q : Req) (qs : List Req) (s : State) : Prop where
  | line : s.finish = .requestLine → s.rest = reqMarks q ++ qs.flatMap reqMarks → urls s = dn.map (·.url) →
      (s.remaining = 0 ∨ ((∃ p ∈ dn, p.NoLength) ∧ s.remaining > s.rest.length)) → WPhase dn q qs s
  | header (h1 h2 : List Bytes) : qs ≠ [] → q.headers = h1 ++ h2 → s.finish = .headerLine → s.remaining = 0 →
      s.rest = restMarks h2 q.framing ++ qs.flatMap reqMarks → urls s = (dn ++ [q]).map (·.url) → WPhase dn q qs s
  | body (b2 : Bytes) : qs ≠ [] → b2 ≠ [] → s.finish = .bytes → s.remaining = b2.length → s.rest = bodyMarks b2 ++ qs.flatMap reqMarks →
      urls s = (dn ++ [q]).map (·.url) → b2.length ≤ (reqMarks q).length → WPhase dn q qs s
  | huge (y x : List Mark) : qs ≠ [] → reqMarks q = y ++ x → x ≠ [] → lineMarks q <+: y → s.rest = x ++ qs.flatMap reqMarks → s.remaining > s.rest.length →
      (s.finish = .headerLine ∨ s.finish = .bytes) → (∃ p ∈ dn ++ [q], p.NoLength) → urls s = (dn ++ [q]).map (·.url) → WPhase dn q qs s
  | last : qs = [] → urls s = (dn ++ [q]).map (·.url) → (∀ m ∈ s.rest, m.url = false) → WPhase dn q qs s

def WInv (rs : List Req) (s : State) : Prop := ∃ dn q qs, rs = dn ++ q :: qs ∧ WPhase dn q qs s

/-- The conditions on the requests of a connection: well-formed, and none with a body of known length after one that does not say its length, the
last request excepted. -/
structure Fine (rs : List Req) : Prop where
  ok : ∀ q ∈ rs, q.Ok ∧ q.url ≠ []
  noUpgrade : ∀ q ∈ rs.dropLast, q.framing ≠ .upgrade
  order : rs.dropLast.Pairwise (fun p q => p.NoLength → ¬ q.HasBody)
  size : wireLen rs < sizeMax

theorem plain_url (l : Bytes) (m : Mark) (hm : m ∈ plain l) : m.url = false := by
  simp [plain] at hm; obtain ⟨b, _, rfl⟩ := hm; rfl

theorem headerMarks_url (h : Bytes) (m : Mark) (hm : m ∈ headerMarks h) : m.url = false := by
  simp only [headerMarks, crlf, List.mem_append] at hm
  rcases hm with hm | hm <;> exact plain_url _ m hm

theorem restMarks_url (hs : List Bytes) (f : Framing) (m : Mark) (hm : m ∈ restMarks hs f) : m.url = false := by
  simp only [restMarks, List.mem_append, List.mem_flatMap] at hm
  rcases hm with (⟨h, _, hm⟩ | hm) | hm
  · exact headerMarks_url h m hm
  · simp [blankMarks] at hm; rcases hm with rfl | rfl <;> rfl
  · cases f with
    | none => simp [framingMarks] at hm
    | length b => exact bodyMarks_url _ m hm
    | chunked b bs => exact bodyMarks_url _ m hm
    | upgrade => simp [framingMarks] at hm

theorem urlCalls_line_more (r : Req) (h : r.url ≠ []) (z : List Mark) (hz : ∀ m ∈ z, m.url = false) : urlCalls (lineMarks r ++ z) = [r.url] := by
  rw [lineMarks, List.append_assoc, List.append_assoc, List.append_assoc, urlCalls_skip _ _ (plain_url _), urlCalls_url _ h]
  intro m hm
  simp only [crlf, List.mem_append] at hm
  rcases hm with hm | hm | hm
  · exact plain_url _ m hm
  · exact plain_url _ m hm
  · exact hz m hm

theorem reqMarks_after_line {q : Req} {y x : List Mark} (h : reqMarks q = y ++ x) (hy : lineMarks q <+: y) : ∀ m ∈ x, m.url = false := by
  obtain ⟨t, rfl⟩ := hy
  rw [reqMarks, List.append_assoc] at h
  have := (List.append_inj h rfl).2
  intro m hm
  exact restMarks_url _ _ m (by rw [this]; simp [hm])

theorem line_num (q : Req) (hok : q.Ok) (T : List Mark) (avail num : Nat) (h : lineEnd ((reqMarks q ++ T).take avail) = some num) : num = (lineMarks q).length := by
  obtain ⟨o1, o2, o3, _⟩ := hok
  have hrest : reqMarks q ++ T = (plain q.method ++ q.url.map (fun b => { byte := b, url := true }) ++ plain q.version) ++ { byte := 13 } :: { byte := 10 } :: (restMarks q.headers q.framing ++ T) := by
    simp [reqMarks, lineMarks, crlf, plain]
  rw [hrest] at h
  rw [lineEnd_take _ _ _ _ _ _ ?_ rfl rfl h]
  · simp [lineMarks, crlf, plain]; omega
  · intro m hm
    simp only [List.mem_append] at hm
    rcases hm with (hm | hm) | hm
    · exact plain_no13 _ o1 m hm
    · simp at hm; obtain ⟨b, hb, rfl⟩ := hm
      rintro h'; simp at h'; exact o2 (h' ▸ hb)
    · exact plain_no13 _ o3 m hm

theorem wireLen_append (a b : List Req) : wireLen (a ++ b) = wireLen a + wireLen b := by simp [wireLen]

theorem wireLen_one (q : Req) : wireLen [q] = (reqMarks q).length := by simp [wireLen]

theorem not_beyond {rs dn qs : List Req} {q : Req} {s : State} {x : List Mark} {avail : Nat} (hrs : rs = dn ++ q :: qs) (hrest : s.rest = x ++ qs.flatMap reqMarks)
    (hx : x ≠ []) (hlen : x.length ≤ (reqMarks q).length) (h : NotPipelined rs (wireLen rs - s.rest.length) avail) : avail ≤ x.length := by
  have e : wireLen rs = wireLen dn + ((reqMarks q).length + wireLen qs) := by
    rw [hrs, wireLen_append, show q :: qs = [q] ++ qs from rfl, wireLen_append, wireLen_one]
  have e2 : s.rest.length = x.length + wireLen qs := by rw [hrest, List.length_append]; rfl
  have e3 : wireLen (dn ++ [q]) = wireLen dn + (reqMarks q).length := by rw [wireLen_append, wireLen_one]
  have hp := List.length_pos_iff.mpr hx
  have := h (dn ++ [q]) qs (by rw [hrs]; simp) (by omega)
  omega

theorem WInv.step {rs : List Req} {s s' : State} (hf : Fine rs) (hi : WInv rs s) (hs : WStep rs s s') : WInv rs s' := by
  obtain ⟨dn, q, qs, hrs, hph⟩ := hi
  obtain ⟨avail, num, hav, hnp, hres, rfl⟩ := hs
  obtain ⟨hq, hurl⟩ := hf.ok q (by rw [hrs]; simp)
  have hb := readResult_bounds s avail num hav hres
  have hne_line : lineMarks q ≠ [] := by simp [lineMarks, crlf, plain]
  have hne_req : reqMarks q ≠ [] := by simp [reqMarks, lineMarks, crlf, plain]
  have hwl : wireLen rs = wireLen dn + ((reqMarks q).length + wireLen qs) := by
    rw [hrs, wireLen_append, show q :: qs = [q] ++ qs from rfl, wireLen_append, wireLen_one]
  have hsz := hf.size
  have hTlen : (qs.flatMap reqMarks).length = wireLen qs := rfl
  have hup : qs ≠ [] → q.framing ≠ .upgrade := by
    intro hne
    apply hf.noUpgrade
    rw [hrs, List.dropLast_append_of_ne_nil (by simp)]
    cases qs with
    | nil => exact absurd rfl hne
    | cons a t => simp
  have hnb : qs ≠ [] → (∃ p ∈ dn ++ [q], p.NoLength) → ¬ q.HasBody := by
    rintro hne ⟨p, hp, hpl⟩ ⟨b, body, hqb⟩
    rw [List.mem_append] at hp
    rcases hp with hp | hp
    · have hpw := hf.order
      rw [hrs, List.dropLast_append_of_ne_nil (by simp)] at hpw
      have := (List.pairwise_append.mp hpw).2.2 p hp q (by cases qs with
        | nil => exact absurd rfl hne
        | cons a t => simp)
      exact this hpl ⟨b, body, hqb⟩
    · simp at hp; subst hp
      rcases hpl with h | ⟨b', body', h⟩ <;> rw [hqb] at h <;> exact absurd h (by simp)
  -- the next request
  have hnext : ∀ s2 : State, qs ≠ [] → s2.finish = .requestLine → s2.rest = qs.flatMap reqMarks → urls s2 = (dn ++ [q]).map (·.url) →
      (s2.remaining = 0 ∨ ((∃ p ∈ dn ++ [q], p.NoLength) ∧ s2.remaining > s2.rest.length)) → WInv rs s2 := by
    intro s2 hne e1 e2 e3 e4
    cases qs with
    | nil => exact absurd rfl hne
    | cons q2 qs2 => exact ⟨dn ++ [q], q2, qs2, by rw [hrs]; simp, .line e1 (by rw [e2]; simp) e3 e4⟩
  cases hph with
  | line e1 e2 e3 e4 =>
    have hnum : num = (lineMarks q).length := by
      rw [readResult, e1, e2] at hres
      exact line_num q hq _ _ _ hres
    have hle := not_beyond hrs e2 hne_req (Nat.le_refl _) hnp
    have hlenr : s.rest.length = (reqMarks q).length + wireLen qs := by rw [e2, List.length_append, hTlen]
    have hfl : (lineMarks q).length ≤ fedLen s avail num ∧ fedLen s avail num ≤ (reqMarks q).length := by
      unfold fedLen
      rcases e4 with e4 | ⟨_, e4⟩
      · rw [if_neg (by omega)]; omega
      · rw [if_pos (by omega)]; omega
    have hchunk : ∀ n, (lineMarks q).length ≤ n → n ≤ (reqMarks q).length → urlCalls (s.rest.take n) = [q.url] := by
      intro n h1 h2
      rw [e2, List.take_append_of_le_length h2, reqMarks, List.take_append, List.take_of_length_le h1]
      exact urlCalls_line_more q hurl _ (fun m hm => restMarks_url _ _ m (List.mem_of_mem_take hm))
    have hurls : urls (parse s avail num) = (dn ++ [q]).map (·.url) := by
      rw [parse_urls, hchunk _ hfl.1 hfl.2, e3]; simp
    by_cases hqs : qs = []
    · refine ⟨dn, q, qs, hrs, .last hqs hurls ?_⟩
      rw [parse_rest, e2, hqs]
      intro m hm
      obtain ⟨k, hk⟩ : ∃ k, fedLen s avail num = (lineMarks q).length + k := ⟨fedLen s avail num - (lineMarks q).length, by omega⟩
      rw [hk, List.flatMap_nil, List.append_nil, reqMarks, ← List.drop_drop, List.drop_left] at hm
      exact restMarks_url _ _ m (List.mem_of_mem_drop hm)
    · rcases e4 with e4 | ⟨e4, e5⟩
      · have hfl2 : fedLen s avail num = (lineMarks q).length := by unfold fedLen; rw [if_neg (by omega)]; exact hnum
        refine ⟨dn, q, qs, hrs, .header [] q.headers hqs rfl ?_ ?_ ?_ hurls⟩
        · rw [hnum, parse_quiet s (lineMarks q) (restMarks q.headers q.framing ++ qs.flatMap reqMarks) avail e4 (by rw [e2, reqMarks, List.append_assoc]) (lineMarks_evs q)]
          simp [runFinish, e1]
        · rw [hnum, parse_quiet s (lineMarks q) (restMarks q.headers q.framing ++ qs.flatMap reqMarks) avail e4 (by rw [e2, reqMarks, List.append_assoc]) (lineMarks_evs q)]
          simp [runFinish, e1, e4]
        · rw [parse_rest, hfl2, e2, reqMarks, List.append_assoc, List.drop_left]
      · have hhuge : ∃ p ∈ dn ++ [q], p.NoLength := by
          obtain ⟨p, hp, hl⟩ := e4; exact ⟨p, by simp [hp], hl⟩
        obtain ⟨k1, k2, k3, k4⟩ := huge_step q [] (reqMarks q) (qs.flatMap reqMarks) s avail num (hnb hqs hhuge) (hup hqs) rfl hne_req e2 e5 (by omega) (by omega) hle (by rw [e1]; simp)
        by_cases hlt : avail < (reqMarks q).length
        · refine ⟨dn, q, qs, hrs, .huge ((reqMarks q).take avail) ((reqMarks q).drop avail) hqs (List.take_append_drop _ _).symm ?_ ?_ ?_ k2 (k3 hlt) hhuge hurls⟩
          · intro hc; have := congrArg List.length hc; simp at this; omega
          · refine ⟨(restMarks q.headers q.framing).take (avail - (lineMarks q).length), ?_⟩
            rw [reqMarks, List.take_append, List.take_of_length_le (l := lineMarks q) (by omega)]
          · rw [parse_rest, k1, e2, List.drop_append_of_le_length (by omega)]
        · have he : avail = (reqMarks q).length := by omega
          refine hnext _ hqs (k4 he) ?_ hurls (.inr ⟨hhuge, k2⟩)
          rw [parse_rest, k1, he, e2, List.drop_left]
  | header h1 h2 hqs e0 e1 e2 e3 e4 =>
    have hfl : fedLen s avail num = num := by unfold fedLen; rw [if_neg (by omega)]
    have hurls : urls (parse s avail num) = (dn ++ [q]).map (·.url) := by
      have hnp2 : avail ≤ (restMarks h2 q.framing).length := by
        refine not_beyond hrs e3 (by simp [restMarks, blankMarks]) ?_ hnp
        rw [reqMarks, e0]
        simp only [restMarks, List.length_append, List.flatMap_append]; omega
      rw [parse_urls, e4, hfl, urlCalls_none, List.append_nil]
      intro m hm
      rw [e3, List.take_append_of_le_length (by omega)] at hm
      exact restMarks_url _ _ m (List.mem_of_mem_take hm)
    cases h2 with
    | cons h h2 =>
      have hh := hq.2.2.2 h (by rw [e0]; simp)
      have hnum : num = (headerMarks h).length := by
        rw [readResult, e1] at hres
        simp only at hres
        have hrest : s.rest = plain h ++ { byte := 13 } :: { byte := 10 } :: (restMarks h2 q.framing ++ qs.flatMap reqMarks) := by
          rw [e3]; simp [restMarks, headerMarks, crlf, plain]
        rw [hrest] at hres
        rw [lineEnd_take _ _ _ _ _ _ (plain_no13 _ hh.1) rfl rfl hres]
        simp [headerMarks, crlf, plain]
      have hp := parse_quiet s (headerMarks h) (restMarks h2 q.framing ++ qs.flatMap reqMarks) avail e2 (by rw [e3]; simp [restMarks]) (headerMarks_evs h)
      rw [← hnum] at hp
      refine ⟨dn, q, qs, hrs, .header (h1 ++ [h]) h2 hqs (by rw [e0]; simp) ?_ ?_ ?_ hurls⟩
      · rw [hp]; simp [runFinish, e1]
      · rw [hp]; simp [runFinish, e1, e2]
      · rw [hp]; simp [runFinish, e1]
    | nil =>
      have hnum : num = 2 := by
        rw [readResult, e1] at hres
        simp only at hres
        have hrest : s.rest = [] ++ { byte := 13 } :: { byte := 10, evs := headerEvents q.framing } :: (framingMarks q.framing ++ qs.flatMap reqMarks) := by
          rw [e3]; simp [restMarks, blankMarks]
        rw [hrest] at hres
        have := lineEnd_take [] _ _ _ _ _ (by simp) rfl rfl hres
        simpa using this
      have ht : s.rest.take 2 = blankMarks q.framing := by rw [e3]; simp [restMarks, blankMarks]
      have hd : s.rest.drop 2 = framingMarks q.framing ++ qs.flatMap reqMarks := by rw [e3]; simp [restMarks, blankMarks]
      have hev : (blankMarks q.framing).flatMap (·.evs) = headerEvents q.framing := by simp [blankMarks]
      have hp : parse s avail num = runFinish ((headerEvents q.framing).foldl callback { s with fed := blankMarks q.framing :: s.fed, rest := framingMarks q.framing ++ qs.flatMap reqMarks }) := by
        rw [hnum]; simp [parse, e2, ht, hd, execute, hev]
      have hrest' : (parse s avail num).rest = framingMarks q.framing ++ qs.flatMap reqMarks := by rw [parse_rest, hfl, hnum, hd]
      cases hfr : q.framing with
      | none =>
        refine hnext _ hqs ?_ ?_ hurls (.inr ⟨⟨q, by simp, .inl hfr⟩, ?_⟩)
        · rw [hp]; simp [hfr, headerEvents, callback, runFinish]
        · rw [hrest']; simp [hfr, framingMarks]
        · have hr : (parse s avail num).remaining = sizeMax := by rw [hp]; simp [hfr, headerEvents, callback, runFinish, sizeMax]
          rw [hr, hrest', hfr]; simp only [framingMarks, List.nil_append]; omega
      | length body =>
        cases body with
        | nil =>
          refine hnext _ hqs ?_ ?_ hurls (.inl ?_)
          · rw [hp]; simp [hfr, headerEvents, callback, runFinish]
          · rw [hrest']; simp [hfr, framingMarks, bodyMarks]
          · rw [hp]; simp [hfr, headerEvents, callback, runFinish, e2]
        | cons b body =>
          refine ⟨dn, q, qs, hrs, .body (b :: body) hqs (by simp) ?_ ?_ ?_ hurls ?_⟩
          · rw [hp]; simp [hfr, headerEvents, callback, runFinish]
          · rw [hp]; simp [hfr, headerEvents, callback, runFinish]
          · rw [hrest']; simp [hfr, framingMarks]
          · rw [reqMarks, restMarks, hfr, framingMarks]
            simp only [List.length_append, bodyMarks_length]; omega
      | chunked b body =>
        refine ⟨dn, q, qs, hrs, .huge (lineMarks q ++ (q.headers.flatMap headerMarks ++ blankMarks q.framing)) (framingMarks q.framing) hqs ?_ ?_ ⟨_, rfl⟩ hrest' ?_ (.inr ?_) ⟨q, by simp, .inr ⟨b, body, hfr⟩⟩ hurls⟩
        · simp [reqMarks, restMarks]
        · rw [hfr]; intro hc; have := congrArg List.length hc; rw [framingMarks, bodyMarks_length] at this; simp at this
        · have hr : (parse s avail num).remaining = sizeMax := by rw [hp]; simp [hfr, headerEvents, callback, runFinish, sizeMax]
          have hl : (parse s avail num).rest.length ≤ s.rest.length := by rw [parse_rest, List.length_drop]; omega
          have hl2 : s.rest.length ≤ wireLen rs := by
            rw [e3, List.length_append, hTlen, hwl, reqMarks, e0]
            simp only [restMarks, List.length_append, List.flatMap_append]; omega
          rw [hr]; omega
        · rw [hp]; simp [hfr, headerEvents, callback, runFinish, sizeMax]
      | upgrade => exact absurd hfr (hup hqs)
  | body b2 hqs hb2 e1 e2 e3 e4 e5 =>
    have hpos : b2.length > 0 := List.length_pos_iff.mpr hb2
    have hle : avail ≤ b2.length := by
      have := not_beyond hrs e3 (by intro hc; have := congrArg List.length hc; rw [bodyMarks_length] at this; rw [this] at hpos; simp at hpos) (by rw [bodyMarks_length]; exact e5) hnp
      rwa [bodyMarks_length] at this
    have hfl : fedLen s avail num = avail := by unfold fedLen; rw [if_pos (by omega)]; omega
    have hurls : urls (parse s avail num) = (dn ++ [q]).map (·.url) := by
      rw [parse_urls, e4, hfl, urlCalls_none, List.append_nil]
      intro m hm
      rw [e3, List.take_append_of_le_length (by rw [bodyMarks_length]; exact hle)] at hm
      exact bodyMarks_url _ m (List.mem_of_mem_take hm)
    have hbr : (before s avail).remaining = b2.length - avail := by simp only [before]; rw [if_pos (by omega), e2]
    by_cases hlt : avail < b2.length
    · have hdne : b2.drop avail ≠ [] := by simp; omega
      have hbm : bodyMarks b2 = plain (b2.take avail) ++ bodyMarks (b2.drop avail) := by
        have := bodyMarks_append (b2.take avail) (b2.drop avail) hdne
        rwa [List.take_append_drop] at this
      have hpl : (plain (b2.take avail)).length = avail := by simp [plain]; omega
      have ht : s.rest.take avail = plain (b2.take avail) := by
        rw [e3, hbm, List.append_assoc, List.take_append_of_le_length (by omega), List.take_of_length_le (by omega)]
      have hp : parse s avail num = runFinish (before s avail) := by rw [parse_eq, hfl, ht, plain_evs]; rfl
      refine ⟨dn, q, qs, hrs, .body (b2.drop avail) hqs hdne ?_ ?_ ?_ hurls (by rw [List.length_drop]; omega)⟩
      · rw [hp]; simp [runFinish, before, e1]
      · rw [hp, runFinish_remaining, hbr, List.length_drop]
      · rw [parse_rest, hfl, e3, hbm, List.append_assoc]; exact List.drop_left' hpl
    · have he : avail = b2.length := by omega
      have ht : s.rest.take avail = bodyMarks b2 := by
        rw [e3, List.take_append_of_le_length (by rw [bodyMarks_length]; omega), List.take_of_length_le (by rw [bodyMarks_length]; omega)]
      have hp : parse s avail num = { before s avail with finish := .requestLine } := by
        rw [parse_eq, hfl, ht, bodyMarks_evs b2 hb2]; simp [callback, runFinish]
      refine hnext _ hqs ?_ ?_ hurls (.inl ?_)
      · rw [hp]
      · rw [parse_rest, hfl, e3, he]; exact List.drop_left' (bodyMarks_length b2)
      · rw [hp]; show (before s avail).remaining = 0; omega
  | huge y x hqs hyx hx hy e1 e2 e3 e4 e5 =>
    have hxl : x.length ≤ (reqMarks q).length := by rw [hyx]; simp
    have hle := not_beyond hrs e1 hx hxl hnp
    obtain ⟨k1, k2, k3, k4⟩ := huge_step q y x (qs.flatMap reqMarks) s avail num (hnb hqs e4) (hup hqs) hyx hx e1 e2 (by omega) (by omega) hle (by rcases e3 with h | h <;> rw [h] <;> simp)
    have hurls : urls (parse s avail num) = (dn ++ [q]).map (·.url) := by
      rw [parse_urls, e5, k1, urlCalls_none, List.append_nil]
      intro m hm
      rw [e1, List.take_append_of_le_length hle] at hm
      exact reqMarks_after_line hyx hy m (List.mem_of_mem_take hm)
    by_cases hlt : avail < x.length
    · refine ⟨dn, q, qs, hrs, .huge (y ++ x.take avail) (x.drop avail) hqs (by rw [hyx, List.append_assoc, List.take_append_drop]) ?_ (hy.trans ⟨_, rfl⟩) ?_ k2 (k3 hlt) e4 hurls⟩
      · intro hc; have := congrArg List.length hc; simp at this; omega
      · rw [parse_rest, k1, e1, List.drop_append_of_le_length (by omega)]
    · have he : avail = x.length := by omega
      refine hnext _ hqs (k4 he) ?_ hurls (.inr ⟨e4, k2⟩)
      rw [parse_rest, k1, he, e1, List.drop_left]
  | last hqs e1 e2 =>
    refine ⟨dn, q, qs, hrs, .last hqs ?_ ?_⟩
    · rw [parse_urls, e1, urlCalls_none, List.append_nil]
      intro m hm
      exact e2 m (List.mem_of_mem_take hm)
    · rw [parse_rest]
      intro m hm
      exact e2 m (List.mem_of_mem_drop hm)

/-- C44 for clients that wait for each response: every URL is handed to the location lookup once and completely, in order, however the bytes arrive -
also on connections with requests that do not say their length, as long as (but for the last one) no request with a body follows them. -/
theorem urls_complete_waiting_partial (rs : List Req) (hne : rs ≠ []) (hf : Fine rs) (s : State) (h : WReach rs s) :
    s.fed.reverse.flatMap urlCalls <+: rs.map (·.url) ∧ (s.rest = [] → s.fed.reverse.flatMap urlCalls = rs.map (·.url)) := by
  have hi : WInv rs s := by
    induction h with
    | refl =>
      cases rs with
      | nil => exact absurd rfl hne
      | cons q qs => exact ⟨[], q, qs, rfl, .line rfl rfl rfl (.inl rfl)⟩
    | step _ hs ih => exact ih.step hf hs
  obtain ⟨dn, q, qs, hrs, hph⟩ := hi
  have hx : ∀ x y : List Mark, x ≠ [] → x ++ y ≠ [] := by intro x y h hc; simp at hc; exact h hc.1
  show urls s <+: _ ∧ (_ → urls s = _)
  have hm : rs.map (·.url) = (dn ++ [q]).map (·.url) ++ qs.map (·.url) := by rw [hrs]; simp
  cases hph with
  | line e1 e2 e3 e4 =>
    refine ⟨by rw [e3, hrs]; simp, fun hr => ?_⟩
    rw [e2] at hr
    exact absurd hr (hx _ _ (by simp [reqMarks, lineMarks, crlf, plain]))
  | header h1 h2 hqs e0 e1 e2 e3 e4 =>
    refine ⟨by rw [e4, hm]; exact ⟨_, rfl⟩, fun hr => ?_⟩
    rw [e3] at hr
    exact absurd hr (hx _ _ (by simp [restMarks, blankMarks]))
  | body b2 hqs hb2 e1 e2 e3 e4 e5 =>
    refine ⟨by rw [e4, hm]; exact ⟨_, rfl⟩, fun hr => ?_⟩
    rw [e3] at hr
    refine absurd hr (hx _ _ ?_)
    intro hc; have := congrArg List.length hc; rw [bodyMarks_length] at this
    exact hb2 (List.length_eq_zero_iff.mp (by simpa using this))
  | huge y x hqs hyx hx' hy e1 e2 e3 e4 e5 =>
    refine ⟨by rw [e5, hm]; exact ⟨_, rfl⟩, fun hr => ?_⟩
    rw [e1] at hr
    exact absurd hr (hx _ _ hx')
  | last hqs e1 e2 => rw [e1, hm, hqs]; simp

end Cio.HttpChunks
