import Verif.Autobahn.Model
import Verif.WsRecv.CallsProps
/-
The echo server keeps within its buffer, keeps to the rules of the WebSocket API and sends back what it was sent (C92).
-/
namespace Cio.Autobahn
open WsRecv (Out Seen seen Sc scan scanAll)

/-- The bytes and ends of data frames in what was seen. -/
def isData : Seen → Bool
  | .byte .. => true
  | .frameEnd .. => true
  | .other _ => false

def dataOf (l : List Seen) : List Seen := l.filter isData

/-- What calls of the write functions amount to on the wire: `first` opens a frame of the announced length, `cont` goes on with it; the frame ends when it has got as many
bytes as announced.  `none` for calls that go against the rules: a second frame within a frame, a continuation without a frame, more bytes than announced.  `cur` is the
frame in progress (announced, bytes so far, last frame of the message, binary). -/
def writes : Option (Nat × Nat × Bool × Bool) → List Call → Option (List Seen × Option (Nat × Nat × Bool × Bool))
  | cur, [] => some ([], cur)
  | cur, .read :: l => writes cur l
  | none, .first n p lf b :: l =>
    if p.length > n then none
    else if p.length = n then (writes none l).map fun r => (p.map (fun x => .byte x n lf b) ++ [.frameEnd n lf b] ++ r.1, r.2)
    else (writes (some (n, p.length, lf, b)) l).map fun r => (p.map (fun x => .byte x n lf b) ++ r.1, r.2)
  | some _, .first _ _ _ _ :: _ => none
  | none, .cont _ :: _ => none
  | some (n, g, lf, b), .cont p :: l =>
    if g + p.length > n then none
    else if g + p.length = n then (writes none l).map fun r => (p.map (fun x => .byte x n lf b) ++ [.frameEnd n lf b] ++ r.1, r.2)
    else (writes (some (n, g + p.length, lf, b)) l).map fun r => (p.map (fun x => .byte x n lf b) ++ r.1, r.2)

theorem writes_append (cur : Option (Nat × Nat × Bool × Bool)) (a b : List Call) :
    writes cur (a ++ b) = match writes cur a with
      | none => none
      | some (l, cur') => (writes cur' b).map fun r => (l ++ r.1, r.2) := by
  induction a generalizing cur with
  | nil => cases h : writes cur b <;> simp [writes, h]
  | cons x a ih =>
    cases x with
    | read => simp only [List.cons_append, writes]; exact ih cur
    | first n p lf bb =>
      cases cur with
      | some c => simp [writes]
      | none =>
        simp only [List.cons_append, writes]
        by_cases h1 : p.length > n
        · simp [h1]
        rw [if_neg h1, if_neg h1]
        by_cases h2 : p.length = n
        · rw [if_pos h2, if_pos h2, ih]
          cases writes none a with
          | none => rfl
          | some r => dsimp only [Option.map]; cases writes r.2 b <;> simp
        · rw [if_neg h2, if_neg h2, ih]
          cases writes (some (n, p.length, lf, bb)) a with
          | none => rfl
          | some r => dsimp only [Option.map]; cases writes r.2 b <;> simp
    | cont p =>
      cases cur with
      | none => simp [writes]
      | some c =>
        obtain ⟨n, g, lf, bb⟩ := c
        simp only [List.cons_append, writes]
        by_cases h1 : g + p.length > n
        · simp [h1]
        rw [if_neg h1, if_neg h1]
        by_cases h2 : g + p.length = n
        · rw [if_pos h2, if_pos h2, ih]
          cases writes none a with
          | none => rfl
          | some r => dsimp only [Option.map]; cases writes r.2 b <;> simp
        · rw [if_neg h2, if_neg h2, ih]
          cases writes (some (n, g + p.length, lf, bb)) a with
          | none => rfl
          | some r => dsimp only [Option.map]; cases writes r.2 b <;> simp

/-- The application agrees with what it was shown. -/
structure Agree (s : Sc) (outs : List Out) (a : App) (cs : List Call) : Prop where
  size : a.buf.length = readBufferSize
  between : s.cur = none → a.index = 0 ∧ a.startNew = true ∧ writes none cs = some (dataOf (seen outs), none)
  small : ∀ n g lf b, s.cur = some (n, g, lf, b) → n ≤ readBufferSize → g < n ∧ a.index = g ∧ a.startNew = true ∧
    ∃ l, writes none cs = some (l, none) ∧ dataOf (seen outs) = l ++ (a.buf.take g).map (fun x => .byte x n lf b)
  big : ∀ n g lf b, s.cur = some (n, g, lf, b) → readBufferSize < n → g < n ∧ a.index = 0 ∧ a.startNew = false ∧
    writes none cs = some (dataOf (seen outs), some (n, g, lf, b))

theorem dataOf_append (a b : List Seen) : dataOf (a ++ b) = dataOf a ++ dataOf b := by simp [dataOf]

theorem dataOf_chunk (n : Nat) (d : List UInt8) (lc lf b : Bool) : dataOf (WsRecv.seen1 (.chunk n d lc lf b)) =
    d.map (fun x => .byte x n lf b) ++ if lc then [.frameEnd n lf b] else [] := by
  have h : dataOf (d.map (fun x => Seen.byte x n lf b)) = d.map (fun x => Seen.byte x n lf b) := by
    unfold dataOf
    rw [List.filter_eq_self]
    intro x hx
    obtain ⟨y, -, rfl⟩ := List.mem_map.mp hx
    rfl
  unfold WsRecv.seen1
  rw [dataOf_append, h]
  cases lc <;> rfl

theorem serve_snoc (junk : List UInt8) (outs : List Out) (x : Out) {a a' : App} {cs cs' : List Call} (h : serve junk outs = some (a, cs)) (h2 : react a x = some (a', cs')) :
    serve junk (outs ++ [x]) = some (a', cs ++ cs') := by
  unfold serve at h ⊢
  rw [List.foldl_append, h]
  simp [h2]

theorem serve_agree (junk : List UInt8) (hj : junk.length = readBufferSize) {outs : List Out} {s : Sc} (h : scanAll {} outs = some s) :
    ∃ a cs, serve junk outs = some (a, cs) ∧ Agree s outs a cs := by
  induction outs using List.reverseRecOn generalizing s with
  | nil =>
    injection h with h
    subst h
    exact ⟨{ buf := junk }, [], rfl, hj, fun _ => ⟨rfl, rfl, rfl⟩, fun _ _ _ _ q => (by cases q), fun _ _ _ _ q => (by cases q)⟩
  | append_singleton l x ih =>
    obtain ⟨m, h1, h2⟩ := WsRecv.scanAll_split h
    obtain ⟨s', h3, h4⟩ := WsRecv.scanAll_cons h2
    clear h2
    injection h4 with h4
    subst h4
    obtain ⟨a, cs, i1, i2⟩ := ih h1
    have hseen : dataOf (seen (l ++ [x])) = dataOf (seen l) ++ dataOf (WsRecv.seen1 x) := by
      rw [WsRecv.seen_append, dataOf_append, WsRecv.seen_single]
    by_cases hx : WsRecv.IsChunk x
    · obtain ⟨n, d, lc, lf, b, rfl⟩ := hx
      obtain ⟨e1, e2, e3, e4, e5, e6⟩ := WsRecv.scan_chunk h3
      have hcur : s'.cur = if lc then none else some (n, WsRecv.gotOf m.cur + d.length, lf, b) := by rw [e1]
      clear e1 e5
      rw [dataOf_chunk] at hseen
      by_cases hn : n ≤ readBufferSize
      · -- the frame is collected
        have key : ∃ l0, a.index = WsRecv.gotOf m.cur ∧ a.startNew = true ∧ writes none cs = some (l0, none) ∧
            dataOf (seen l) = l0 ++ (a.buf.take a.index).map (fun x => .byte x n lf b) := by
          cases hc : m.cur with
          | none =>
            obtain ⟨p1, p2, p3⟩ := i2.between hc
            exact ⟨_, p1, p2, p3, by rw [p1]; simp⟩
          | some q =>
            obtain ⟨n', g, lf', b'⟩ := q
            obtain ⟨rfl, rfl, rfl, -⟩ := e6 _ hc
            obtain ⟨-, p1, p2, l0, p3, p4⟩ := i2.small _ _ _ _ hc hn
            exact ⟨l0, p1, p2, p3, by rw [p1]; exact p4⟩
        obtain ⟨l0, k1, k2, k3, k4⟩ := key
        rw [← k1] at e2 e3 hcur
        have hsz := i2.size
        have hb : ¬ a.index + d.length > a.buf.length := by omega
        have hbl : (a.buf.take a.index ++ d ++ a.buf.drop (a.index + d.length)).length = readBufferSize := by
          simp only [List.length_append, List.length_take, List.length_drop]; omega
        have hbt : (a.buf.take a.index ++ d ++ a.buf.drop (a.index + d.length)).take (a.index + d.length) = a.buf.take a.index ++ d := by
          rw [List.take_append_of_le_length (by simp only [List.length_append, List.length_take]; omega)]
          rw [List.take_of_length_le (by simp only [List.length_append, List.length_take]; omega)]
        cases lc with
        | true =>
          have hlen : a.index + d.length = n := e3.mp rfl
          have hpl : (a.buf.take a.index ++ d).length = n := by
            rw [List.length_append, List.length_take, Nat.min_eq_left (by omega), hlen]
          have hr : react a (.chunk n d true lf b) = some ({ a with buf := a.buf.take a.index ++ d ++ a.buf.drop (a.index + d.length), index := 0 },
              [.first n (a.buf.take a.index ++ d) lf b]) := by
            simp only [react, onData]
            rw [if_pos hn, if_neg hb, if_pos trivial, if_neg (by omega)]
            have hbt' := hbt
            rw [hlen] at hbt'
            rw [hlen, hbt']
          refine ⟨_, _, serve_snoc junk l _ i1 hr, hbl, fun _ => ⟨rfl, k2, ?_⟩, ?_, ?_⟩
          · rw [writes_append, k3]
            simp only [writes]
            rw [if_neg (by omega), if_pos hpl, hseen, k4]
            simp [writes]
          · intro n' g' lf' b' hc; rw [hcur] at hc; cases hc
          · intro n' g' lf' b' hc; rw [hcur] at hc; cases hc
        | false =>
          have hlen : a.index + d.length ≠ n := fun q => by have := e3.mpr q; cases this
          have hr : react a (.chunk n d false lf b) = some ({ a with buf := a.buf.take a.index ++ d ++ a.buf.drop (a.index + d.length), index := a.index + d.length }, [.read]) := by
            simp only [react, onData]
            rw [if_pos hn, if_neg hb]; rfl
          refine ⟨_, _, serve_snoc junk l _ i1 hr, hbl, ?_, ?_, ?_⟩
          · intro hc; rw [hcur] at hc; cases hc
          · intro n' g' lf' b' hc _
            rw [hcur] at hc
            simp only [Bool.false_eq_true, if_false, Option.some.injEq, Prod.mk.injEq] at hc
            obtain ⟨rfl, rfl, rfl, rfl⟩ := hc
            refine ⟨by omega, rfl, k2, l0, ?_, ?_⟩
            · rw [writes_append, k3]
              simp [writes]
            · rw [hseen, k4, hbt]; simp
          · intro n' g' lf' b' hc hq
            rw [hcur] at hc
            simp only [Bool.false_eq_true, if_false, Option.some.injEq, Prod.mk.injEq] at hc
            obtain ⟨rfl, -⟩ := hc
            omega
      · -- the frame is sent on in chunks
        have hn' : readBufferSize < n := by omega
        have hr : react a (.chunk n d lc lf b) = some ({ a with startNew := lc }, [if a.startNew then .first n d lf b else .cont d]) := by
          simp only [react, onData]
          rw [if_neg hn]
        cases hc : m.cur with
        | none =>
          obtain ⟨p1, p2, p3⟩ := i2.between hc
          rw [hc] at e2 e3 hcur
          simp only [WsRecv.gotOf, Nat.zero_add] at e2 e3 hcur
          rw [p2, if_pos rfl] at hr
          have hw : writes none (cs ++ [.first n d lf b]) = some (dataOf (seen (l ++ [.chunk n d lc lf b])), if lc then none else some (n, d.length, lf, b)) := by
            rw [writes_append, p3]
            simp only [writes]
            rw [if_neg (by omega), hseen]
            cases lc with
            | true => rw [if_pos (e3.mp rfl)]; simp
            | false =>
              have : d.length ≠ n := fun q => by have := e3.mpr q; cases this
              rw [if_neg this]; simp
          refine ⟨_, _, serve_snoc junk l _ i1 hr, i2.size, ?_, ?_, ?_⟩
          · intro q
            cases lc with
            | false => rw [hcur] at q; cases q
            | true => exact ⟨p1, rfl, hw⟩
          · intro n' g' lf' b' q hq
            cases lc with
            | true => rw [hcur] at q; cases q
            | false =>
              rw [hcur] at q
              simp only [Bool.false_eq_true, if_false, Option.some.injEq, Prod.mk.injEq] at q
              obtain ⟨rfl, -⟩ := q
              omega
          · intro n' g' lf' b' q hq
            cases lc with
            | true => rw [hcur] at q; cases q
            | false =>
              rw [hcur] at q
              simp only [Bool.false_eq_true, if_false, Option.some.injEq, Prod.mk.injEq] at q
              obtain ⟨rfl, rfl, rfl, rfl⟩ := q
              have : d.length ≠ n := fun q => by have := e3.mpr q; cases this
              exact ⟨by omega, p1, rfl, hw⟩
        | some q =>
          obtain ⟨n', g, lf', b'⟩ := q
          obtain ⟨rfl, rfl, rfl, -⟩ := e6 _ hc
          obtain ⟨p0, p1, p2, p3⟩ := i2.big _ _ _ _ hc hn'
          rw [hc] at e2 e3 hcur
          simp only [WsRecv.gotOf] at e2 e3 hcur
          dsimp only at hr
          rw [p2] at hr
          simp only [Bool.false_eq_true, if_false] at hr
          have hw : writes none (cs ++ [.cont d]) = some (dataOf (seen (l ++ [.chunk n' d lc lf' b'])), if lc then none else some (n', g + d.length, lf', b')) := by
            rw [writes_append, p3]
            simp only [writes]
            rw [if_neg (by omega), hseen]
            cases lc with
            | true => rw [if_pos (e3.mp rfl)]; simp
            | false =>
              have : g + d.length ≠ n' := fun q => by have := e3.mpr q; cases this
              rw [if_neg this]; simp
          refine ⟨_, _, serve_snoc junk l _ i1 hr, i2.size, ?_, ?_, ?_⟩
          · intro q
            cases lc with
            | false => rw [hcur] at q; cases q
            | true => exact ⟨p1, rfl, hw⟩
          · intro n2 g2 lf2 b2 q hq
            cases lc with
            | true => rw [hcur] at q; cases q
            | false =>
              rw [hcur] at q
              simp only [Bool.false_eq_true, if_false, Option.some.injEq, Prod.mk.injEq] at q
              obtain ⟨rfl, -⟩ := q
              omega
          · intro n2 g2 lf2 b2 q hq
            cases lc with
            | true => rw [hcur] at q; cases q
            | false =>
              rw [hcur] at q
              simp only [Bool.false_eq_true, if_false, Option.some.injEq, Prod.mk.injEq] at q
              obtain ⟨rfl, rfl, rfl, rfl⟩ := q
              have : g + d.length ≠ n' := fun q => by have := e3.mpr q; cases this
              exact ⟨by omega, p1, rfl, hw⟩
    · have hr : react a x = some (a, []) := by
        cases x with
        | chunk n d lc lf b => exact absurd ⟨n, d, lc, lf, b, rfl⟩ hx
        | _ => rfl
      have hd : dataOf (seen (l ++ [x])) = dataOf (seen l) := by
        rw [hseen]
        cases x with
        | chunk n d lc lf b => exact absurd ⟨n, d, lc, lf, b, rfl⟩ hx
        | _ => simp [WsRecv.seen1, dataOf, isData]
      have hcur : s'.cur = m.cur := by
        exact WsRecv.scan_other_cur h3 hx
      refine ⟨a, cs ++ [], serve_snoc junk l x i1 hr, i2.size, ?_, ?_, ?_⟩
      · rw [hcur, hd, List.append_nil]; exact i2.between
      · rw [hcur, hd, List.append_nil]; exact i2.small
      · rw [hcur, hd, List.append_nil]; exact i2.big

/-- C92: the echo server, whatever its client sends, however it arrives and whatever the buffer contains at first, never leaves its buffer and never goes against the rules of
the write functions; what it has written so far is a beginning of what it was shown, and all of it when it was not shown an incomplete frame: the same frames with the same bytes, the same
marks for the end of the message and for binary data, in the same order. -/
theorem echoes (e : WsStream.Env) (mem : List UInt8) (hmem : 125 ≤ mem.length) (xs : List WsStream.Ev) (w : BufferedRead.World) (h : WsStream.Reach e mem xs w)
    (junk : List UInt8) (hj : junk.length = readBufferSize) :
    ∃ a calls l open', serve junk (WsStream.shown e w) = some (a, calls) ∧ writes none calls = some (l, open') ∧ l <+: dataOf (seen (WsStream.shown e w)) ∧
      (WsRecv.AllComplete (WsStream.shown e w) → l = dataOf (seen (WsStream.shown e w)) ∧ open' = none) := by
  obtain ⟨s, hs⟩ := WsStream.shown_scan e mem hmem xs w h
  obtain ⟨a, cs, h1, h2⟩ := serve_agree junk hj hs
  cases hc : s.cur with
  | none =>
    obtain ⟨-, -, q⟩ := h2.between hc
    exact ⟨a, cs, _, _, h1, q, List.prefix_rfl, fun _ => ⟨rfl, rfl⟩⟩
  | some q =>
    obtain ⟨n, g, lf, b⟩ := q
    have hno : ¬ WsRecv.AllComplete (WsStream.shown e w) := fun q => by
      have := WsRecv.scan_complete hs q
      rw [hc] at this; cases this
    by_cases hn : n ≤ readBufferSize
    · obtain ⟨-, -, -, l, q1, q2⟩ := h2.small _ _ _ _ hc hn
      exact ⟨a, cs, l, none, h1, q1, ⟨_, q2.symm⟩, fun q => absurd q hno⟩
    · obtain ⟨-, -, -, q1⟩ := h2.big _ _ _ _ hc (by omega)
      exact ⟨a, cs, _, _, h1, q1, List.prefix_rfl, fun q => absurd q hno⟩

/-- While a frame is incomplete, the last thing seen of it is a byte. -/
theorem open_ends_with_byte {outs : List Out} {s : Sc} (h : scanAll {} outs = some s) (hc : s.cur ≠ none) : ∃ q x n lf b, dataOf (seen outs) = q ++ [.byte x n lf b] := by
  induction outs using List.reverseRecOn generalizing s with
  | nil => injection h with h; rw [← h] at hc; exact absurd rfl hc
  | append_singleton l x ih =>
    obtain ⟨m, h1, h2⟩ := WsRecv.scanAll_split h
    obtain ⟨s', h3, h4⟩ := WsRecv.scanAll_cons h2
    injection h4 with h4
    subst h4
    rw [WsRecv.seen_append, dataOf_append, WsRecv.seen_single]
    by_cases hx : WsRecv.IsChunk x
    · obtain ⟨n, d, lc, lf, b, rfl⟩ := hx
      obtain ⟨e1, e2, e3, e4, -, -⟩ := WsRecv.scan_chunk h3
      cases lc with
      | true => rw [e1] at hc; exact absurd rfl hc
      | false =>
        rw [dataOf_chunk]
        rcases List.eq_nil_or_concat d with rfl | ⟨d', y, rfl⟩
        · exfalso
          have h0 := e4 rfl
          rw [List.length_nil, Nat.add_zero] at e2 e3
          have := e3.mpr (by omega)
          cases this
        · exact ⟨dataOf (seen l) ++ d'.map (fun x => .byte x n lf b), y, n, lf, b, by simp⟩
    · have hd : dataOf (WsRecv.seen1 x) = [] := by
        cases x with
        | chunk n d lc lf b => exact absurd ⟨n, d, lc, lf, b, rfl⟩ hx
        | _ => simp [WsRecv.seen1, dataOf, isData]
      rw [hd, List.append_nil]
      exact ih h1 (by rw [← WsRecv.scan_other_cur h3 hx]; exact hc)

theorem shownAll_end (frag : Nat) (fs : List WsRecv.Frame) : dataOf (WsRecv.shownAll frag fs) = [] ∨ ∃ q n lf b, dataOf (WsRecv.shownAll frag fs) = q ++ [.frameEnd n lf b] := by
  induction fs generalizing frag with
  | nil => exact .inl rfl
  | cons f fs ih =>
    unfold WsRecv.shownAll
    rw [dataOf_append]
    rcases ih (f.after frag) with h | ⟨q, n, lf, b, h⟩
    · rw [h, List.append_nil]
      unfold WsRecv.Frame.shown
      split
      · exact .inl rfl
      · split
        · exact .inl rfl
        · right
          rw [dataOf_append]
          exact ⟨_, _, _, _, rfl⟩
    · right; exact ⟨_, _, _, _, by rw [h, ← List.append_assoc]⟩

/-- C92 for a client that keeps to RFC 6455: when the frames of the client have arrived and the server waits for more, the server has written the same data frames: whatever their number and sizes, the
fragmentation, the pings in between and the pieces they arrived in.  (Text: as long as no piece ends within a character, see C20.) -/
theorem frames_come_back (e : WsStream.Env) (mem : List UInt8) (hmem : 125 ≤ mem.length) (xs : List WsStream.Ev) (w : BufferedRead.World) (h : WsStream.Reach e mem xs w)
    (junk : List UInt8) (hj : junk.length = readBufferSize) (fs : List WsRecv.Frame) (hl : WsRecv.Legal e.server 0 fs)
    (hf : (WsStream.deliveries xs).flatten = fs.flatMap WsRecv.Frame.wire) (hw : w.waiting = true)
    (ht : WsRecv.NoTextFrames 0 fs ∨ WsRecv.TextOk e.server (WsRecv.onClose e.o e.selfClose) (WsStream.pieces0 (WsStream.deliveries xs))) :
    ∃ a calls, serve junk (WsStream.shown e w) = some (a, calls) ∧ writes none calls = some (dataOf (WsRecv.shownAll 0 fs), none) := by
  obtain ⟨s, hs⟩ := WsStream.shown_scan e mem hmem xs w h
  obtain ⟨a, cs, h1, h2⟩ := serve_agree junk hj hs
  have hd := WsStream.stream_frames_delivered e mem hmem xs w h fs hl hf hw ht
  refine ⟨a, cs, h1, ?_⟩
  have hc : s.cur = none := by
    apply Classical.byContradiction
    intro hc
    obtain ⟨q, x, n, lf, b, h3⟩ := open_ends_with_byte hs hc
    rw [hd] at h3
    rcases shownAll_end 0 fs with h4 | ⟨q', n', lf', b', h4⟩
    · rw [h4] at h3; cases q <;> cases h3
    · rw [h4] at h3
      obtain ⟨-, h5⟩ := List.append_inj' h3 rfl
      injection h5 with h5; cases h5
  rw [← hd]
  exact (h2.between hc).2.2

set_option maxRecDepth 200000 in
set_option synthInstance.maxSize 1000 in
/-- The server of `WsRecv`'s example run (a binary message of two frames, the first one in two pieces, with a ping in between): the calls it makes and what they put on the connection. -/
example : (serve (List.replicate readBufferSize 0xaa)
      [.chunk 3 [1] false false true, .chunk 3 [2, 3] true false true, .control 9 [], .pong [], .chunk 1 [9] true true true]).map (fun r => (r.2, writes none r.2)) =
    some ([.read, .first 3 [1, 2, 3] false true, .first 1 [9] true true],
      some ([.byte 1 3 false true, .byte 2 3 false true, .byte 3 3 false true, .frameEnd 3 false true, .byte 9 1 true true, .frameEnd 1 true true], none)) := by decide +kernel

end Cio.Autobahn
