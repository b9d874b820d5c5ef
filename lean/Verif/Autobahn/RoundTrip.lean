import Verif.Autobahn.Props
import Verif.WsStream.RoundTrip
/-
C99: from an application that uses this library as a client, over the wire to the echo server of autobahn/ and back.
-/
namespace Cio.Autobahn
open WsRecv (Out Seen seen)
open WsRoundTrip (Out1 Sequence delivered dataSeen NoTextSent wire)
open WsSend (FrameType)
open Masking (chainBytes)

/-- The frames the server's library makes of the application's calls of the write functions: the first chunk is sent as a frame of the announced length whose type follows from `is_binary` or, within a
fragmented message (`fragmented`), is a continuation (websocket.c 936-974); the further chunks of the frame go behind it.  In between frames the library sends pongs. -/
inductive Sends : Bool → List Call → List Out1 → Prop
  | nil (fragmented : Bool) : Sends fragmented [] []
  | pong {fragmented : Bool} {cs : List Call} {os : List Out1} (c : Out1) (ht : c.type = .pong) (hf : c.fin = true) (hl : c.payload.length ≤ 125) (h : Sends fragmented cs os) :
    Sends fragmented cs (c :: os)
  | frame {fragmented : Bool} {cs : List Call} {os : List Out1} (n : Nat) (lastFrame binary : Bool) (p : List UInt8) (conts : List (List UInt8)) (c : Out1)
    (ht : c.type = if fragmented then .continuation else if binary then .binary else .text) (hf : c.fin = lastFrame) (hp : chainBytes c.mem c.chain = p)
    (hm : c.more.map (fun m => chainBytes m.1 m.2) = conts) (h : Sends (!lastFrame) cs os) : Sends fragmented (.first n p lastFrame binary :: conts.map .cont ++ cs) (c :: os)

/-- A frame in progress is never left. -/
theorem sends_not_open {m : Bool} {cs : List Call} {os : List Out1} (h : Sends m cs os) (q : Nat × Nat × Bool × Bool) (l : List Seen) : writes (some q) cs ≠ some (l, none) := by
  induction h generalizing l with
  | nil => simp [writes]
  | pong c ht hf hl h ih => exact ih l
  | frame n lf b p conts c ht hf hp hm h ih => simp [writes]

theorem writes_conts {m : Bool} {cs : List Call} {os : List Out1} (h : Sends m cs os) (n g : Nat) (lf b : Bool) (conts : List (List UInt8)) (l : List Seen)
    (hw : writes (some (n, g, lf, b)) (conts.map .cont ++ cs) = some (l, none)) :
    g + conts.flatten.length = n ∧ ∃ l', writes none cs = some (l', none) ∧ l = conts.flatten.map (fun x => .byte x n lf b) ++ [.frameEnd n lf b] ++ l' := by
  induction conts generalizing g l with
  | nil => exact absurd hw (sends_not_open h _ _)
  | cons p conts ih =>
    simp only [List.map_cons, List.cons_append, writes] at hw
    by_cases h1 : g + p.length > n
    · rw [if_pos h1] at hw; cases hw
    rw [if_neg h1] at hw
    by_cases h2 : g + p.length = n
    · rw [if_pos h2] at hw
      have hc : conts = [] := by
        cases conts with
        | nil => rfl
        | cons q conts => simp [writes] at hw
      subst hc
      simp only [List.map_nil, List.nil_append] at hw
      cases hr : writes none cs with
      | none => rw [hr] at hw; cases hw
      | some r =>
        rw [hr] at hw
        obtain ⟨r1, r2⟩ := r
        simp only [Option.map_some, Option.some.injEq, Prod.mk.injEq] at hw
        obtain ⟨e1, e2⟩ := hw
        subst e2
        exact ⟨by simpa using h2, r1, rfl, by rw [← e1]; simp⟩
    · rw [if_neg h2] at hw
      cases hr : writes (some (n, g + p.length, lf, b)) (conts.map .cont ++ cs) with
      | none => rw [hr] at hw; cases hw
      | some r =>
        rw [hr] at hw
        obtain ⟨r1, r2⟩ := r
        simp only [Option.map_some, Option.some.injEq, Prod.mk.injEq] at hw
        obtain ⟨e1, e2⟩ := hw
        subst e2
        obtain ⟨i1, l', i2, i3⟩ := ih _ _ hr
        exact ⟨by rw [List.flatten_cons, List.length_append]; omega, l', i2, by rw [← e1, i3]; simp⟩

theorem writes_frame {m : Bool} {cs : List Call} {os : List Out1} (h : Sends m cs os) (n : Nat) (lf b : Bool) (p : List UInt8) (conts : List (List UInt8)) (l : List Seen)
    (hw : writes none (.first n p lf b :: conts.map .cont ++ cs) = some (l, none)) :
    (p ++ conts.flatten).length = n ∧ ∃ l', writes none cs = some (l', none) ∧ l = (p ++ conts.flatten).map (fun x => .byte x n lf b) ++ [.frameEnd n lf b] ++ l' := by
  simp only [List.cons_append, writes] at hw
  by_cases h1 : p.length > n
  · rw [if_pos h1] at hw; cases hw
  rw [if_neg h1] at hw
  by_cases h2 : p.length = n
  · rw [if_pos h2] at hw
    have hc : conts = [] := by
      cases conts with
      | nil => rfl
      | cons q conts => simp [writes] at hw
    subst hc
    simp only [List.map_nil, List.nil_append] at hw
    cases hr : writes none cs with
    | none => rw [hr] at hw; cases hw
    | some r =>
      rw [hr] at hw
      obtain ⟨r1, r2⟩ := r
      simp only [Option.map_some, Option.some.injEq, Prod.mk.injEq] at hw
      obtain ⟨e1, e2⟩ := hw
      subst e2
      exact ⟨by simpa using h2, r1, rfl, by rw [← e1]; simp⟩
  · rw [if_neg h2] at hw
    cases hr : writes (some (n, p.length, lf, b)) (conts.map .cont ++ cs) with
    | none => rw [hr] at hw; cases hw
    | some r =>
      rw [hr] at hw
      obtain ⟨r1, r2⟩ := r
      simp only [Option.map_some, Option.some.injEq, Prod.mk.injEq] at hw
      obtain ⟨e1, e2⟩ := hw
      subst e2
      obtain ⟨i1, l', i2, i3⟩ := writes_conts h _ _ _ _ _ _ hr
      exact ⟨by rw [List.length_append]; exact i1, l', i2, by rw [← e1, i3]; simp⟩

/-- What belongs to a binary message. -/
def isBinary : Seen → Prop
  | .byte _ _ _ b => b = true
  | .frameEnd _ _ b => b = true
  | .other _ => True

theorem dataOf_data (b lf : Bool) (p : List UInt8) : dataOf (dataSeen b lf p) = dataSeen b lf p := by
  unfold dataOf
  rw [List.filter_eq_self]
  intro x hx
  unfold dataSeen at hx
  rcases List.mem_append.1 hx with hx | hx
  · obtain ⟨y, -, rfl⟩ := List.mem_map.1 hx; rfl
  · rw [List.mem_singleton] at hx; subst hx; rfl

/-- Legal calls for binary messages become a legal sequence of frames that shows what was written. -/
theorem sends_sequence {m : Bool} {cs : List Call} {os : List Out1} (h : Sends m cs os) (l : List Seen) (hw : writes none cs = some (l, none)) (hb : ∀ x ∈ l, isBinary x) :
    Sequence (if m then some .binary else none) (os.map Out1.frame) ∧ NoTextSent (if m then some .binary else none) (os.map Out1.frame) ∧
      dataOf (delivered (if m then some .binary else none) (os.map Out1.frame)) = l := by
  induction h generalizing l with
  | nil m =>
    simp only [writes, Option.some.injEq, Prod.mk.injEq] at hw
    rw [← hw.1]
    refine ⟨?_, ?_, ?_⟩ <;> cases m <;> simp [Sequence, NoTextSent, delivered, dataOf]
  | pong c ht hf hl h ih =>
    obtain ⟨i1, i2, i3⟩ := ih l hw hb
    have hc : c.frame = (.pong, c.fin, c.payload) := by unfold Out1.frame; rw [ht]
    rw [List.map_cons, hc]
    refine ⟨⟨hf, hl, i1⟩, i2, ?_⟩
    rw [← i3]
    rfl
  | @frame m cs os n lf b p conts c ht hf hp hm h ih =>
    obtain ⟨w1, l', w2, w3⟩ := writes_frame h n lf b p conts l hw
    have hbt : b = true := hb (.frameEnd n lf b) (by rw [w3]; simp)
    subst hbt
    obtain ⟨i1, i2, i3⟩ := ih l' w2 (fun x hx => hb x (by rw [w3]; exact List.mem_append_right _ hx))
    have hpay : c.payload = p ++ conts.flatten := by
      unfold Out1.payload
      rw [hp, ← hm, List.flatMap_def]
    have hl : l = dataSeen true lf c.payload ++ l' := by
      rw [w3, hpay]
      unfold dataSeen
      rw [w1]
    have hc : c.frame = (if m then .continuation else .binary, lf, c.payload) := by
      unfold Out1.frame
      rw [ht, hf]
      cases m <;> rfl
    rw [List.map_cons, hc, hl]
    cases m with
    | true =>
      cases lf with
      | true => exact ⟨⟨by simp, i1⟩, ⟨by simp, i2⟩, by rw [← i3]; show dataOf (dataSeen true true c.payload ++ _) = _; rw [dataOf_append, dataOf_data]; rfl⟩
      | false => exact ⟨⟨by simp, i1⟩, ⟨by simp, i2⟩, by rw [← i3]; show dataOf (dataSeen true false c.payload ++ _) = _; rw [dataOf_append, dataOf_data]; rfl⟩
    | false =>
      cases lf with
      | true => exact ⟨⟨rfl, i1⟩, i2, by rw [← i3]; show dataOf (dataSeen true true c.payload ++ _) = _; rw [dataOf_append, dataOf_data]; rfl⟩
      | false => exact ⟨⟨rfl, i1⟩, i2, by rw [← i3]; show dataOf (dataSeen true false c.payload ++ _) = _; rw [dataOf_append, dataOf_data]; rfl⟩

theorem delivered_binary (op : Option FrameType) (hop : op = none ∨ op = some .binary) (fs : List (FrameType × Bool × List UInt8)) (hs : Sequence op fs) (hn : NoTextSent op fs) :
    ∀ x ∈ delivered op fs, isBinary x := by
  induction fs generalizing op with
  | nil => intro x hx; cases op <;> cases hx
  | cons f fs ih =>
    obtain ⟨t, fin, p⟩ := f
    have hd : ∀ x ∈ dataSeen true fin p, isBinary x := by
      intro x hx
      unfold dataSeen at hx
      rcases List.mem_append.1 hx with hx | hx
      · obtain ⟨y, -, rfl⟩ := List.mem_map.1 hx; rfl
      · rw [List.mem_singleton] at hx; subst hx; rfl
    cases t with
    | text => exact hn.elim
    | close => exact hs.elim
    | ping =>
      intro x hx
      rw [delivered, List.mem_cons, List.mem_cons] at hx
      rcases hx with rfl | rfl | hx
      · trivial
      · trivial
      · exact ih op hop hs.2.2 hn x hx
    | pong =>
      intro x hx
      rw [delivered, List.mem_cons] at hx
      rcases hx with rfl | hx
      · trivial
      · exact ih op hop hs.2.2 hn x hx
    | continuation =>
      have hb : op = some .binary := hop.resolve_left hs.1
      subst hb
      intro x hx
      rw [delivered, List.mem_append] at hx
      rcases hx with hx | hx
      · exact hd x (by simpa using hx)
      · exact ih _ (by cases fin <;> simp) hs.2 hn.2 x hx
    | binary =>
      intro x hx
      rw [delivered, List.mem_append] at hx
      rcases hx with hx | hx
      · exact hd x hx
      · exact ih _ (by cases fin <;> simp) hs.2 hn x hx

/-- The calls of the write functions. -/
def writeCalls (cs : List Call) : List Call := cs.filter (· ≠ .read)

theorem writes_writeCalls (cur : Option (Nat × Nat × Bool × Bool)) (cs : List Call) : writes cur (writeCalls cs) = writes cur cs := by
  induction cs generalizing cur with
  | nil => rfl
  | cons c cs ih =>
    cases c with
    | read => rw [writeCalls, List.filter_cons_of_neg (by simp)]; simp only [writes]; exact ih cur
    | first n p lf b =>
      rw [writeCalls, List.filter_cons_of_pos (by simp)]
      have := ih
      unfold writeCalls at this
      cases cur with
      | none => simp only [writes, this]
      | some q => simp only [writes]
    | cont p =>
      rw [writeCalls, List.filter_cons_of_pos (by simp)]
      have := ih
      unfold writeCalls at this
      cases cur with
      | none => simp only [writes]
      | some q => obtain ⟨n, g, lf, b⟩ := q; simp only [writes, this]

theorem split_conts (cs : List Call) (hr : Call.read ∉ cs) (n g : Nat) (lf b : Bool) (l : List Seen) (hw : writes (some (n, g, lf, b)) cs = some (l, none)) :
    ∃ (conts : List (List UInt8)) (cs' : List Call) (l' : List Seen), cs = conts.map .cont ++ cs' ∧ g + conts.flatten.length = n ∧ writes none cs' = some (l', none) ∧
      l = conts.flatten.map (fun x => .byte x n lf b) ++ [.frameEnd n lf b] ++ l' := by
  induction cs generalizing g l with
  | nil => simp [writes] at hw
  | cons c cs ih =>
    have hr' : Call.read ∉ cs := fun q => hr (List.mem_cons_of_mem _ q)
    cases c with
    | read => exact absurd List.mem_cons_self hr
    | first n p lf b => simp [writes] at hw
    | cont p =>
      simp only [writes] at hw
      by_cases h1 : g + p.length > n
      · rw [if_pos h1] at hw; cases hw
      rw [if_neg h1] at hw
      by_cases h2 : g + p.length = n
      · rw [if_pos h2] at hw
        cases hq : writes none cs with
        | none => rw [hq] at hw; cases hw
        | some r =>
          rw [hq] at hw
          obtain ⟨r1, r2⟩ := r
          simp only [Option.map_some, Option.some.injEq, Prod.mk.injEq] at hw
          obtain ⟨e1, e2⟩ := hw
          subst e2
          exact ⟨[p], cs, r1, rfl, by simpa using h2, hq, by rw [← e1]; simp⟩
      · rw [if_neg h2] at hw
        cases hq : writes (some (n, g + p.length, lf, b)) cs with
        | none => rw [hq] at hw; cases hw
        | some r =>
          rw [hq] at hw
          obtain ⟨r1, r2⟩ := r
          simp only [Option.map_some, Option.some.injEq, Prod.mk.injEq] at hw
          obtain ⟨e1, e2⟩ := hw
          subst e2
          obtain ⟨conts, cs', l', i1, i2, i3, i4⟩ := ih hr' _ _ hq
          exact ⟨p :: conts, cs', l', by rw [i1]; rfl, by rw [List.flatten_cons, List.length_append]; omega, i3, by rw [← e1, i4]; simp⟩

/-- Memory that holds the bytes from address 0 on. -/
def memOf (p : List UInt8) : Masking.Mem := fun x => p.getD x 0

theorem chainBytes_memOf (p : List UInt8) : chainBytes (memOf p) [(0, p.length)] = p := by
  unfold chainBytes Masking.bytesAt memOf
  rw [List.flatMap_singleton]
  apply List.ext_getElem
  · simp
  · intro i h1 h2
    simp [h2]

/-- One frame, its chunks somewhere in memory. -/
def outOf (t : FrameType) (fin : Bool) (p : List UInt8) (conts : List (List UInt8)) : Out1 :=
  { type := t, fin := fin, hdr := List.replicate 14 0, mem := memOf p, saved := WsSend.toMask [], chain := [(0, p.length)], more := conts.map (fun q => (memOf q, [(0, q.length)])) }

theorem outOf_ok (t : FrameType) (fin : Bool) (p : List UInt8) (conts : List (List UInt8)) (h : (p ++ conts.flatten).length < 2 ^ 64) :
    (outOf t fin p conts).Ok true ∧ chainBytes (outOf t fin p conts).mem (outOf t fin p conts).chain = p ∧
      (outOf t fin p conts).more.map (fun m => chainBytes m.1 m.2) = conts := by
  have hm : (outOf t fin p conts).more.map (fun m => chainBytes m.1 m.2) = conts := by
    simp only [outOf, List.map_map]
    conv => rhs; rw [← List.map_id conts]
    apply List.map_congr_left
    intro q _
    exact chainBytes_memOf q
  have hp : chainBytes (outOf t fin p conts).mem (outOf t fin p conts).chain = p := chainBytes_memOf p
  refine ⟨⟨by simp [outOf], List.pairwise_singleton _ _, ?_, ?_, fun q => by cases q⟩, hp, hm⟩
  · intro m hm
    simp only [outOf, List.mem_map] at hm
    obtain ⟨q, -, rfl⟩ := hm
    exact List.pairwise_singleton _ _
  · unfold Out1.payload
    rw [hp, List.flatMap_def, hm]
    exact h

/-- Calls that go by the rules can be sent. -/
theorem sends_exist (k : Nat) (cs : List Call) (hk : cs.length ≤ k) (hr : Call.read ∉ cs) (m : Bool) (l : List Seen) (hw : writes none cs = some (l, none))
    (hl : ∀ n lf b, .frameEnd n lf b ∈ l → n < 2 ^ 64) : ∃ os, Sends m cs os ∧ ∀ c ∈ os, c.Ok true := by
  induction k generalizing cs m l with
  | zero =>
    have : cs = [] := List.eq_nil_of_length_eq_zero (by omega)
    subst this
    exact ⟨[], .nil m, fun c hc => by cases hc⟩
  | succ k ih =>
    cases cs with
    | nil => exact ⟨[], .nil m, fun c hc => by cases hc⟩
    | cons c cs =>
      have hr' : Call.read ∉ cs := fun q => hr (List.mem_cons_of_mem _ q)
      cases c with
      | read => exact absurd List.mem_cons_self hr
      | cont p => simp [writes] at hw
      | first n p lf b =>
        have key : ∃ (conts : List (List UInt8)) (cs' : List Call) (l' : List Seen), cs = conts.map .cont ++ cs' ∧ (p ++ conts.flatten).length = n ∧ writes none cs' = some (l', none) ∧
            l = (p ++ conts.flatten).map (fun x => .byte x n lf b) ++ [.frameEnd n lf b] ++ l' := by
          simp only [writes] at hw
          by_cases h1 : p.length > n
          · rw [if_pos h1] at hw; cases hw
          rw [if_neg h1] at hw
          by_cases h2 : p.length = n
          · rw [if_pos h2] at hw
            cases hq : writes none cs with
            | none => rw [hq] at hw; cases hw
            | some r =>
              rw [hq] at hw
              obtain ⟨r1, r2⟩ := r
              simp only [Option.map_some, Option.some.injEq, Prod.mk.injEq] at hw
              obtain ⟨e1, e2⟩ := hw
              subst e2
              exact ⟨[], cs, r1, rfl, by simpa using h2, hq, by rw [← e1]; simp⟩
          · rw [if_neg h2] at hw
            cases hq : writes (some (n, p.length, lf, b)) cs with
            | none => rw [hq] at hw; cases hw
            | some r =>
              rw [hq] at hw
              obtain ⟨r1, r2⟩ := r
              simp only [Option.map_some, Option.some.injEq, Prod.mk.injEq] at hw
              obtain ⟨e1, e2⟩ := hw
              subst e2
              obtain ⟨conts, cs', l', i1, i2, i3, i4⟩ := split_conts cs hr' _ _ _ _ _ hq
              exact ⟨conts, cs', l', i1, by rw [List.length_append]; exact i2, i3, by rw [← e1, i4]; simp⟩
        obtain ⟨conts, cs', l', k1, k2, k3, k4⟩ := key
        have hn : n < 2 ^ 64 := hl n lf b (by rw [k4]; simp)
        subst k1
        obtain ⟨os, i1, i2⟩ := ih cs' (by simp at hk; omega) (fun q => hr' (List.mem_append_right _ q)) (!lf) l' k3
          (fun n lf b q => hl n lf b (by rw [k4]; exact List.mem_append_right _ q))
        obtain ⟨o1, o2, o3⟩ := outOf_ok (if m then .continuation else if b then .binary else .text) lf p conts (by rw [k2]; exact hn)
        refine ⟨_ :: os, Sends.frame n lf b p conts _ rfl rfl o2 o3 i1, ?_⟩
        intro c hc
        rcases List.mem_cons.1 hc with rfl | hc
        · exact o1
        · exact i2 c hc

theorem delivered_lengths (op : Option FrameType) (fs : List (FrameType × Bool × List UInt8)) (h : ∀ f ∈ fs, f.2.2.length < 2 ^ 64) (n : Nat) (lf b : Bool)
    (hm : .frameEnd n lf b ∈ delivered op fs) : n < 2 ^ 64 := by
  induction fs generalizing op with
  | nil => cases op <;> cases hm
  | cons f fs ih =>
    have h' : ∀ f ∈ fs, f.2.2.length < 2 ^ 64 := fun f hf => h f (List.mem_cons_of_mem _ hf)
    have h0 := h f List.mem_cons_self
    obtain ⟨t, fin, p⟩ := f
    have hd : ∀ b' : Bool, Seen.frameEnd n lf b ∈ dataSeen b' fin p → n < 2 ^ 64 := by
      intro b' hx
      unfold dataSeen at hx
      rcases List.mem_append.1 hx with hx | hx
      · obtain ⟨y, -, hy⟩ := List.mem_map.1 hx; cases hy
      · rw [List.mem_singleton] at hx; injection hx with hx; rw [hx]; exact h0
    cases t with
    | close => cases op <;> cases hm
    | ping =>
      rw [delivered, List.mem_cons, List.mem_cons] at hm
      rcases hm with hm | hm | hm
      · cases hm
      · cases hm
      · exact ih op h' hm
    | pong =>
      rw [delivered, List.mem_cons] at hm
      rcases hm with hm | hm
      · cases hm
      · exact ih op h' hm
    | continuation | text | binary =>
      rw [delivered, List.mem_append] at hm
      rcases hm with hm | hm
      · exact hd _ hm
      · exact ih _ h' hm

/-- C99: an application sends frames of binary messages and pings (`sent`) over the client side of a WebSocket of this library; the echo server of autobahn/ gets the bytes, however they are cut; what
its calls make the library send (`back`, with pongs in between) arrives at the client, however it is cut: the client's application is shown the data frames it has sent: the same bytes in frames of the same
lengths, the same fragmentation.  `bytes` and `bytes'` are what is on the wire. -/
theorem message_comes_back (o : Endian.Order) (rng : Random.Rng) (sent : List Out1) (hok : ∀ c ∈ sent, c.Ok false) (hs : Sequence none (sent.map Out1.frame))
    (hb : NoTextSent none (sent.map Out1.frame)) :
    ∃ bytes, wire o false rng sent = some bytes ∧
      ∀ (e : WsStream.Env) (mem : List UInt8) (xs : List WsStream.Ev) (w : BufferedRead.World) (junk : List UInt8), e.server = true → 125 ≤ mem.length → WsStream.Reach e mem xs w →
        (WsStream.deliveries xs).flatten = bytes → w.waiting = true → junk.length = readBufferSize →
        ∃ a calls, serve junk (WsStream.shown e w) = some (a, calls) ∧ (∃ back, Sends false (writeCalls calls) back ∧ ∀ c ∈ back, c.Ok true) ∧
          ∀ (o' : Endian.Order) (rng' : Random.Rng) (back : List Out1), Sends false (writeCalls calls) back → (∀ c ∈ back, c.Ok true) →
            ∃ bytes', wire o' true rng' back = some bytes' ∧
              ∀ (e' : WsStream.Env) (mem' : List UInt8) (xs' : List WsStream.Ev) (w' : BufferedRead.World), e'.server = false → 125 ≤ mem'.length → WsStream.Reach e' mem' xs' w' →
                (WsStream.deliveries xs').flatten = bytes' → w'.waiting = true →
                dataOf (seen (WsStream.shown e' w')) = dataOf (delivered none (sent.map Out1.frame)) := by
  obtain ⟨bytes, fs, w1, w2, w3, w4, w5⟩ := WsRoundTrip.wire_frames o false rng sent hok none (.inl rfl) hs
  refine ⟨bytes, w1, fun e mem xs w junk he hmem hr hd hw hj => ?_⟩
  obtain ⟨a, calls, c1, c2⟩ := frames_come_back e mem hmem xs w hr junk hj fs (by rw [he]; exact w3) (hd.trans w2) hw (.inl (w5 hb))
  have w4' : WsRecv.shownAll 0 fs = delivered none (sent.map Out1.frame) := w4
  rw [w4', ← writes_writeCalls] at c2
  refine ⟨a, calls, c1, ?_, fun o' rng' back hsend hok' => ?_⟩
  · refine sends_exist _ (writeCalls calls) (Nat.le_refl _) ?_ false _ c2 ?_
    · intro q
      have := (List.mem_filter.1 q).2
      simp at this
    · intro n lf b q
      refine delivered_lengths none _ ?_ n lf b (List.mem_of_mem_filter q)
      intro f hf
      obtain ⟨c, hc, rfl⟩ := List.mem_map.1 hf
      exact (hok c hc).length
  have hbin : ∀ x ∈ dataOf (delivered none (sent.map Out1.frame)), isBinary x := fun x hx => delivered_binary none (.inl rfl) _ hs hb x (List.mem_of_mem_filter hx)
  obtain ⟨s1, s2, s3⟩ := sends_sequence hsend _ c2 hbin
  obtain ⟨bytes', b1, b2⟩ := WsStream.binary_sent_is_seen o' true rng' back hok' s1 s2
  refine ⟨bytes', b1, fun e' mem' xs' w' he' hmem' hr' hd' hw' => ?_⟩
  rw [(b2 e' mem' xs' w' he' hmem' hr' ⟨[], by rw [List.append_nil]; exact hd'⟩).2 hd' hw']
  exact s3

/-- The hypotheses are met by `WsRoundTrip.exCalls` (there: `Ok`, `Sequence`, `NoTextSent`), a binary message of two frames with a ping in between: the bytes arrive at the server in two pieces, the first
one ending within the payload of the first frame; the server sends the two frames back, with the pong in between; they arrive at the client in two pieces. -/
def exWire : List UInt8 := [2, 138, 169, 91, 87, 249, 163, 80, 91, 237, 188, 115, 126, 211, 130, 105, 137, 129, 152, 255, 224, 65, 159, 128, 129, 135, 50, 140, 0, 153]
def exServer : WsStream.Env := ⟨.little, 4096, true, false, ⟨0, 0⟩, fun _ => true, fun _ => false⟩
def exServerRun : List WsStream.Ev := [.next, .loop 0, .deliver (exWire.take 9), .loop 0, .loop 0, .loop 0, .loop 0, .loop 0, .next, .loop 0, .deliver (exWire.drop 9), .loop 0, .loop 0, .next,
  .loop 0, .loop 0, .loop 0, .loop 0, .loop 0, .next, .loop 0, .loop 0, .loop 0, .loop 0, .loop 0, .next, .loop 0]
def exBack : List Out1 := [outOf .binary false [10, 11, 12, 20, 21, 40, 41, 42, 43, 50] [], outOf .pong true [7] [], outOf .continuation true [30] []]
def exBackWire : List UInt8 := [2, 10, 10, 11, 12, 20, 21, 40, 41, 42, 43, 50, 138, 1, 7, 128, 1, 30]
def exClient : WsStream.Env := ⟨.little, 4096, false, false, ⟨0, 0⟩, fun _ => true, fun _ => false⟩
def exClientRun : List WsStream.Ev := [.next, .loop 0, .deliver (exBackWire.take 5), .loop 0, .loop 0, .loop 0, .loop 0, .next, .loop 0, .deliver (exBackWire.drop 5), .loop 0, .loop 0, .next, .loop 0, .loop 0, .loop 0, .loop 0, .loop 0, .loop 0, .loop 0, .next, .loop 0]
set_option maxRecDepth 100000 in
example : wire .little false (Random.srandom 1 2) WsRoundTrip.exCalls = some exWire ∧ (WsStream.deliveries exServerRun).flatten = exWire := by decide +kernel
set_option maxRecDepth 200000 in
set_option synthInstance.maxSize 1000 in
example : (WsStream.run exServer (BufferedRead.init (List.replicate 125 0)) exServerRun).bind (fun w => (serve (List.replicate readBufferSize 0xaa) (WsStream.shown exServer w)).map (fun r => (w.waiting, r.2))) =
    some (true, [.read, .first 10 [10, 11, 12, 20, 21, 40, 41, 42, 43, 50] false true, .first 1 [30] true true]) := by decide +kernel
example : Sends false (writeCalls [.read, .first 10 [10, 11, 12, 20, 21, 40, 41, 42, 43, 50] false true, .first 1 [30] true true]) exBack :=
  Sends.frame 10 false true _ [] _ rfl rfl (by decide +kernel) rfl (Sends.pong _ rfl rfl (by decide +kernel) (Sends.frame 1 true true _ [] _ rfl rfl (by decide +kernel) rfl (.nil _)))
example : wire .little true (Random.srandom 1 2) exBack = some exBackWire ∧ (WsStream.deliveries exClientRun).flatten = exBackWire := by decide +kernel
set_option maxRecDepth 100000 in
example : (WsStream.run exClient (BufferedRead.init (List.replicate 125 0)) exClientRun).map (fun w => (w.waiting, seen (WsStream.shown exClient w))) =
    some (true, [.byte 10 10 false true, .byte 11 10 false true, .byte 12 10 false true, .byte 20 10 false true, .byte 21 10 false true, .byte 40 10 false true, .byte 41 10 false true,
      .byte 42 10 false true, .byte 43 10 false true, .byte 50 10 false true, .frameEnd 10 false true, .other (.control 10 [7]), .byte 30 1 true true, .frameEnd 1 true true]) := by decide +kernel

end Cio.Autobahn
