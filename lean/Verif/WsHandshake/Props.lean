import Verif.WsHandshake.Model
import Verif.WsHandshake.Spec
import Verif.HttpResponse.Props
import Verif.Sha1.Props
import Verif.Base64.Props
/-
Property theorems for the WebSocket opening handshake (C27, C28, C29).
-/
namespace Cio.WsHandshake
open HttpResponse (Bytes str Elem strElem)
open Rfc6455 hiding Bytes

/-! ### Words of a list -/

theorem delimiter_none (s : Bytes) (h : findDelimiter s = none) : splitCommas s = [s] ∧ 44 ∉ s := by
  induction s with
  | nil => simp [splitCommas]
  | cons b s ih =>
    rw [findDelimiter] at h
    by_cases hb : b = 44
    · simp [hb] at h
    · simp only [if_neg hb, Option.map_eq_none_iff] at h
      obtain ⟨h1, h2⟩ := ih h
      refine ⟨by rw [splitCommas, if_neg hb, h1], ?_⟩
      simp only [List.mem_cons, not_or]; exact ⟨fun e => hb e.symm, h2⟩

theorem delimiter_some (s : Bytes) (n : Nat) (h : findDelimiter s = some n) :
    splitCommas s = s.take n :: splitCommas (s.drop (n + 1)) ∧ 44 ∉ s.take n ∧ n < s.length := by
  induction s generalizing n with
  | nil => simp [findDelimiter] at h
  | cons b s ih =>
    rw [findDelimiter] at h
    by_cases hb : b = 44
    · simp [hb] at h; subst h
      simp [splitCommas, hb]
    · simp only [if_neg hb, Option.map_eq_some_iff] at h
      obtain ⟨k, h1, rfl⟩ := h
      obtain ⟨g1, g2, g3⟩ := ih k h1
      refine ⟨by rw [splitCommas, if_neg hb, g1]; simp, ?_, by simpa using g3⟩
      simp only [List.take_succ_cons, List.mem_cons, not_or]; exact ⟨fun e => hb e.symm, g2⟩

theorem ws_ows : isWhiteSpace = ows := by
  funext b; rw [isWhiteSpace, ows]
  rw [Bool.eq_iff_iff]; simp

theorem leading (s : Bytes) : stripLeading s = if s.dropWhile ows = [] then none else some (s.dropWhile ows) := by
  induction s with
  | nil => rfl
  | cons b s ih =>
    rw [stripLeading, ws_ows, ih]
    cases h : ows b <;> simp [h]

theorem trailing (s : Bytes) (n : Nat) (hn : n ≤ s.length) :
    (stripTrailing s n = none ∧ (s.take n).reverse.dropWhile ows = []) ∨
    ∃ k, stripTrailing s n = some k ∧ s.take k = ((s.take n).reverse.dropWhile ows).reverse ∧ (s.take n).reverse.dropWhile ows ≠ [] := by
  induction n with
  | zero => left; simp [stripTrailing]
  | succ n ih =>
    have hlt : n < s.length := by omega
    have e : (s.take (n + 1)).reverse = s[n] :: (s.take n).reverse := by
      rw [List.take_succ_eq_append_getElem hlt]; simp
    rw [stripTrailing, List.getElem?_eq_getElem hlt, e]
    simp only [ws_ows]
    cases h : ows s[n]
    · right
      refine ⟨n + 1, by simp, ?_, ?_⟩
      · rw [List.dropWhile_cons]; simp only [h]
        rw [← e]; simp
      · rw [List.dropWhile_cons]; simp [h]
    · simp only [if_true, List.dropWhile_cons, h]
      exact ih (by omega)

theorem dropWhile_nil {p : UInt8 → Bool} {l : Bytes} (h : l.dropWhile p = []) : ∀ b ∈ l, p b = true := by
  induction l with
  | nil => simp
  | cons a l ih =>
    rw [List.dropWhile_cons] at h
    cases hp : p a with
    | false => simp [hp] at h
    | true => simp only [hp, if_true] at h; simp only [List.forall_mem_cons, hp, true_and]; exact ih h

theorem handleWord_eq (h : Handler) (w : Bytes) : handleWord h w =
    if trim w = [] then some (h, .error) else if hasIllegal (trim w) then some (h, .error)
    else match findRequested h (trim w) with
      | (h, true) => some (h, .found)
      | (h, false) => some (h, .notFound) := by
  rw [handleWord, leading]
  by_cases hd : w.dropWhile ows = []
  · simp [hd, trim]
  · have htake : (w.dropWhile ows).take (w.dropWhile ows).length = w.dropWhile ows := List.take_length
    have hne : (w.dropWhile ows).reverse.dropWhile ows ≠ [] := by
      intro he
      have hall := dropWhile_nil he
      have hh := List.head_dropWhile_not ows hd
      have := hall _ (List.mem_reverse.mpr (List.head_mem hd))
      rw [hh] at this; cases this
    rcases trailing (w.dropWhile ows) (w.dropWhile ows).length (Nat.le_refl _) with ⟨_, h2⟩ | ⟨k, h1, h2, _⟩
    · rw [htake] at h2; exact absurd h2 hne
    · rw [htake] at h2
      have ht : trim w ≠ [] := by simpa [trim] using hne
      have hk : (w.dropWhile ows).take k = trim w := h2
      simp only [if_neg hd, h1, hk, if_neg ht]
      rfl

/-! ### Tokens -/

theorem tchar_visible : ∀ b : UInt8, b ≠ 44 → ((isVisible b && !isDelimiter b) = tchar b) := by
  have : ∀ n : Fin 256, UInt8.ofNat n.val ≠ 44 → ((isVisible (UInt8.ofNat n.val) && !isDelimiter (UInt8.ofNat n.val)) = tchar (UInt8.ofNat n.val)) := by
    decide +kernel
  intro b
  have h := this ⟨b.toNat, b.toNat_lt⟩
  simpa using h

theorem illegal_iff (w : Bytes) (h : 44 ∉ w) : hasIllegal w = false ↔ ∀ b ∈ w, tchar b = true := by
  induction w with
  | nil => simp [hasIllegal]
  | cons b w ih =>
    have hb : b ≠ 44 := fun e => h (by simp [e])
    have hw : 44 ∉ w := fun e => h (by simp [e])
    have ht := tchar_visible b hb
    rw [hasIllegal]
    simp only [List.forall_mem_cons, ← ih hw]
    cases h1 : isVisible b <;> cases h2 : isDelimiter b <;> simp [h1, h2, ← ht]

theorem mem_trim {b : UInt8} {w : Bytes} (h : b ∈ trim w) : b ∈ w := by
  rw [trim, List.mem_reverse] at h
  have h1 := (List.dropWhile_sublist ows).subset h
  rw [List.mem_reverse] at h1
  exact (List.dropWhile_sublist ows).subset h1

theorem findFrom_eq (name : Bytes) (i : Nat) (ss : List Bytes) :
    findFrom name i ss = if name ∈ ss then some (i + ss.idxOf name) else none := by
  induction ss generalizing i with
  | nil => simp [findFrom]
  | cons s ss ih =>
    rw [findFrom]
    by_cases hs : s = name
    · subst hs; simp
    · have h1 : ¬(s.length = name.length ∧ s = name) := fun h => hs h.2
      have h2 : name ∈ s :: ss ↔ name ∈ ss := by simp only [List.mem_cons]; exact ⟨fun h => h.elim (fun e => absurd e.symm hs) id, Or.inr⟩
      rw [if_neg h1, ih]
      simp only [h2]
      split
      · have hs' : (s == name) = false := by simpa using hs
        rw [List.idxOf_cons, hs', cond_false]; congr 1; omega
      · rfl

/-- **C28**: the list a client sends is searched as specified; the subprotocol chosen is the first one both sides know, and the request is refused
if there is none (or an entry before it is malformed). -/
theorem protocol_search (names : List Bytes) (h : Handler) (hs : h.subprotocols = some names) (s : Bytes) (fuel : Nat) (hf : s.length < fuel) :
    checkLoop fuel h s = match choose names (entries s) with
      | some i => some ({ h with chosen := some i }, .success)
      | none => some (h, .error) := by
  induction fuel generalizing s with
  | zero => omega
  | succ fuel ih =>
    have word : ∀ w, 44 ∉ w → handleWord h w =
        if IsToken (trim w) then (if trim w ∈ names then some ({ h with chosen := some (names.idxOf (trim w)) }, .found) else some (h, .notFound))
        else some (h, .error) := by
      intro w hw
      have hi := illegal_iff (trim w) (fun e => hw (mem_trim e))
      rw [handleWord_eq]
      by_cases h0 : trim w = []
      · simp [h0, IsToken]
      · rw [if_neg h0]
        by_cases hall : ∀ b ∈ trim w, tchar b = true
        · have hl := hi.mpr hall
          rw [if_neg (by simp [hl]), if_pos ⟨h0, hall⟩, findRequested, findFrom_eq, hs]
          simp only [Option.getD_some, Nat.zero_add]
          by_cases hm : trim w ∈ names <;> simp [hm]
        · have hl : hasIllegal (trim w) = true := by
            cases hx : hasIllegal (trim w) with
            | false => exact absurd (hi.mp hx) hall
            | true => rfl
          rw [if_pos hl, if_neg (fun ht => hall ht.2)]
    rw [checkLoop]
    cases hd : findDelimiter s with
    | none =>
      obtain ⟨g1, g2⟩ := delimiter_none s hd
      simp only [Option.getD_none, List.take_length, word s g2, entries, g1, List.map_cons, List.map_nil, choose, Option.isSome_none]
      by_cases ht : IsToken (trim s)
      · by_cases hm : trim s ∈ names <;> simp [ht, hm]
      · simp [ht]
    | some n =>
      obtain ⟨g1, g2, g3⟩ := delimiter_some s n hd
      have := ih (s.drop (n + 1)) (by simp; omega)
      simp only [Option.getD_some, word _ g2, entries, g1, List.map_cons, choose, Option.isSome_some, if_true]
      by_cases ht : IsToken (trim (s.take n))
      · by_cases hm : trim (s.take n) ∈ names
        · simp [ht, hm]
        · simp only [ht, hm, if_true, if_false]; rw [this]; rfl
      · simp [ht]

/-- What the choice means: the chosen name is the first entry of the client's list the server supports; the entries before it are tokens the server
does not support. -/
theorem choose_spec (names ts : List Bytes) (i : Nat) :
    choose names ts = some i ↔ ∃ before t after, ts = before ++ t :: after ∧ IsToken t ∧ names[i]? = some t ∧ (∀ j, j < i → names[j]? ≠ some t) ∧
      ∀ u ∈ before, IsToken u ∧ u ∉ names := by
  induction ts with
  | nil => simp [choose]
  | cons t ts ih =>
    rw [choose]
    by_cases ht : IsToken t
    · rw [if_pos ht]
      by_cases hm : t ∈ names
      · rw [if_pos hm, Option.some.injEq]
        have hlt := List.idxOf_lt_length_of_mem hm
        have hget : names[names.idxOf t]? = some t := by rw [List.getElem?_eq_getElem hlt, List.getElem_idxOf]
        have hmin : ∀ j, j < names.idxOf t → names[j]? ≠ some t := by
          intro j hj he
          obtain ⟨hjl, he⟩ := List.getElem?_eq_some_iff.mp he
          have := List.not_of_lt_findIdx (p := (· == t)) (xs := names) (i := j) hj
          simp [he] at this
        constructor
        · rintro rfl
          exact ⟨[], t, ts, rfl, ht, hget, hmin, by simp⟩
        · rintro ⟨bs, u, as, h1, h2, h3, h4, h5⟩
          cases bs with
          | nil =>
            simp only [List.nil_append, List.cons.injEq] at h1
            obtain ⟨rfl, rfl⟩ := h1
            rcases Nat.lt_trichotomy (names.idxOf t) i with h | h | h
            · exact absurd hget (h4 _ h)
            · exact h
            · exact absurd h3 (hmin _ h)
          | cons b bs =>
            simp only [List.cons_append, List.cons.injEq] at h1
            obtain ⟨rfl, _⟩ := h1
            exact absurd hm (h5 t (by simp)).2
      · rw [if_neg hm, ih]
        constructor
        · rintro ⟨bs, u, as, rfl, h2, h3, h4, h5⟩
          refine ⟨t :: bs, u, as, rfl, h2, h3, h4, ?_⟩
          simp only [List.forall_mem_cons]; exact ⟨⟨ht, hm⟩, h5⟩
        · rintro ⟨bs, u, as, h1, h2, h3, h4, h5⟩
          cases bs with
          | nil =>
            simp only [List.nil_append, List.cons.injEq] at h1
            obtain ⟨rfl, rfl⟩ := h1
            exact absurd (List.mem_of_getElem? h3) hm
          | cons b bs =>
            simp only [List.cons_append, List.cons.injEq] at h1
            obtain ⟨rfl, rfl⟩ := h1
            exact ⟨bs, u, as, rfl, h2, h3, h4, fun v hv => h5 v (by simp [hv])⟩
    · rw [if_neg ht]
      constructor
      · intro h; cases h
      · rintro ⟨bs, u, as, h1, h2, h3, h4, h5⟩
        cases bs with
        | nil =>
          simp only [List.nil_append, List.cons.injEq] at h1
          obtain ⟨rfl, rfl⟩ := h1
          exact absurd h2 ht
        | cons b bs =>
          simp only [List.cons_append, List.cons.injEq] at h1
          obtain ⟨rfl, _⟩ := h1
          exact absurd (h5 t (by simp)).1 ht

/-- **C28**, in terms of the header value and the server's names alone: when all entries of the client's list are tokens, one is chosen exactly if
there is a common one, and it is common to both. -/
theorem common_protocol (names : List Bytes) (v : Bytes) (hv : ∀ t ∈ entries v, IsToken t) :
    ((choose names (entries v)).isSome ↔ ∃ t ∈ entries v, t ∈ names) ∧
    ∀ i, choose names (entries v) = some i → ∃ t ∈ entries v, names[i]? = some t := by
  constructor
  · generalize entries v = ts at hv
    induction ts with
    | nil => simp [choose]
    | cons t ts ih =>
      have ht := hv t (by simp)
      have := ih (fun u hu => hv u (by simp [hu]))
      rw [choose, if_pos ht]
      by_cases hm : t ∈ names
      · simp only [if_pos hm, Option.isSome_some, true_iff]; exact ⟨t, by simp, hm⟩
      · rw [if_neg hm, this]
        constructor
        · rintro ⟨u, h1, h2⟩; exact ⟨u, by simp [h1], h2⟩
        · rintro ⟨u, h1, h2⟩
          rcases List.mem_cons.mp h1 with rfl | h1
          · exact absurd h2 hm
          · exact ⟨u, h1, h2⟩
  · intro i hi
    obtain ⟨bs, t, as, h1, _, h3, _⟩ := (choose_spec names _ i).mp hi
    exact ⟨t, by rw [h1]; simp, h3⟩

example : choose [str "chat", str "mqtt"] (entries (str " soap ,\tmqtt,chat")) = some 1 := by decide +kernel
example : checkProtocol (init (some [str "chat", str "mqtt"]) []) (str " soap ,\tmqtt,chat") =
    some ({ init (some [str "chat", str "mqtt"]) [] with chosen := some 1 }, .success) := by
  rw [checkProtocol, if_neg (by decide), protocol_search _ _ rfl _ _ (by decide)]
  have : choose [str "chat", str "mqtt"] (entries (str " soap ,\tmqtt,chat")) = some 1 := by decide +kernel
  rw [this]

/-! ### The header fields -/

theorem sameName_iff (a b : Bytes) : sameName a b = decide (SameName a b) := by
  have hl : lower = lowerByte := rfl
  rw [sameName, hl, Bool.eq_iff_iff]
  simp only [Bool.and_eq_true, beq_iff_eq, decide_eq_true_eq]
  show (_ ∧ _) ↔ a.map lowerByte = b.map lowerByte
  constructor
  · exact fun h => h.2
  · intro h
    have := congrArg List.length h
    simp at this
    exact ⟨this.symm, h⟩

/-- What a value of the protocol field makes of the choice. -/
def choiceOf (supported : Option (List Bytes)) (old : Option Nat) (v : Bytes) : Option Nat :=
  match supported with
  | none => old
  | some names => choose names (entries v)

/-- No field makes the callbacks report an error. -/
def NoError (supported : Option (List Bytes)) (fields : List (Bytes × Bytes)) : Prop :=
  (∀ v ∈ valuesOf (ascii "Sec-WebSocket-Key") fields, v.length = 24) ∧
  (∀ v ∈ valuesOf (ascii "Sec-WebSocket-Version") fields, v = ascii "13") ∧
  (∀ v ∈ valuesOf (ascii "Sec-WebSocket-Protocol") fields, ∀ names, supported = some names → (choose names (entries v)).isSome)

theorem valuesOf_cons (name n v : Bytes) (fs : List (Bytes × Bytes)) :
    valuesOf name ((n, v) :: fs) = if SameName n name then v :: valuesOf name fs else valuesOf name fs := by
  rw [valuesOf, List.filter_cons]
  by_cases h : SameName n name <;> simp [h, valuesOf]

/-- The names are different. -/
theorem names_differ (n : Bytes) :
    (SameName n (ascii "Sec-WebSocket-Key") → ¬SameName n (ascii "Sec-WebSocket-Version") ∧ ¬SameName n (ascii "Sec-WebSocket-Protocol")) ∧
    (SameName n (ascii "Sec-WebSocket-Version") → ¬SameName n (ascii "Sec-WebSocket-Protocol")) := by
  have key : ∀ a b : Bytes, a.length ≠ b.length → SameName n a → ¬SameName n b := by
    intro a b h h1 h2
    have e1 := congrArg List.length h1
    have e2 := congrArg List.length h2
    simp at e1 e2; omega
  exact ⟨fun h => ⟨key _ _ (by decide) h, key _ _ (by decide) h⟩, key _ _ (by decide)⟩

theorem fieldsLoop_eq (fs : List (Bytes × Bytes)) (h : Handler) (hc : h.current = .unknown) :
    (NoError h.subprotocols fs → fieldsLoop h fs = some ({ h with
        requested := h.requested || !(valuesOf (ascii "Sec-WebSocket-Protocol") fs).isEmpty
        versionOk := h.versionOk || !(valuesOf (ascii "Sec-WebSocket-Version") fs).isEmpty
        chosen := (valuesOf (ascii "Sec-WebSocket-Protocol") fs).foldl (choiceOf h.subprotocols) h.chosen
        key := (valuesOf (ascii "Sec-WebSocket-Key") fs).foldl (fun _ v => v ++ WS_GUID) h.key }, .success)) ∧
    (¬NoError h.subprotocols fs → ∃ h', fieldsLoop h fs = some (h', .error)) := by
  induction fs generalizing h with
  | nil =>
    refine ⟨fun _ => ?_, fun hn => absurd ⟨by simp [valuesOf], by simp [valuesOf], by simp [valuesOf]⟩ hn⟩
    simp [fieldsLoop, valuesOf]
  | cons f fs ih =>
    obtain ⟨n, v⟩ := f
    have hd := names_differ n
    have unk : ∀ g : Handler, g.current = .unknown → { g with current := Field.unknown } = g := by
      intro g hg; cases g; simp at hg; subst hg; rfl
    by_cases hk : SameName n (ascii "Sec-WebSocket-Key")
    · have hd := hd.1 hk
      have hfn : fieldName h n = { h with current := .key } := by
        rw [fieldName, if_pos]; rw [sameName_iff]; exact decide_eq_true hk
      have hv1 : valuesOf (ascii "Sec-WebSocket-Key") ((n, v) :: fs) = v :: valuesOf (ascii "Sec-WebSocket-Key") fs := by rw [valuesOf_cons, if_pos hk]
      have hv2 : valuesOf (ascii "Sec-WebSocket-Version") ((n, v) :: fs) = valuesOf (ascii "Sec-WebSocket-Version") fs := by rw [valuesOf_cons, if_neg hd.1]
      have hv3 : valuesOf (ascii "Sec-WebSocket-Protocol") ((n, v) :: fs) = valuesOf (ascii "Sec-WebSocket-Protocol") fs := by rw [valuesOf_cons, if_neg hd.2]
      by_cases hl : v.length = 24
      · have hstep : fieldsLoop h ((n, v) :: fs) = fieldsLoop { h with key := v ++ WS_GUID } fs := by
          rw [fieldsLoop, hfn]
          simp only [fieldValue, saveKey, hl, if_true, Option.map_some]
          congr 1
          rw [← hc]
        have hne : NoError h.subprotocols ((n, v) :: fs) ↔ NoError h.subprotocols fs := by
          rw [NoError, NoError, hv1, hv2, hv3]; simp [hl]
        rw [hstep, hne, hv1, hv2, hv3]
        exact ih { h with key := v ++ WS_GUID } hc
      · have hstep : fieldsLoop h ((n, v) :: fs) = some (h, .error) := by
          rw [fieldsLoop, hfn]
          simp only [fieldValue, saveKey, hl, if_false, Option.map_some]
          congr 2
          exact unk h hc
        have hne : ¬NoError h.subprotocols ((n, v) :: fs) := by
          rw [NoError, hv1]; intro h'; exact hl (h'.1 v (by simp))
        exact ⟨fun h' => absurd h' hne, fun _ => ⟨h, hstep⟩⟩
    · by_cases hver : SameName n (ascii "Sec-WebSocket-Version")
      · have hd := hd.2 hver
        have hfn : fieldName h n = { h with current := .version } := by
          rw [fieldName, if_neg, if_pos]
          · rw [sameName_iff]; exact decide_eq_true hver
          · rw [sameName_iff]; exact fun e => hk (of_decide_eq_true e)
        have hv1 : valuesOf (ascii "Sec-WebSocket-Key") ((n, v) :: fs) = valuesOf (ascii "Sec-WebSocket-Key") fs := by rw [valuesOf_cons, if_neg hk]
        have hv2 : valuesOf (ascii "Sec-WebSocket-Version") ((n, v) :: fs) = v :: valuesOf (ascii "Sec-WebSocket-Version") fs := by
          rw [valuesOf_cons, if_pos hver]
        have hv3 : valuesOf (ascii "Sec-WebSocket-Protocol") ((n, v) :: fs) = valuesOf (ascii "Sec-WebSocket-Protocol") fs := by rw [valuesOf_cons, if_neg hd]
        by_cases hl : v = ascii "13"
        · have hl2 : v.length = 2 ∧ v = str "13" := ⟨by rw [hl]; decide, hl⟩
          have hstep : fieldsLoop h ((n, v) :: fs) = fieldsLoop { h with versionOk := true } fs := by
            rw [fieldsLoop, hfn]
            simp only [fieldValue, checkVersion, if_pos hl2, Option.map_some]
            congr 1
            rw [← hc]
          have hne : NoError h.subprotocols ((n, v) :: fs) ↔ NoError h.subprotocols fs := by
            rw [NoError, NoError, hv1, hv2, hv3]; simp [hl]
          rw [hstep, hne, hv1, hv2, hv3]
          have := ih { h with versionOk := true } hc
          simp only [Bool.true_or, List.isEmpty_cons, Bool.not_false, Bool.or_true] at this ⊢
          exact this
        · have hl2 : ¬(v.length = 2 ∧ v = str "13") := fun h' => hl h'.2
          have hstep : fieldsLoop h ((n, v) :: fs) = some (h, .error) := by
            rw [fieldsLoop, hfn]
            simp only [fieldValue, checkVersion, if_neg hl2, Option.map_some]
            congr 2
            exact unk h hc
          have hne : ¬NoError h.subprotocols ((n, v) :: fs) := by
            rw [NoError, hv2]; intro h'; exact hl (h'.2.1 v (by simp))
          exact ⟨fun h' => absurd h' hne, fun _ => ⟨h, hstep⟩⟩
      · by_cases hp : SameName n (ascii "Sec-WebSocket-Protocol")
        · have hfn : fieldName h n = { h with current := .protocol } := by
            rw [fieldName, if_neg, if_neg, if_pos]
            · rw [sameName_iff]; exact decide_eq_true hp
            · rw [sameName_iff]; exact fun e => hver (of_decide_eq_true e)
            · rw [sameName_iff]; exact fun e => hk (of_decide_eq_true e)
          have hv1 : valuesOf (ascii "Sec-WebSocket-Key") ((n, v) :: fs) = valuesOf (ascii "Sec-WebSocket-Key") fs := by rw [valuesOf_cons, if_neg hk]
          have hv2 : valuesOf (ascii "Sec-WebSocket-Version") ((n, v) :: fs) = valuesOf (ascii "Sec-WebSocket-Version") fs := by
            rw [valuesOf_cons, if_neg hver]
          have hv3 : valuesOf (ascii "Sec-WebSocket-Protocol") ((n, v) :: fs) = v :: valuesOf (ascii "Sec-WebSocket-Protocol") fs := by
            rw [valuesOf_cons, if_pos hp]
          cases hs : h.subprotocols with
          | none =>
            have hstep : fieldsLoop h ((n, v) :: fs) = fieldsLoop { h with requested := true } fs := by
              rw [fieldsLoop, hfn]
              simp only [fieldValue, checkProtocol, hs, if_true, Option.map_some]
              congr 1
              rw [← hc]
            have hne : NoError none ((n, v) :: fs) ↔ NoError none fs := by
              rw [NoError, NoError, hv1, hv2, hv3]; simp
            rw [hstep, hne, hv1, hv2, hv3]
            have := ih { h with requested := true } hc
            simp only [hs, Bool.true_or, List.isEmpty_cons, Bool.not_false, Bool.or_true, List.foldl_cons, choiceOf] at this ⊢
            exact this
          | some names =>
            have hcp : checkProtocol { h with current := .protocol, requested := true } v =
                checkLoop (v.length + 1) { h with current := .protocol, requested := true } v := by
              rw [checkProtocol, if_neg (by rw [hs]; simp)]
            have hsearch := protocol_search names { h with current := .protocol, requested := true } hs v (v.length + 1) (Nat.lt_succ_self _)
            cases hch : choose names (entries v) with
            | some i =>
              have hstep : fieldsLoop h ((n, v) :: fs) = fieldsLoop { h with requested := true, chosen := some i } fs := by
                rw [fieldsLoop, hfn]
                rw [hch] at hsearch
                simp only [fieldValue, hcp, hsearch, Option.map_some]
                congr 1
                rw [← hc]
              have hne : NoError (some names) ((n, v) :: fs) ↔ NoError (some names) fs := by
                rw [NoError, NoError, hv1, hv2, hv3]; simp [hch]
              rw [hstep, hne, hv1, hv2, hv3]
              have := ih { h with requested := true, chosen := some i } hc
              simp only [hs, Bool.true_or, List.isEmpty_cons, Bool.not_false, Bool.or_true, List.foldl_cons, choiceOf, hch] at this ⊢
              exact this
            | none =>
              have hstep : fieldsLoop h ((n, v) :: fs) = some ({ h with requested := true }, .error) := by
                rw [fieldsLoop, hfn]
                rw [hch] at hsearch
                simp only [fieldValue, hcp, hsearch, Option.map_some]
                congr 2
                exact unk { h with requested := true } hc
              have hne : ¬NoError (some names) ((n, v) :: fs) := by
                rw [NoError, hv3]; intro h'
                have := h'.2.2 v (by simp) names rfl
                rw [hch] at this; cases this
              exact ⟨fun h' => absurd h' hne, fun _ => ⟨_, hstep⟩⟩
        · have hfn : fieldName h n = h := by
            rw [fieldName, if_neg, if_neg, if_neg]
            · rw [sameName_iff]; exact fun e => hp (of_decide_eq_true e)
            · rw [sameName_iff]; exact fun e => hver (of_decide_eq_true e)
            · rw [sameName_iff]; exact fun e => hk (of_decide_eq_true e)
          have hv1 : valuesOf (ascii "Sec-WebSocket-Key") ((n, v) :: fs) = valuesOf (ascii "Sec-WebSocket-Key") fs := by rw [valuesOf_cons, if_neg hk]
          have hv2 : valuesOf (ascii "Sec-WebSocket-Version") ((n, v) :: fs) = valuesOf (ascii "Sec-WebSocket-Version") fs := by
            rw [valuesOf_cons, if_neg hver]
          have hv3 : valuesOf (ascii "Sec-WebSocket-Protocol") ((n, v) :: fs) = valuesOf (ascii "Sec-WebSocket-Protocol") fs := by
            rw [valuesOf_cons, if_neg hp]
          have hstep : fieldsLoop h ((n, v) :: fs) = fieldsLoop h fs := by
            rw [fieldsLoop, hfn]
            simp only [fieldValue, hc, Option.map_some]
            congr 1
            exact unk h hc
          have hne : NoError h.subprotocols ((n, v) :: fs) ↔ NoError h.subprotocols fs := by
            rw [NoError, NoError, hv1, hv2, hv3]
          rw [hstep, hne, hv1, hv2, hv3]
          exact ih h hc

/-! ### The accept value -/

theorem encode_alphabet (bs : List UInt8) (t : List Char) (h : Base64.encode bs = some t) : ∀ c ∈ t, c ∈ Base64.ENCODE_TABLE ∨ c = '=' := by
  have hat : ∀ i c, Base64.tableAt i = some c → c ∈ Base64.ENCODE_TABLE := fun i c h => List.mem_of_getElem? h
  have hg : ∀ a b c n g, Base64.group a b c n = some g → ∀ x ∈ g, x ∈ Base64.ENCODE_TABLE ∨ x = '=' := by
    intro a b c n g h x hx
    simp only [Base64.group, bind, Option.bind_eq_some_iff] at h
    obtain ⟨c0, h0, c1, h1, h⟩ := h
    have fin : ∀ c2, (c2 ∈ Base64.ENCODE_TABLE ∨ c2 = '=') →
        (if n > 2 then (Base64.tableAt (c &&& 63)).bind fun c3 => pure [c0, c1, c2, c3] else (some '=').bind fun c3 => pure [c0, c1, c2, c3]) = some g →
        x ∈ Base64.ENCODE_TABLE ∨ x = '=' := by
      intro c2 h2 h
      have key : ∀ c3, (c3 ∈ Base64.ENCODE_TABLE ∨ c3 = '=') → (pure [c0, c1, c2, c3] : Option (List Char)) = some g →
          x ∈ Base64.ENCODE_TABLE ∨ x = '=' := by
        intro c3 h3 h
        cases h
        simp only [List.mem_cons, List.not_mem_nil, or_false] at hx
        rcases hx with rfl | rfl | rfl | rfl
        · exact .inl (hat _ _ h0)
        · exact .inl (hat _ _ h1)
        · exact h2
        · exact h3
      split at h
      · obtain ⟨c3, h3, h⟩ := Option.bind_eq_some_iff.mp h
        exact key c3 (.inl (hat _ _ h3)) h
      · exact key '=' (.inr rfl) h
    split at h
    · obtain ⟨c2, h2, h⟩ := Option.bind_eq_some_iff.mp h
      exact fin c2 (.inl (hat _ _ h2)) h
    · exact fin '=' (.inr rfl) h
  fun_induction Base64.encode bs generalizing t with
  | case1 => cases h; simp
  | case2 => exact hg _ _ _ _ _ h
  | case3 => exact hg _ _ _ _ _ h
  | case4 a b c rest ih =>
    simp only [bind, Option.bind_eq_some_iff] at h
    obtain ⟨g, h1, r, h2, h3⟩ := h
    cases h3
    intro x hx
    rcases List.mem_append.mp hx with hx | hx
    · exact hg _ _ _ _ _ h1 x hx
    · exact ih r h2 x hx

theorem alphabet_bytes : ∀ c ∈ Base64.ENCODE_TABLE ++ ['='], byte c ≠ 13 ∧ byte c ≠ 32 ∧ c.toNat < 128 := by decide +kernel

theorem sha1_length (m : List UInt8) : (Sha1.Fips.sha1 m).length = 20 := by
  have hstep : ∀ b t v, v.length = 5 → (Sha1.Fips.step b t v).length = 5 := by
    intro b t v h
    match v, h with
    | [_, _, _, _, _], _ => rfl
  have hfold : ∀ b (l : List Nat) v, v.length = 5 → (l.foldl (fun v t => Sha1.Fips.step b t v) v).length = 5 := by
    intro b l
    induction l with
    | nil => exact fun v h => h
    | cons t l ih => exact fun v h => ih _ (hstep b t v h)
  have hblocks : ∀ n h m, h.length = 5 → (Sha1.Fips.blocks n h m).length = 5 := by
    intro n
    induction n with
    | zero => exact fun h m e => e
    | succ n ih =>
      intro h m e
      refine ih _ _ ?_
      rw [Sha1.Fips.compress, List.length_zipWith, e, hfold _ _ _ e]; rfl
  have hbytes : ∀ n v, (Sha1.Fips.bytes n v).length = n := by
    intro n
    induction n with
    | zero => exact fun _ => rfl
    | succ n ih => intro v; simp [Sha1.Fips.bytes, ih]
  rw [Sha1.Fips.sha1]
  have h5 := hblocks ((Sha1.Fips.pad m).length / 64) Sha1.Fips.H0 (Sha1.Fips.pad m) rfl
  match Sha1.Fips.blocks ((Sha1.Fips.pad m).length / 64) Sha1.Fips.H0 (Sha1.Fips.pad m), h5 with
  | [_, _, _, _, _], _ => simp [hbytes]

/-- **C29**: the accept value computed from a key of 24 characters is the base64 text of SHA-1 of the key followed by the GUID of RFC 6455: 28
characters (and the line break the array also holds). -/
theorem accept_value (ctx : Sha1.Ctx) (hctx : ctx.block.length = 64) (key : Bytes) (hk : key.length = 24) :
    ∃ t : List Char, acceptValue ctx (key ++ WS_GUID) = some (t.map byte ++ [13, 10]) ∧ t.length = 28 ∧
      Base64.decode t = some (Sha1.Fips.sha1 (key ++ GUID)) ∧ ∀ c ∈ t, byte c ≠ 13 ∧ byte c ≠ 32 ∧ c.toNat < 128 := by
  have hg : WS_GUID = GUID := rfl
  have hgl : GUID.length = 36 := by decide
  have htake : (key ++ WS_GUID).take 60 = key ++ GUID := by
    rw [hg]; exact List.take_of_length_le (by simp [hgl, hk])
  obtain ⟨c1, c2, h1, h2⟩ := Sha1.sha1_correct ctx hctx [key ++ GUID] (by simp [hgl, hk])
  obtain ⟨t, h3, h4⟩ := Base64.b64_encode_correct (Sha1.Fips.sha1 (key ++ GUID))
  have hin : Sha1.input (Sha1.reset ctx) (key ++ GUID) = some (Sha1.SHA_SUCCESS, c1) := by
    simp only [Sha1.inputs, bind, Option.bind_eq_some_iff] at h1
    obtain ⟨⟨r, d⟩, g1, ⟨rs, d2⟩, g2, g3⟩ := h1
    cases g2
    cases g3
    exact g1
  have hlen := Base64.b64_encode_length (Sha1.Fips.sha1 (key ++ GUID))
  rw [h3] at hlen
  have h20 : (Sha1.Fips.sha1 (key ++ GUID)).length = 20 := sha1_length _
  rw [h20] at hlen
  refine ⟨t, ?_, by simpa using hlen, (h4 t).mpr rfl, ?_⟩
  · rw [acceptValue, htake, hin]
    simp only [List.flatten_cons, List.flatten_nil, List.append_nil] at h2
    simp [h2, h3]
  · intro c hc
    refine alphabet_bytes c ?_
    rcases encode_alphabet _ t h3 c hc with h | h
    · exact List.mem_append_left _ h
    · exact List.mem_append_right _ (by simp [h])

/-- The example of RFC 6455, section 1.3. -/
example : ∀ ctx : Sha1.Ctx, ctx.block.length = 64 → ∃ t : List Char, t.length = 28 ∧
    acceptValue ctx (str "dGhlIHNhbXBsZSBub25jZQ==" ++ WS_GUID) = some (t.map byte ++ [13, 10]) := by
  intro ctx h
  obtain ⟨t, h1, h2, _⟩ := accept_value ctx h (str "dGhlIHNhbXBsZSBub25jZQ==") (by decide)
  exact ⟨t, h2, h1⟩

/-! ### The whole handshake -/

/-- The conditions of RFC 6455 on a request, as far as the parser's `upgrade` flag expresses them (see `any_upgrade_accepted`). -/
def Acceptable (supported : Option (List Bytes)) (r : Request) : Prop :=
  (r.major > 1 ∨ r.major = 1 ∧ r.minor ≥ 1) ∧ r.isGet = true ∧ r.upgrade = true ∧ FieldsOk supported r.fields

theorem foldl_const {α β : Type} (f : β → α) (d : α) (l : List β) :
    l.foldl (fun _ v => f v) d = match l.getLast? with | some v => f v | none => d := by
  induction l generalizing d with
  | nil => rfl
  | cons a l ih =>
    rw [List.foldl_cons, ih]
    cases l with
    | nil => rfl
    | cons b l => rw [List.getLast?_cons_cons]; rfl

theorem getLast?_ne_nil {α : Type} {l : List α} (h : l ≠ []) : ∃ v, l.getLast? = some v ∧ v ∈ l :=
  ⟨l.getLast h, List.getLast?_eq_some_getLast h, List.getLast_mem h⟩

/-- The index of the subprotocol chosen in the end. -/
def chosenOf (supported : Option (List Bytes)) (fields : List (Bytes × Bytes)) : Option Nat :=
  match supported with
  | none => none
  | some names => match (valuesOf (ascii "Sec-WebSocket-Protocol") fields).getLast? with
    | some v => choose names (entries v)
    | none => none

theorem chosen_protocol (supported : Option (List Bytes)) (fields : List (Bytes × Bytes)) :
    protocolOf supported fields = (chosenOf supported fields).bind ((supported.getD [])[·]?) := by
  cases supported <;> cases h : (valuesOf (ascii "Sec-WebSocket-Protocol") fields).getLast? <;> simp [protocolOf, chosenOf, h]

theorem chosenOf_some (names : List Bytes) (fields : List (Bytes × Bytes)) (v : Bytes)
    (h : (valuesOf (ascii "Sec-WebSocket-Protocol") fields).getLast? = some v) : chosenOf (some names) fields = choose names (entries v) := by
  simp [chosenOf, h]

theorem chosenOf_nil (names : List Bytes) (fields : List (Bytes × Bytes))
    (h : (valuesOf (ascii "Sec-WebSocket-Protocol") fields).getLast? = none) : chosenOf (some names) fields = none := by
  simp [chosenOf, h]

theorem loop_result (fields : List (Bytes × Bytes)) (supported : Option (List Bytes)) (garbage : Bytes) :
    (NoError supported fields → ∃ H, fieldsLoop (init supported garbage) fields = some (H, .success) ∧
      H.requested = !(valuesOf (ascii "Sec-WebSocket-Protocol") fields).isEmpty ∧
      H.versionOk = !(valuesOf (ascii "Sec-WebSocket-Version") fields).isEmpty ∧
      H.subprotocols = supported ∧ H.chosen = chosenOf supported fields ∧
      H.key = match (valuesOf (ascii "Sec-WebSocket-Key") fields).getLast? with
          | some v => v ++ WS_GUID
          | none => 0 :: garbage) ∧
    (¬NoError supported fields → ∃ h', fieldsLoop (init supported garbage) fields = some (h', .error)) := by
  have h := fieldsLoop_eq fields (init supported garbage) rfl
  refine ⟨fun hn => ⟨_, h.1 hn, rfl, rfl, rfl, ?_, ?_⟩, h.2⟩
  rotate_left
  · show (valuesOf (ascii "Sec-WebSocket-Key") fields).foldl (fun _ v => v ++ WS_GUID) (0 :: garbage) = _
    rw [foldl_const (fun v : Bytes => v ++ WS_GUID)]
    cases (valuesOf (ascii "Sec-WebSocket-Key") fields).getLast? <;> rfl
  show (valuesOf (ascii "Sec-WebSocket-Protocol") fields).foldl (choiceOf supported) none = _
  cases supported with
  | none =>
    have : ∀ l : List Bytes, l.foldl (choiceOf none) none = none := by
      intro l; induction l with
      | nil => rfl
      | cons a l ih => exact ih
    exact this _
  | some names =>
    show (valuesOf (ascii "Sec-WebSocket-Protocol") fields).foldl (fun _ v => choose names (entries v)) none = _
    rw [foldl_const (fun v : Bytes => choose names (entries v))]
    cases hg : (valuesOf (ascii "Sec-WebSocket-Protocol") fields).getLast? with
    | none => rw [chosenOf_nil _ _ hg]
    | some v => rw [chosenOf_some _ _ v hg]

/-- The header lines the handler adds for a subprotocol. -/
def protocolField : Option Bytes → List (Bytes × Bytes)
  | none => []
  | some p => [(str "Sec-Websocket-Protocol", p)]

/-- **C27**, **C28**, **C29**: a request for a WebSocket location is answered with 101 exactly if it is acceptable, and refused otherwise.  The
response is a well-formed HTTP message whose `Sec-WebSocket-Accept` is the base64 text of SHA-1 of the key followed by the GUID, and which names
the agreed subprotocol (and no other). -/
theorem handshake_exact (supported : Option (List Bytes)) (garbage : Bytes) (ctx : Sha1.Ctx) (s : HttpResponse.Server) (c : HttpResponse.Client)
    (r : Request) (keepalive : Bytes × Bytes)
    (hctx : ctx.block.length = 64) (hw : c.responseWritten = false) (hempty : c.responseWbh = []) (hver : 13 ∉ s.version)
    (hka : s.keepaliveHeader = HttpResponse.line keepalive ++ HttpResponse.CRLF) (hkp : HttpResponse.Proper keepalive) :
    (Acceptable supported r → ∃ h o chain w t, handshake supported garbage ctx s c r true SUCCESS = some (.upgraded h o) ∧
      o.sent = some chain ∧ HttpResponse.wire chain = some w ∧
      HttpResponse.Rfc7230.read w = some
        { status := 101
          fields := [(str "Server", str "cio http/" ++ s.version), (str "Upgrade", str "websocket"), (str "Sec-WebSocket-Accept", t.map byte)] ++
            protocolField (protocolOf supported r.fields) ++ [(str "Content-Length", str "0"), (str "Connection", str "Upgrade")]
          body := [] } ∧
      t.length = 28 ∧ Base64.decode t = some (Sha1.Fips.sha1 (keyOf r.fields ++ GUID)) ∧ ∀ ch ∈ t, ch.toNat < 128) ∧
    (¬Acceptable supported r → handshake supported garbage ctx s c r true SUCCESS = some .refused) := by
  have hloop := loop_result r.fields supported garbage
  by_cases hne : NoError supported r.fields
  · obtain ⟨H, hl, hHreq, hHver, hHsub, hchosen, hHkey⟩ := hloop.1 hne
    have hrun : handshake supported garbage ctx s c r true SUCCESS = headersComplete ctx s c H r true SUCCESS := by
      rw [handshake, hl]
    have hversion : checkHttpVersion r.major r.minor = true ↔ (r.major > 1 ∨ r.major = 1 ∧ r.minor ≥ 1) := by
      rw [checkHttpVersion]; split
      · simp_all
      · split <;> simp_all
    rw [hrun, headersComplete]
    by_cases h1 : r.major > 1 ∨ r.major = 1 ∧ r.minor ≥ 1
    · rw [if_neg (by rw [hversion.mpr h1]; simp)]
      cases h2 : r.isGet with
      | false => simp [Acceptable, h2]
      | true =>
        rw [if_neg (by simp)]
        cases h3 : r.upgrade with
        | false => simp [Acceptable, h3]
        | true =>
          rw [if_neg (by simp)]
          by_cases h4 : H.requested = true ∧ H.chosen = none
          · rw [if_pos h4]
            refine ⟨fun ha => ?_, fun _ => rfl⟩
            exfalso
            rw [hHreq] at h4
            have hpn : valuesOf (ascii "Sec-WebSocket-Protocol") r.fields ≠ [] := by
              intro e; rw [e] at h4; simp at h4
            obtain ⟨v, hv1, hv2⟩ := getLast?_ne_nil hpn
            obtain ⟨names, i, e1, e2⟩ := ha.2.2.2.protocol v hv2
            have := h4.2
            rw [hchosen, e1, chosenOf_some names _ v hv1, e2] at this; cases this
          · rw [if_neg h4]
            cases h5 : H.versionOk with
            | false =>
              rw [if_pos (by simp)]
              refine ⟨fun ha => ?_, fun _ => rfl⟩
              exfalso
              have := ha.2.2.2.version.1
              rw [hHver] at h5
              simp at h5; exact this h5
            | true =>
              rw [if_neg (by simp)]
              by_cases h6 : valuesOf (ascii "Sec-WebSocket-Key") r.fields = []
              · rw [if_pos (by rw [hHkey, h6]; rfl)]
                exact ⟨fun ha => absurd h6 ha.2.2.2.key.1, fun _ => rfl⟩
              · obtain ⟨key, hk1, hk2⟩ := getLast?_ne_nil h6
                have hklen := hne.1 key hk2
                have hkeyOf : keyOf r.fields = key := by rw [keyOf, List.getLastD_eq_getLast?, hk1]; rfl
                have hHk : H.key = key ++ WS_GUID := by rw [hHkey, hk1]
                have hhead : H.key.head? = (keyOf r.fields).head? := by
                  rw [hHk, hkeyOf]
                  match key, hklen with
                  | a :: key, _ => rfl
                by_cases hk0 : H.key.head? = some 0
                · rw [if_pos hk0]
                  exact ⟨fun ha => absurd (hhead ▸ hk0) ha.2.2.2.start, fun _ => rfl⟩
                rw [if_neg hk0]
                have hok : Acceptable supported r := by
                  refine ⟨h1, h2, h3, ⟨h6, hne.1⟩, (hhead ▸ hk0), ⟨?_, hne.2.1⟩, ?_⟩
                  · rw [hHver] at h5; intro e; rw [e] at h5; simp at h5
                  · intro v hv
                    cases hsup : supported with
                    | none =>
                      exfalso; apply h4
                      refine ⟨?_, ?_⟩
                      · rw [hHreq]
                        cases hp : valuesOf (ascii "Sec-WebSocket-Protocol") r.fields with
                        | nil => rw [hp] at hv; cases hv
                        | cons a l => rfl
                      · rw [hchosen, hsup]; rfl
                    | some names =>
                      have := hne.2.2 v hv names hsup
                      obtain ⟨i, hi⟩ := Option.isSome_iff_exists.mp this
                      exact ⟨names, i, rfl, hi⟩
                refine ⟨fun _ => ?_, fun hn => absurd hok hn⟩
                obtain ⟨t, ht1, ht2, ht3, ht4⟩ := accept_value ctx hctx key hklen
                -- the subprotocol
                have hproto : ∃ elems, upgradeElems H (t.map byte ++ [13, 10]) = some elems ∧
                    HttpResponse.wire elems = some ((([(str "Upgrade", str "websocket"), (str "Sec-WebSocket-Accept", t.map byte)] ++
                      protocolField (protocolOf supported r.fields)).map (fun f => HttpResponse.line f ++ HttpResponse.CRLF)).flatten) ∧
                    ∀ f ∈ protocolField (protocolOf supported r.fields), HttpResponse.Proper f := by
                  have hline1 : str "Upgrade: websocket\r\nSec-WebSocket-Accept: " ++ (t.map byte ++ [13, 10]) =
                      HttpResponse.line (str "Upgrade", str "websocket") ++ HttpResponse.CRLF ++
                        (HttpResponse.line (str "Sec-WebSocket-Accept", t.map byte) ++ HttpResponse.CRLF) := by
                    have e1 : str "Upgrade: websocket\r\nSec-WebSocket-Accept: " =
                        HttpResponse.line (str "Upgrade", str "websocket") ++ HttpResponse.CRLF ++ (str "Sec-WebSocket-Accept" ++ str ": ") := by decide
                    rw [e1]; simp [HttpResponse.line, HttpResponse.CRLF, show str "\r\n" = [13, 10] by decide]
                  have hfirst : HttpResponse.wire [strElem (str "Upgrade: websocket\r\nSec-WebSocket-Accept: "), { mem := t.map byte ++ [13, 10], len := 30 }] =
                      some (HttpResponse.line (str "Upgrade", str "websocket") ++ HttpResponse.CRLF ++
                        (HttpResponse.line (str "Sec-WebSocket-Accept", t.map byte) ++ HttpResponse.CRLF)) := by
                    rw [← hline1]
                    have e0 : ∀ a b : Elem, [a, b] = [a] ++ [b] := fun _ _ => rfl
                    rw [e0, HttpResponse.wire_append, HttpResponse.wire_str]
                    have hlen : (t.map byte ++ [13, 10]).length = 30 := by simp [ht2]
                    have : HttpResponse.wire [{ mem := t.map byte ++ [13, 10], len := 30 }] = some (t.map byte ++ [13, 10]) := by
                      rw [HttpResponse.wire, if_pos (by show 30 ≤ (t.map byte ++ [13, 10]).length; omega)]
                      simp only [HttpResponse.wire, Option.map_some, List.append_nil]
                      rw [List.take_of_length_le (by omega)]
                    rw [this]; rfl
                  rw [upgradeElems, hchosen, chosen_protocol, hHsub]
                  cases hch : chosenOf supported r.fields with
                  | none =>
                    refine ⟨_, rfl, ?_, by simp [protocolField]⟩
                    rw [hfirst]; simp [protocolField]
                  | some i =>
                    have hi : ∃ names p, supported = some names ∧ names[i]? = some p ∧ IsToken p := by
                      cases hsup : supported with
                      | none => rw [hsup] at hch; cases hch
                      | some names =>
                        rw [hsup] at hch
                        cases hg : (valuesOf (ascii "Sec-WebSocket-Protocol") r.fields).getLast? with
                        | none => rw [chosenOf_nil _ _ hg] at hch; cases hch
                        | some v =>
                          rw [chosenOf_some _ _ v hg] at hch
                          obtain ⟨_, p, _, _, g2, g3, _⟩ := (choose_spec names _ i).mp hch
                          exact ⟨names, p, rfl, g3, g2⟩
                    obtain ⟨names, p, e1, e2, e3⟩ := hi
                    rw [e1]
                    simp only [Option.getD_some, e2, Option.bind_some]
                    have hb : ∀ b ∈ p, b ≠ 13 ∧ b ≠ 32 := by
                      intro b hb
                      have := e3.2 b hb
                      constructor
                      · rintro rfl; revert this; decide
                      · rintro rfl; revert this; decide
                    refine ⟨_, rfl, ?_, ?_⟩
                    · have e0 : ∀ a b c : Elem, [a, b, c] = [a] ++ [b] ++ [c] := fun _ _ _ => rfl
                      rw [HttpResponse.wire_append, hfirst, e0, HttpResponse.wire_append, HttpResponse.wire_append, HttpResponse.wire_str,
                        HttpResponse.wire_str, HttpResponse.wire_str]
                      have e4 : str "Sec-Websocket-Protocol: " = str "Sec-Websocket-Protocol" ++ str ": " := by decide
                      simp [protocolField, e4, HttpResponse.line]
                    · intro f hf
                      simp only [protocolField, List.mem_singleton] at hf
                      subst hf
                      exact ⟨(by decide : str "Sec-Websocket-Protocol" ≠ []), (by decide : 58 ∉ str "Sec-Websocket-Protocol"),
                        (by decide : 13 ∉ str "Sec-Websocket-Protocol"), fun h => (hb _ h).1 rfl, fun h => (hb _ (List.mem_of_head? h)).2 rfl⟩
                obtain ⟨elems, hel1, hel2, hel3⟩ := hproto
                have hfold : ∀ (es : List Elem) (c : HttpResponse.Client), es.foldl HttpResponse.addResponseHeader c =
                    { c with responseWbh := c.responseWbh ++ es } := by
                  intro es
                  induction es with
                  | nil => intro c; simp
                  | cons e es ih => intro c; rw [List.foldl_cons, ih]; simp [HttpResponse.addResponseHeader]
                have huser : HttpResponse.UserHeaders { c with responseWbh := c.responseWbh ++ elems }
                    ([(str "Upgrade", str "websocket"), (str "Sec-WebSocket-Accept", t.map byte)] ++ protocolField (protocolOf supported r.fields)) := by
                  refine ⟨?_, ?_⟩
                  · show HttpResponse.wire (c.responseWbh ++ elems) = _
                    rw [hempty, List.nil_append, hel2]
                  · intro f hf
                    rcases List.mem_append.mp hf with hf | hf
                    · simp only [List.mem_cons, List.not_mem_nil, or_false] at hf
                      rcases hf with rfl | rfl
                      · decide
                      · refine ⟨(by decide : str "Sec-WebSocket-Accept" ≠ []), (by decide : 58 ∉ str "Sec-WebSocket-Accept"),
                          (by decide : 13 ∉ str "Sec-WebSocket-Accept"), ?_, ?_⟩
                        · intro h
                          obtain ⟨ch, h1, h2⟩ := List.mem_map.mp h
                          exact (ht4 ch h1).1 h2
                        · intro h
                          obtain ⟨ch, h1, h2⟩ := List.mem_map.mp (List.mem_of_head? h)
                          exact (ht4 ch h1).2.1 h2
                    · exact hel3 f hf
                obtain ⟨chain, w, g1, g2, g3, _, _, g6, _⟩ := HttpResponse.response_wellformed_partial s { c with responseWbh := c.responseWbh ++ elems }
                  .switchingProtocols none SUCCESS _ keepalive [] trivial hw huser hver hka hkp rfl (by decide)
                refine ⟨H, HttpResponse.writeResponse s { c with responseWbh := c.responseWbh ++ elems } .switchingProtocols none true SUCCESS,
                  chain, w, t, ?_, g1, g2, ?_, ht2, by rw [hkeyOf]; exact ht3, fun ch h => (ht4 ch h).2.2⟩
                · rw [hHk, ht1]
                  simp only [bind, Option.bind_some, hel1, hfold]
                  rw [if_neg (by rw [g6]; simp)]
                  rfl
                · rw [g3]
                  have hd : HttpResponse.dec 0 = str "0" := by decide +kernel
                  simp [HttpResponse.expectedFields, hd, HttpResponse.code]
    · rw [if_pos (by
        cases hx : checkHttpVersion r.major r.minor with
        | false => rfl
        | true => exact absurd (hversion.mp hx) h1)]
      exact ⟨fun ha => absurd ha.1 h1, fun _ => rfl⟩
  · obtain ⟨h', hl⟩ := hloop.2 hne
    refine ⟨fun ha => absurd ?_ hne, fun _ => by rw [handshake, hl]⟩
    refine ⟨ha.2.2.2.key.2, ha.2.2.2.version.2, fun v hv names hs => ?_⟩
    obtain ⟨names', i, e1, e2⟩ := ha.2.2.2.protocol v hv
    rw [hs] at e1; cases e1
    rw [e2]; rfl

/-! ### Consequences and deviations from RFC 6455 -/

/-- The server a request arrives at is initialised and the response to it has not been started. -/
structure Ready (ctx : Sha1.Ctx) (s : HttpResponse.Server) (c : HttpResponse.Client) : Prop where
  ctx : ctx.block.length = 64
  written : c.responseWritten = false
  empty : c.responseWbh = []
  version : 13 ∉ s.version
  keepalive : ∃ k, s.keepaliveHeader = HttpResponse.line k ++ HttpResponse.CRLF ∧ HttpResponse.Proper k

/-- The request is answered with 101, whatever was in memory before. -/
def Upgraded (supported : Option (List Bytes)) (r : Request) : Prop :=
  ∀ garbage ctx s c, Ready ctx s c → ∃ h o, handshake supported garbage ctx s c r true SUCCESS = some (.upgraded h o) ∧ o.sent.isSome

def Refused (supported : Option (List Bytes)) (r : Request) : Prop :=
  ∀ garbage ctx s c, Ready ctx s c → handshake supported garbage ctx s c r true SUCCESS = some .refused

/-- **C27**: upgraded if acceptable, refused otherwise. -/
theorem upgraded_iff (supported : Option (List Bytes)) (r : Request) :
    (Acceptable supported r → Upgraded supported r) ∧ (¬Acceptable supported r → Refused supported r) := by
  constructor
  · intro ha garbage ctx s c hr
    obtain ⟨k, hk1, hk2⟩ := hr.keepalive
    obtain ⟨h, o, chain, w, t, h1, h2, _⟩ :=
      (handshake_exact supported garbage ctx s c r k hr.ctx hr.written hr.empty hr.version hk1 hk2).1 ha
    exact ⟨h, o, h1, by rw [h2]; rfl⟩
  · intro ha garbage ctx s c hr
    obtain ⟨k, hk1, hk2⟩ := hr.keepalive
    exact (handshake_exact supported garbage ctx s c r k hr.ctx hr.written hr.empty hr.version hk1 hk2).2 ha

instance (supported : Option (List Bytes)) (fields : List (Bytes × Bytes)) : Decidable (NoError supported fields) := by
  have : Decidable (∀ v ∈ valuesOf (ascii "Sec-WebSocket-Protocol") fields, ∀ names, supported = some names → (choose names (entries v)).isSome) := by
    cases supported with
    | none => exact isTrue (fun _ _ _ h => by cases h)
    | some ns =>
      exact decidable_of_iff (∀ v ∈ valuesOf (ascii "Sec-WebSocket-Protocol") fields, (choose ns (entries v)).isSome = true)
        ⟨fun h v hv names e => by cases e; exact h v hv, fun h v hv => h v hv ns rfl⟩
  unfold NoError; infer_instance

/-- A way to check the conditions by computation. -/
theorem acceptable_of (names : List Bytes) (r : Request) (h : checkHttpVersion r.major r.minor = true ∧ r.isGet = true ∧ r.upgrade = true ∧
    NoError (some names) r.fields ∧ (valuesOf (ascii "Sec-WebSocket-Key") r.fields ≠ [] ∧ (keyOf r.fields).head? ≠ some 0) ∧ valuesOf (ascii "Sec-WebSocket-Version") r.fields ≠ []) :
    Acceptable (some names) r := by
  obtain ⟨h1, h2, h3, h4, h5, h6⟩ := h
  refine ⟨?_, h2, h3, ⟨h5.1, h4.1⟩, h5.2, ⟨h6, h4.2.1⟩, ?_⟩
  · rw [checkHttpVersion] at h1
    split at h1
    · exact .inl (by assumption)
    · split at h1
      · exact .inr (by assumption)
      · cases h1
  · intro v hv
    obtain ⟨i, hi⟩ := Option.isSome_iff_exists.mp (h4.2.2 v hv names rfl)
    exact ⟨names, i, rfl, hi⟩

/-- The request of RFC 6455, section 1.3, with the fields the code looks at. -/
def sampleRequest (more : List (Bytes × Bytes)) : Request :=
  { major := 1, minor := 1, isGet := true, upgrade := true
    fields := [(str "Host", str "server.example.com"), (str "Sec-WebSocket-Key", str "dGhlIHNhbXBsZSBub25jZQ=="),
      (str "Sec-WebSocket-Protocol", str "chat, superchat"), (str "sec-websocket-VERSION", str "13")] ++ more }

/-- The hypotheses of the theorems are met by the sample. -/
example : Acceptable (some [str "superchat"]) (sampleRequest []) := acceptable_of _ _ (by decide +kernel)
example : Upgraded (some [str "superchat"]) (sampleRequest []) :=
  (upgraded_iff _ _).1 (acceptable_of _ _ (by decide +kernel))
example : protocolOf (some [str "superchat"]) (sampleRequest []).fields = some (str "superchat") := by decide +kernel
example : ∃ ctx s c, Ready ctx s c :=
  ⟨{ lengthLow := 0, lengthHigh := 0, index := 0, block := List.replicate 64 0, hash := ⟨0, 0, 0, 0, 0⟩, computed := false, corrupted := 0 },
   { version := str "0.0.1", keepaliveHeader := str "Keep-Alive: timeout=5\r\n" }, HttpResponse.newClient [],
   ⟨by decide, rfl, rfl, by decide, (str "Keep-Alive", str "timeout=5"), by decide, by decide⟩⟩

/-- Fields with other names have no influence: in particular the value of the `Upgrade` field is never looked at. -/
theorem other_fields_ignored (supported : Option (List Bytes)) (r : Request) (extra : List (Bytes × Bytes))
    (hx : ∀ f ∈ extra, ¬SameName f.1 (ascii "Sec-WebSocket-Key") ∧ ¬SameName f.1 (ascii "Sec-WebSocket-Version") ∧
      ¬SameName f.1 (ascii "Sec-WebSocket-Protocol")) :
    Acceptable supported { r with fields := extra ++ r.fields } ↔ Acceptable supported r := by
  have hv : ∀ name, (∀ f ∈ extra, ¬SameName f.1 name) → valuesOf name (extra ++ r.fields) = valuesOf name r.fields := by
    intro name h
    have : extra.filter (fun f => decide (SameName f.1 name)) = [] := by
      rw [List.filter_eq_nil_iff]; intro f hf; simpa using h f hf
    rw [valuesOf, List.filter_append, this, List.nil_append]; rfl
  have e1 := hv _ (fun f hf => (hx f hf).1)
  have e2 := hv _ (fun f hf => (hx f hf).2.1)
  have e3 := hv _ (fun f hf => (hx f hf).2.2)
  have hf : FieldsOk supported (extra ++ r.fields) ↔ FieldsOk supported r.fields := by
    constructor
    · rintro ⟨a, d, b, c⟩; rw [e1] at a; rw [keyOf, e1] at d; rw [e2] at b; rw [e3] at c; exact ⟨a, d, b, c⟩
    · rintro ⟨a, d, b, c⟩; rw [← e1] at a; rw [keyOf, ← e1] at d; rw [← e2] at b; rw [← e3] at c; exact ⟨a, d, b, c⟩
  simp only [Acceptable, hf]

/-- **C27** is not all RFC 6455 asks for (section 4.2.1, 3): a request to upgrade to something else than `websocket` is accepted. -/
theorem any_upgrade_accepted : Upgraded (some [str "superchat"]) (sampleRequest [(str "Upgrade", str "h2c"), (str "Connection", str "Upgrade")]) :=
  (upgraded_iff _ _).1 (acceptable_of _ _ (by decide +kernel))

/-- RFC 6455, section 11.3.1: the key must not appear more than once, and it must be base64 of 16 bytes.  Both are accepted. -/
theorem two_keys_accepted : Upgraded (some [str "superchat"]) (sampleRequest [(str "Sec-WebSocket-Key", str "AAAAAAAAAAAAAAAAAAAAAA==")]) :=
  (upgraded_iff _ _).1 (acceptable_of _ _ (by decide +kernel))

theorem key_not_decoded : Upgraded (some [str "superchat"]) (sampleRequest [(str "Sec-WebSocket-Key", str "!!!!!!!!!!!!!!!!!!!!!!!!")]) :=
  (upgraded_iff _ _).1 (acceptable_of _ _ (by decide +kernel))

/-- **C28**: where RFC 6455 (section 4.2.2, 5) lets a server go on without a subprotocol, this one refuses the request: a client that offers
subprotocols, none of which the server supports, is never served; nor is any client that offers one, by a server without subprotocols. -/
theorem no_common_protocol_refused (supported : Option (List Bytes)) (r : Request) (v : Bytes)
    (hv : v ∈ valuesOf (ascii "Sec-WebSocket-Protocol") r.fields)
    (hn : ∀ t ∈ entries v, ∀ names, supported = some names → t ∉ names) : Refused supported r := by
  refine (upgraded_iff supported r).2 (fun ha => ?_)
  obtain ⟨names, i, e1, e2⟩ := ha.2.2.2.protocol v hv
  obtain ⟨bs, t, as, g1, _, g3, _⟩ := (choose_spec names _ i).mp e2
  exact hn t (by rw [g1]; simp) names e1 (List.mem_of_getElem? g3)

example : Refused (some [str "mqtt"]) (sampleRequest []) :=
  no_common_protocol_refused _ _ (str "chat, superchat") (by decide +kernel)
    (fun t ht names e => by cases e; revert t; decide +kernel)

/-- RFC 6455, section 11.3.4: several `Sec-WebSocket-Protocol` fields are the same as one field with all of them.  Not so here: the request below
offers `chat`, `superchat` and `mqtt`, and the server supports `mqtt`. -/
theorem protocol_lines_not_joined : Refused (some [str "mqtt"]) (sampleRequest [(str "Sec-WebSocket-Protocol", str "mqtt")]) :=
  no_common_protocol_refused _ _ (str "chat, superchat") (by decide +kernel)
    (fun t ht names e => by cases e; revert t; decide +kernel)

/-- What follows the chosen entry is not checked. -/
theorem malformed_rest_accepted : Upgraded (some [str "chat"])
    { sampleRequest [] with fields := [(str "Sec-WebSocket-Key", str "dGhlIHNhbXBsZSBub25jZQ=="), (str "Sec-WebSocket-Version", str "13"),
      (str "Sec-WebSocket-Protocol", str "chat, (@@@,,,")] } :=
  (upgraded_iff _ _).1 (acceptable_of _ _ (by decide +kernel))

/-- If the response cannot be handed to the stream the request is refused; if its timer cannot be armed the connection is closed and nothing is
sent, although the handler reports success. -/
theorem response_not_sent (ctx : Sha1.Ctx) (s : HttpResponse.Server) (c : HttpResponse.Client) (h : Handler) (r : Request) (armed : Bool)
    (flushErr : Err) (hw : c.responseWritten = false) (hf : armed = true → flushErr ≠ SUCCESS) (out : Outcome)
    (ho : headersComplete ctx s c h r armed flushErr = some out) :
    out = .refused ∨ ∃ o, out = .upgraded h o ∧ o.sent = none ∧ o.closed = true ∧ armed = false := by
  rw [headersComplete] at ho
  repeat' split at ho
  all_goals first
    | (left; exact (Option.some.inj ho).symm)
    | skip
  simp only [bind, Option.bind_eq_some_iff] at ho
  obtain ⟨accept, _, elems, _, ho⟩ := ho
  have hwr : (elems.foldl HttpResponse.addResponseHeader c).responseWritten = false := by
    have key : ∀ (es : List Elem) (c : HttpResponse.Client), c.responseWritten = false →
        (es.foldl HttpResponse.addResponseHeader c).responseWritten = false := by
      intro es
      induction es with
      | nil => exact fun c h => h
      | cons e es ih => exact fun c h => ih _ h
    exact key elems c hw
  generalize elems.foldl HttpResponse.addResponseHeader c = c' at ho hwr
  cases armed with
  | true =>
    have : (HttpResponse.writeResponse s c' .switchingProtocols none true flushErr).err = flushErr := by
      simp [HttpResponse.writeResponse, hwr]
    rw [this, if_pos (hf rfl)] at ho
    left; exact (Option.some.inj ho).symm
  | false =>
    obtain ⟨g1, g2, _, g4⟩ := HttpResponse.arming_failed s c' .switchingProtocols none flushErr hwr
    rw [g4, if_neg (by simp)] at ho
    right; exact ⟨_, (Option.some.inj ho).symm, g1, g2, rfl⟩

/-- C28.  Partial: all entries of the client's list must be tokens (otherwise see `malformed_rest_accepted`), and without a common name the request is refused (`no_common_protocol_refused`). -/
theorem common_protocol_partial (names : List Bytes) (v : Bytes) (hv : ∀ t ∈ entries v, IsToken t) :
    ((choose names (entries v)).isSome ↔ ∃ t ∈ entries v, t ∈ names) ∧
    ∀ i, choose names (entries v) = some i → ∃ t ∈ entries v, names[i]? = some t := common_protocol names v hv

end Cio.WsHandshake
