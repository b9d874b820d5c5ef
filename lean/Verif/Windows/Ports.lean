import Verif.Common
/-
Finding serial ports on Windows: `cio_uart_get_number_of_uarts` and `cio_uart_get_ports`, /repo/lib/src/platform/windows/uart.c 187-292 and 304-422 (C62).

The registry is a parameter: the devices of the class "Ports" in their order, and for each of them what the calls of the system return.  Everything that is
done with keys and memory is recorded, in the order in which it happens.
-/
namespace Cio.Windows.Ports

/-! ### Model -/

/-- Pieces of memory: the name from the registry, its UTF-8 form, the property from the registry, its UTF-8 form (of the device with this number), and the
buffer for the class identifiers. -/
inductive Mem where
  | wide (i : Nat)
  | utf8 (i : Nat)
  | prop (i : Nat)
  | friendly (i : Nat)
  | guids
  deriving DecidableEq, Repr

inductive Eff where
  | openKey (i : Nat)
  | closeKey (i : Nat)
  | alloc (m : Mem) (size : Nat)
  | free (m : Mem)
  | read (m : Mem) (bytes : Nat)         -- the system is told to read that many bytes
  | openList
  | destroyList
  deriving DecidableEq, Repr

/-- What the system returns for one device. -/
structure Dev where
  opens : Bool                        -- SetupDiOpenDevRegKey
  query : Option (Bool × Nat)         -- first RegQueryValueExW: is it REG_SZ, and the size in bytes (a DWORD)
  wideMem : Bool                      -- malloc
  query2 : Option Nat                 -- second RegQueryValueExW: the size in bytes
  conv : Nat                          -- first WideCharToMultiByte
  utf8Mem : Bool                      -- malloc
  conv2 : Option (List UInt8)         -- second WideCharToMultiByte: the string (without NUL) that results
  propSize : Nat                      -- first SetupDiGetDeviceRegistryPropertyW
  propMem : Bool                      -- malloc
  prop : Bool                         -- second SetupDiGetDeviceRegistryPropertyW
  propConv : Nat
  friendlyMem : Bool
  propConv2 : Option (List UInt8)
  deriving DecidableEq, Repr

/-- `get_string_value_from_registry`, uart.c 187-243: the name, and what was done. -/
def getString (i : Nat) (d : Dev) : Option (List UInt8) × List Eff :=
  if !d.opens then (none, [])
  else
    match d.query with
    | none => (none, [.openKey i, .closeKey i])
    | some (isSz, size) =>
      if !isSz then (none, [.openKey i, .closeKey i])
      else if !d.wideMem then (none, [.openKey i, .closeKey i])
      else
        match d.query2 with
        | none => (none, [.openKey i, .alloc (.wide i) size, .free (.wide i), .closeKey i])
        | some size2 =>
          -- the length is to be given in characters of two bytes, line 218
          if d.conv = 0 then (none, [.openKey i, .alloc (.wide i) size, .closeKey i, .read (.wide i) (2 * size2), .free (.wide i), .closeKey i])
          else if !d.utf8Mem then (none, [.openKey i, .alloc (.wide i) size, .closeKey i, .read (.wide i) (2 * size2), .free (.wide i), .closeKey i])
          else
            match d.conv2 with
            | none => (none, [.openKey i, .alloc (.wide i) size, .closeKey i, .read (.wide i) (2 * size2), .alloc (.utf8 i) (d.conv + 1), .read (.wide i) (2 * size2),
                .free (.utf8 i), .free (.wide i), .closeKey i])
            | some name => (some name, [.openKey i, .alloc (.wide i) size, .closeKey i, .read (.wide i) (2 * size2), .alloc (.utf8 i) (d.conv + 1), .read (.wide i) (2 * size2),
                .free (.wide i)])

/-- `is_com_port`, uart.c 245-257. -/
def isComPort (name : List UInt8) : Bool :=
  if name.length > 3 then
    if name.take 3 = [67, 79, 77] then
      match name[3]? with
      | some c => 48 ≤ c && c ≤ 57
      | none => false
    else false
  else false

/-- `get_device_property`, uart.c 259-292. -/
def getProperty (i : Nat) (d : Dev) : Option (List UInt8) × List Eff :=
  if !d.propMem then (none, [])
  else if d.prop then
    if d.propConv = 0 then (none, [.alloc (.prop i) d.propSize, .read (.prop i) (2 * d.propSize), .free (.prop i)])
    else if !d.friendlyMem then (none, [.alloc (.prop i) d.propSize, .read (.prop i) (2 * d.propSize), .free (.prop i)])
    else
      match d.propConv2 with
      | none => (none, [.alloc (.prop i) d.propSize, .read (.prop i) (2 * d.propSize), .alloc (.friendly i) (d.propConv + 1), .read (.prop i) (2 * d.propSize),
          .free (.friendly i), .free (.prop i)])
      | some name => (some name, [.alloc (.prop i) d.propSize, .read (.prop i) (2 * d.propSize), .alloc (.friendly i) (d.propConv + 1), .read (.prop i) (2 * d.propSize)])
  else (none, [.alloc (.prop i) d.propSize, .free (.prop i)])

/-- `_MAX_PATH`. -/
def MAX_PATH : Nat := 260

/-- `strncpy_s(dst, _MAX_PATH, src, _TRUNCATE)`: the string in `dst` afterwards. -/
def copyName (src : List UInt8) : List UInt8 := src.take (MAX_PATH - 1)

/-- `ports[i]`: `impl.name` and `impl.friendly_name`. -/
abbrev Port := List UInt8 × List UInt8

/-- The loop of `cio_uart_get_ports`, uart.c 386-412; `i` is `member_index`, `k` is `detected_ports`.  `none`: a write outside of the array. -/
def loop (n : Nat) : List Dev → Nat → List Port → Nat → List Eff → Option (List Port × Nat × List Eff)
  | [], _, ports, k, es => some (ports, k, es)
  | d :: ds, i, ports, k, es =>
    let r := getString i d
    match r.1 with
    | none => loop n ds (i + 1) ports k (es ++ r.2)
    | some name =>
      if isComPort name then
        let f := getProperty i d
        if k < ports.length then
          let ports := ports.set k (copyName name, (f.1.map copyName).getD [])
          let es := es ++ r.2 ++ f.2 ++ [.free (.utf8 i)]
          if k + 1 ≥ n then some (ports, k + 1, es) else loop n ds (i + 1) ports (k + 1) es
        else none
      else
        let es := es ++ r.2 ++ [.free (.utf8 i)]
        if k ≥ n then some (ports, k, es) else loop n ds (i + 1) ports k es

/-- What the calls before the loop return: malloc, SetupDiClassGuidsFromNameW and SetupDiGetClassDevsW (errors of the system are positive). -/
structure Sys where
  mem : Bool
  guids : Err          -- 0: success
  list : Except Err (List Dev)

structure Result where
  err : Err
  ports : List Port
  detected : Option Nat
  effs : List Eff
  deriving DecidableEq, Repr

/-- `sizeof(GUID)`. -/
def GUID_SIZE : Nat := 16

/-- `cio_uart_get_ports`, uart.c 354-422. -/
def getPorts (sys : Sys) (ports : List Port) (n : Nat) : Option Result :=
  if n = 0 then some ⟨SUCCESS, ports, some 0, []⟩
  else if !sys.mem then some ⟨NO_MEMORY, ports, none, []⟩
  else if sys.guids ≠ 0 then some ⟨-sys.guids, ports, none, [.alloc .guids (n * GUID_SIZE), .free .guids]⟩
  else
    match sys.list with
    | .error e => some ⟨-e, ports, none, [.alloc .guids (n * GUID_SIZE), .free .guids]⟩
    | .ok ds =>
      (loop n ds 0 ports 0 [.alloc .guids (n * GUID_SIZE), .openList]).map fun r =>
        ⟨SUCCESS, r.1, some r.2.1, r.2.2 ++ [.destroyList, .free .guids]⟩

/-- The loop of `cio_uart_get_number_of_uarts`, uart.c 330-343. -/
def countLoop : List Dev → Nat → Nat → List Eff → Nat × List Eff
  | [], _, k, es => (k, es)
  | d :: ds, i, k, es =>
    let r := getString i d
    match r.1 with
    | none => countLoop ds (i + 1) k (es ++ r.2)
    | some name => countLoop ds (i + 1) (if isComPort name then k + 1 else k) (es ++ r.2 ++ [.free (.utf8 i)])

/-- `cio_uart_get_number_of_uarts`, uart.c 304-352; `g` is the number of class identifiers. -/
def getNumber (sys : Sys) (g : Nat) : Nat × List Eff :=
  if !sys.mem then (0, [])
  else if sys.guids ≠ 0 then (0, [.alloc .guids (g * GUID_SIZE), .free .guids])
  else
    match sys.list with
    | .error _ => (0, [.alloc .guids (g * GUID_SIZE), .free .guids])
    | .ok ds =>
      let r := countLoop ds 0 0 [.alloc .guids (g * GUID_SIZE), .openList]
      (r.1, r.2 ++ [.destroyList, .free .guids])

/-! ### Specification -/

/-- The name of a device as the registry has it, if it can be read: it is a string, and memory suffices. -/
def nameOf (d : Dev) : Option (List UInt8) :=
  if d.opens = true ∧ d.query.map Prod.fst = some true ∧ d.wideMem = true ∧ d.query2 ≠ none ∧ d.conv ≠ 0 ∧ d.utf8Mem = true then d.conv2 else none

/-- The name of a serial port begins with "COM" and a digit. -/
def IsCom (name : List UInt8) : Prop := name.take 3 = "COM".toUTF8.toList ∧ ∃ c ∈ name[3]?, 48 ≤ c.toNat ∧ c.toNat ≤ 57
instance (name : List UInt8) : Decidable (IsCom name) := by
  unfold IsCom
  cases h : name[3]? with
  | none => exact isFalse (by simp)
  | some c => exact decidable_of_iff (name.take 3 = "COM".toUTF8.toList ∧ 48 ≤ c.toNat ∧ c.toNat ≤ 57) (by simp)

/-- The description of a device, if it can be read. -/
def friendlyOf (d : Dev) : Option (List UInt8) :=
  if d.propMem = true ∧ d.prop = true ∧ d.propConv ≠ 0 ∧ d.friendlyMem = true then d.propConv2 else none

/-- The entry of the array for a device, if it is a serial port: its name and its description (empty if there is none), of at most 259 bytes. -/
def entry (d : Dev) : Option Port :=
  match nameOf d with
  | some name => if IsCom name then some (name.take 259, ((friendlyOf d).map (List.take 259)).getD []) else none
  | none => none

/-- How often memory was allocated and how often it was given back. -/
def allocs (m : Mem) (es : List Eff) : Nat := es.countP fun e => match e with | .alloc x _ => x = m | _ => false
def frees (m : Mem) (es : List Eff) : Nat := es.countP fun e => match e with | .free x => x = m | _ => false
def opens (i : Nat) (es : List Eff) : Nat := es.countP fun e => match e with | .openKey x => x = i | _ => false
def closes (i : Nat) (es : List Eff) : Nat := es.countP fun e => match e with | .closeKey x => x = i | _ => false

/-! ### Proofs: what is found -/

theorem getString_name (i : Nat) (d : Dev) : (getString i d).1 = nameOf d := by
  obtain ⟨o, q, wm, q2, c, um, c2, ps, pm, pr, pc, fm, pc2⟩ := d
  unfold getString nameOf
  dsimp only
  cases o
  · simp
  · cases q with
    | none => simp
    | some q =>
      obtain ⟨z, size⟩ := q
      cases z
      · simp
      · cases wm
        · simp
        · cases q2 with
          | none => simp
          | some s2 =>
            by_cases hc : c = 0
            · simp [hc]
            · cases um
              · simp [hc]
              · cases c2 <;> simp [hc]

theorem getProperty_name (i : Nat) (d : Dev) : (getProperty i d).1 = friendlyOf d := by
  obtain ⟨o, q, wm, q2, c, um, c2, ps, pm, pr, pc, fm, pc2⟩ := d
  unfold getProperty friendlyOf
  dsimp only
  cases pm
  · simp
  · cases pr
    · simp
    · by_cases hc : pc = 0
      · simp [hc]
      · cases fm
        · simp [hc]
        · cases pc2 <;> simp [hc]

theorem com_bytes : "COM".toUTF8.toList = [67, 79, 77] := by decide +kernel

theorem isComPort_iff (name : List UInt8) : isComPort name = true ↔ IsCom name := by
  unfold isComPort IsCom
  rw [com_bytes]
  by_cases hl : name.length > 3
  · rw [if_pos hl]
    by_cases ht : name.take 3 = [67, 79, 77]
    · rw [if_pos ht, List.getElem?_eq_getElem hl]
      simp only [Bool.and_eq_true, decide_eq_true_eq, ht, true_and, Option.mem_def, Option.some.injEq, exists_eq_left']
      rfl
    · rw [if_neg ht]
      simp [ht]
  · rw [if_neg hl, List.getElem?_eq_none (by omega)]
    simp

theorem entry_none {d : Dev} (h : nameOf d = none) : entry d = none := by unfold entry; rw [h]
theorem entry_other {d : Dev} {name : List UInt8} (h : nameOf d = some name) (hc : ¬ isComPort name = true) : entry d = none := by
  unfold entry; rw [h]; exact if_neg (fun x => hc ((isComPort_iff name).mpr x))
theorem entry_com {d : Dev} {name : List UInt8} (h : nameOf d = some name) (hc : isComPort name = true) :
    entry d = some (name.take 259, ((friendlyOf d).map (List.take 259)).getD []) := by
  unfold entry; rw [h]; exact if_pos ((isComPort_iff name).mp hc)

theorem loop_spec (n : Nat) (ds : List Dev) (i : Nat) (done rest : List Port) (es : List Eff) (hk : done.length < n) (hn : n ≤ (done ++ rest).length) :
    ∃ es', loop n ds i (done ++ rest) done.length es =
      some (done ++ (ds.filterMap entry).take (n - done.length) ++ rest.drop (min (n - done.length) (ds.filterMap entry).length),
        min n (done.length + (ds.filterMap entry).length), es') := by
  induction ds generalizing i done rest es with
  | nil => exact ⟨es, by simp only [loop, List.filterMap_nil, List.take_nil, List.length_nil, Nat.min_zero, List.drop_zero, List.append_nil, Nat.add_zero, Nat.min_eq_right (Nat.le_of_lt hk)]⟩
  | cons d ds ih =>
    unfold loop
    dsimp only
    rw [getString_name i d]
    cases hg : nameOf d with
    | none =>
      have he : entry d = none := entry_none hg
      rw [List.filterMap_cons_none he]
      exact ih _ _ _ _ hk hn
    | some name =>
      dsimp only
      by_cases hc : isComPort name = true
      · rw [if_pos hc]
        have he : entry d = some (copyName name, ((getProperty i d).1.map copyName).getD []) := by
          rw [entry_com hg hc, getProperty_name i d]
          rfl
        generalize hx : (copyName name, ((getProperty i d).1.map copyName).getD []) = x at he ⊢
        have hr : 0 < rest.length := by rw [List.length_append] at hn; omega
        rw [if_pos (by rw [List.length_append]; omega)]
        obtain ⟨r, rest, rfl⟩ : ∃ r rs, rest = r :: rs := by
          cases rest with
          | nil => cases hr
          | cons r rs => exact ⟨r, rs, rfl⟩
        have hset : (done ++ r :: rest).set done.length x = done ++ [x] ++ rest := by simp
        rw [hset, List.filterMap_cons_some he]
        by_cases hn1 : done.length + 1 ≥ n
        · rw [if_pos hn1]
          have h1 : n - done.length = 1 := by omega
          refine ⟨es ++ (getString i d).2 ++ (getProperty i d).2 ++ [.free (.utf8 i)], ?_⟩
          rw [h1, List.length_cons, List.take_succ_cons, List.take_zero]
          have h2 : min 1 ((ds.filterMap entry).length + 1) = 1 := by omega
          have h3 : min n (done.length + ((ds.filterMap entry).length + 1)) = done.length + 1 := by omega
          rw [h2, h3]
          rfl
        · rw [if_neg hn1]
          have hlen : (done ++ [x]).length = done.length + 1 := by simp
          obtain ⟨es', h⟩ := ih (i + 1) (done ++ [x]) rest (es ++ (getString i d).2 ++ (getProperty i d).2 ++ [.free (.utf8 i)]) (by omega) (by simp at hn ⊢; omega)
          refine ⟨es', ?_⟩
          rw [hlen] at h
          rw [h]
          obtain ⟨m, hm⟩ : ∃ m, n - done.length = m + 1 := ⟨n - done.length - 1, by omega⟩
          have hm' : n - (done.length + 1) = m := by omega
          rw [hm, hm', List.length_cons, List.take_succ_cons]
          have h2 : min (m + 1) ((ds.filterMap entry).length + 1) = min m (ds.filterMap entry).length + 1 := by omega
          have h3 : done.length + 1 + (ds.filterMap entry).length = done.length + ((ds.filterMap entry).length + 1) := by omega
          rw [h2, h3, List.drop_succ_cons]
          simp
      · rw [if_neg hc, if_neg (by omega)]
        have he : entry d = none := entry_other hg hc
        rw [List.filterMap_cons_none he]
        exact ih _ _ _ _ hk hn

/-- C62: `cio_uart_get_ports` fills the array with the serial ports in the order of the system, as many as fit, writes nothing behind them and reports how
many they are. -/
theorem ports_exact (sys : Sys) (ds : List Dev) (hm : sys.mem = true) (hg : sys.guids = 0) (hl : sys.list = .ok ds) (ports : List Port) (n : Nat) (hn : n ≤ ports.length) :
    ∃ r, getPorts sys ports n = some r ∧ r.err = SUCCESS ∧ r.ports = (ds.filterMap entry).take n ++ ports.drop (min n (ds.filterMap entry).length) ∧
      r.detected = some (min n (ds.filterMap entry).length) := by
  unfold getPorts
  by_cases h0 : n = 0
  · subst h0
    rw [if_pos rfl]
    exact ⟨_, rfl, rfl, by simp, by simp⟩
  · have ng : ¬ (sys.guids ≠ 0) := fun h => h hg
    rw [if_neg h0, hm, if_neg (by simp), if_neg ng, hl]
    dsimp only
    obtain ⟨es', h⟩ := loop_spec n ds 0 [] ports [.alloc .guids (n * GUID_SIZE), .openList] (Nat.pos_of_ne_zero h0) hn
    rw [List.nil_append, List.length_nil] at h
    rw [h]
    exact ⟨_, rfl, rfl, by simp, by simp⟩

/-- C62: errors of the system are reported, negated, and the array is not touched. -/
theorem errors_reported (sys : Sys) (ports : List Port) (n : Nat) (hn : n ≠ 0) :
    (sys.mem = false → getPorts sys ports n = some ⟨NO_MEMORY, ports, none, []⟩) ∧
    (sys.mem = true → sys.guids ≠ 0 → getPorts sys ports n = some ⟨-sys.guids, ports, none, [.alloc .guids (n * GUID_SIZE), .free .guids]⟩) ∧
    (∀ e, sys.mem = true → sys.guids = 0 → sys.list = .error e → getPorts sys ports n = some ⟨-e, ports, none, [.alloc .guids (n * GUID_SIZE), .free .guids]⟩) := by
  unfold getPorts
  rw [if_neg hn]
  refine ⟨fun h => ?_, fun h h' => ?_, fun e h h' h'' => ?_⟩
  · rw [h]; rfl
  · rw [h, if_neg (by simp), if_pos h']
  · have ng : ¬ (sys.guids ≠ 0) := fun x => x h'
    rw [h, if_neg (by simp), if_neg ng, h'']

theorem countLoop_spec (ds : List Dev) (i k : Nat) (es : List Eff) : (countLoop ds i k es).1 = k + (ds.filterMap entry).length := by
  induction ds generalizing i k es with
  | nil => rfl
  | cons d ds ih =>
    unfold countLoop
    dsimp only
    rw [getString_name i d]
    cases hg : nameOf d with
    | none =>
      have he : entry d = none := entry_none hg
      rw [List.filterMap_cons_none he]
      exact ih _ _ _
    | some name =>
      dsimp only
      rw [ih]
      by_cases hc : isComPort name = true
      · have he : ∃ x, entry d = some x := ⟨_, entry_com hg hc⟩
        obtain ⟨x, he⟩ := he
        rw [if_pos hc, List.filterMap_cons_some he, List.length_cons]; omega
      · have he : entry d = none := entry_other hg hc
        rw [if_neg hc, List.filterMap_cons_none he]

/-- C62: the number of ports is the number of ports that `cio_uart_get_ports` finds if the array is large enough. -/
theorem number_exact (sys : Sys) (ds : List Dev) (hm : sys.mem = true) (hg : sys.guids = 0) (hl : sys.list = .ok ds) (g : Nat) :
    (getNumber sys g).1 = (ds.filterMap entry).length := by
  have ng : ¬ (sys.guids ≠ 0) := fun h => h hg
  unfold getNumber
  rw [hm, if_neg (by simp), if_neg ng, hl]
  dsimp only
  rw [countLoop_spec, Nat.zero_add]

/-! ### Proofs: what is left behind -/

theorem allocs_append (m : Mem) (a b : List Eff) : allocs m (a ++ b) = allocs m a + allocs m b := List.countP_append
theorem frees_append (m : Mem) (a b : List Eff) : frees m (a ++ b) = frees m a + frees m b := List.countP_append
theorem opens_append (i : Nat) (a b : List Eff) : opens i (a ++ b) = opens i a + opens i b := List.countP_append
theorem closes_append (i : Nat) (a b : List Eff) : closes i (a ++ b) = closes i a + closes i b := List.countP_append

/-- The name of a port: memory is given back, except for the name itself if there is one. -/
theorem getString_mem (i : Nat) (d : Dev) (m : Mem) :
    allocs m (getString i d).2 = frees m (getString i d).2 + (if m = .utf8 i ∧ (getString i d).1.isSome then 1 else 0) := by
  unfold getString
  repeat' split
  all_goals simp_all [allocs, frees, List.countP_cons]
  all_goals (cases m <;> simp_all)
  all_goals first | (split <;> simp_all [eq_comm]; done) | (exact fun h => absurd h.symm (by assumption))

/-- Without memory pressure and with names that can be converted ... -/
def Dev.Plain (d : Dev) : Prop := d.opens = true → ∀ q, d.query = some (true, q) → d.wideMem = true ∧ ((∃ q2, d.query2 = some q2) → d.conv ≠ 0 ∧ d.utf8Mem = true ∧ d.conv2.isSome = true)

/-- ... a key is closed as often as it is opened. -/
theorem getString_keys (i j : Nat) (d : Dev) (h : d.Plain) : opens j (getString i d).2 = closes j (getString i d).2 := by
  unfold getString
  unfold Dev.Plain at h
  repeat' split
  all_goals first | (simp_all [opens, closes, List.countP_cons]; done) | skip
  all_goals (by_cases hj : i = j <;> simp_all [opens, closes, List.countP_cons])

theorem getProperty_mem (i : Nat) (d : Dev) (m : Mem) (hm : ∀ j, m ≠ .prop j ∧ m ≠ .friendly j) : allocs m (getProperty i d).2 = 0 ∧ frees m (getProperty i d).2 = 0 := by
  have h1 := Ne.symm (hm i).1
  have h2 := Ne.symm (hm i).2
  unfold getProperty
  repeat' split
  all_goals simp_all [allocs, frees, List.countP_cons]

theorem frees_one (m x : Mem) : frees m [.free x] = if m = x then 1 else 0 := by
  unfold frees
  by_cases h : x = m
  · simp [h]
  · simp [h, Ne.symm h]

theorem allocs_free (m x : Mem) : allocs m [.free x] = 0 := by simp [allocs]

theorem loop_mem (n : Nat) (m : Mem) (hm : ∀ j, m ≠ .prop j ∧ m ≠ .friendly j) (ds : List Dev) (i : Nat) (ports : List Port) (k : Nat) (es : List Eff)
    (r : List Port × Nat × List Eff) (h : loop n ds i ports k es = some r) : allocs m r.2.2 + frees m es = frees m r.2.2 + allocs m es := by
  induction ds generalizing i ports k es with
  | nil => unfold loop at h; cases h; exact Nat.add_comm _ _
  | cons d ds ih =>
    have e1 := getString_mem i d m
    obtain ⟨p1, p2⟩ := getProperty_mem i d m hm
    unfold loop at h
    dsimp only at h
    cases hg : (getString i d).1 with
    | none =>
      rw [hg] at h e1
      simp only [Option.isSome_none, Bool.false_eq_true, and_false, if_false, Nat.add_zero] at e1
      have := ih _ _ _ _ h
      rw [allocs_append, frees_append] at this
      omega
    | some name =>
      rw [hg] at h e1
      simp only [Option.isSome_some, and_true] at e1
      dsimp only at h
      have key : ∀ es', es' = es ++ (getString i d).2 ++ (getProperty i d).2 ++ [.free (.utf8 i)] ∨ es' = es ++ (getString i d).2 ++ [.free (.utf8 i)] →
          allocs m es' + frees m es = frees m es' + allocs m es := by
        rintro es' (rfl | rfl)
        · simp only [allocs_append, frees_append, frees_one, allocs_free]; omega
        · simp only [allocs_append, frees_append, frees_one, allocs_free]; omega
      split at h
      · split at h
        · split at h
          · cases h; exact key _ (.inl rfl)
          · have h1 := ih _ _ _ _ h
            have h2 := key _ (.inl rfl)
            omega
        · cases h
      · split at h
        · cases h; exact key _ (.inr rfl)
        · have h1 := ih _ _ _ _ h
          have h2 := key _ (.inr rfl)
          omega

/-- C62 (part): all memory except that for the friendly names is given back.
Missing for the full property: the friendly names (`friendly_name_leaks`). -/
theorem names_given_back_partial (sys : Sys) (ports : List Port) (n : Nat) (r : Result) (h : getPorts sys ports n = some r) (m : Mem)
    (hm : ∀ j, m ≠ .prop j ∧ m ≠ .friendly j) : allocs m r.effs = frees m r.effs := by
  unfold getPorts at h
  split at h
  · cases h; rfl
  · split at h
    · cases h; rfl
    · split at h
      · cases h; simp [allocs, frees, List.countP_cons]
      · split at h
        · cases h; simp [allocs, frees, List.countP_cons]
        · rw [Option.map_eq_some_iff] at h
          obtain ⟨x, hx, rfl⟩ := h
          have := loop_mem n m hm _ _ _ _ _ x hx
          show allocs m (x.2.2 ++ _) = frees m (x.2.2 ++ _)
          rw [allocs_append, frees_append]
          by_cases hg : m = .guids
          · subst hg
            simp [allocs, frees, List.countP_cons] at this ⊢
            omega
          · simp [allocs, frees, List.countP_cons, Ne.symm hg] at this ⊢
            omega

theorem getProperty_keys (i j : Nat) (d : Dev) : opens j (getProperty i d).2 = 0 ∧ closes j (getProperty i d).2 = 0 := by
  unfold getProperty
  repeat' split
  all_goals simp [opens, closes, List.countP_cons]

theorem loop_keys (n : Nat) (j : Nat) (ds : List Dev) (hd : ∀ d ∈ ds, d.Plain) (i : Nat) (ports : List Port) (k : Nat) (es : List Eff)
    (r : List Port × Nat × List Eff) (h : loop n ds i ports k es = some r) : opens j r.2.2 + closes j es = closes j r.2.2 + opens j es := by
  induction ds generalizing i ports k es with
  | nil => unfold loop at h; cases h; exact Nat.add_comm _ _
  | cons d ds ih =>
    have ih := ih (fun d hd' => hd d (by simp [hd']))
    have e1 := getString_keys i j d (hd d (by simp))
    obtain ⟨p1, p2⟩ := getProperty_keys i j d
    have f1 : opens j [.free (.utf8 i)] = 0 := by simp [opens]
    have f2 : closes j [.free (.utf8 i)] = 0 := by simp [closes]
    unfold loop at h
    dsimp only at h
    cases hg : (getString i d).1 with
    | none =>
      rw [hg] at h
      have := ih _ _ _ _ h
      rw [opens_append, closes_append] at this
      omega
    | some name =>
      rw [hg] at h
      dsimp only at h
      have key : ∀ es', es' = es ++ (getString i d).2 ++ (getProperty i d).2 ++ [.free (.utf8 i)] ∨ es' = es ++ (getString i d).2 ++ [.free (.utf8 i)] →
          opens j es' + closes j es = closes j es' + opens j es := by
        rintro es' (rfl | rfl)
        · simp only [opens_append, closes_append, f1, f2]; omega
        · simp only [opens_append, closes_append, f1, f2]; omega
      split at h
      · split at h
        · split at h
          · cases h; exact key _ (.inl rfl)
          · have h1 := ih _ _ _ _ h
            have h2 := key _ (.inl rfl)
            omega
        · cases h
      · split at h
        · cases h; exact key _ (.inr rfl)
        · have h1 := ih _ _ _ _ h
          have h2 := key _ (.inr rfl)
          omega

/-- C62 (part): if names can be converted and there is memory, each key is closed as often as it is opened.
Missing for the full property: `key_closed_twice`. -/
theorem keys_closed_partial (sys : Sys) (ds : List Dev) (hl : sys.list = .ok ds) (hd : ∀ d ∈ ds, d.Plain) (ports : List Port) (n : Nat) (r : Result)
    (h : getPorts sys ports n = some r) (j : Nat) : opens j r.effs = closes j r.effs := by
  unfold getPorts at h
  split at h
  · cases h; rfl
  · split at h
    · cases h; rfl
    · split at h
      · cases h; simp [opens, closes, List.countP_cons]
      · rw [hl] at h
        dsimp only at h
        rw [Option.map_eq_some_iff] at h
        obtain ⟨x, hx, rfl⟩ := h
        have := loop_keys n j ds hd _ _ _ _ x hx
        show opens j (x.2.2 ++ _) = closes j (x.2.2 ++ _)
        rw [opens_append, closes_append]
        simp [opens, closes, List.countP_cons] at this ⊢
        omega

theorem countLoop_mem (m : Mem) (ds : List Dev) (i k : Nat) (es : List Eff) : allocs m (countLoop ds i k es).2 + frees m es = frees m (countLoop ds i k es).2 + allocs m es := by
  induction ds generalizing i k es with
  | nil => unfold countLoop; exact Nat.add_comm _ _
  | cons d ds ih =>
    have e1 := getString_mem i d m
    unfold countLoop
    dsimp only
    cases hg : (getString i d).1 with
    | none =>
      rw [hg] at e1
      simp only [Option.isSome_none, Bool.false_eq_true, and_false, if_false, Nat.add_zero] at e1
      have := ih (i + 1) k (es ++ (getString i d).2)
      rw [allocs_append, frees_append] at this
      dsimp only
      omega
    | some name =>
      rw [hg] at e1
      simp only [Option.isSome_some, and_true] at e1
      have := ih (i + 1) (if isComPort name = true then k + 1 else k) (es ++ (getString i d).2 ++ [.free (.utf8 i)])
      simp only [allocs_append, frees_append, frees_one, allocs_free] at this
      dsimp only
      omega

theorem countLoop_keys (j : Nat) (ds : List Dev) (hd : ∀ d ∈ ds, d.Plain) (i k : Nat) (es : List Eff) :
    opens j (countLoop ds i k es).2 + closes j es = closes j (countLoop ds i k es).2 + opens j es := by
  induction ds generalizing i k es with
  | nil => unfold countLoop; exact Nat.add_comm _ _
  | cons d ds ih =>
    have ih := ih (fun d hd' => hd d (by simp [hd']))
    have e1 := getString_keys i j d (hd d (by simp))
    have f1 : opens j [.free (.utf8 i)] = 0 := by simp [opens]
    have f2 : closes j [.free (.utf8 i)] = 0 := by simp [closes]
    unfold countLoop
    dsimp only
    cases hg : (getString i d).1 with
    | none =>
      have := ih (i + 1) k (es ++ (getString i d).2)
      rw [opens_append, closes_append] at this
      dsimp only
      omega
    | some name =>
      have := ih (i + 1) (if isComPort name = true then k + 1 else k) (es ++ (getString i d).2 ++ [.free (.utf8 i)])
      simp only [opens_append, closes_append, f1, f2] at this
      dsimp only
      omega

/-- C62 (part): counting the ports gives all memory back, and closes each key as often as it is opened if names can be converted and there is memory.
Missing for the full property: keys of names that can not be converted (as `key_closed_twice`). -/
theorem number_gives_back_partial (sys : Sys) (g : Nat) : (∀ m, allocs m (getNumber sys g).2 = frees m (getNumber sys g).2) ∧
    ∀ ds, sys.list = .ok ds → (∀ d ∈ ds, d.Plain) → ∀ j, opens j (getNumber sys g).2 = closes j (getNumber sys g).2 := by
  unfold getNumber
  split
  · exact ⟨fun m => rfl, fun _ _ _ _ => rfl⟩
  · split
    · exact ⟨fun m => by simp [allocs, frees, List.countP_cons], fun _ _ _ j => by simp [opens, closes, List.countP_cons]⟩
    · cases hl : sys.list with
      | error e => exact ⟨fun m => by simp [allocs, frees, List.countP_cons], fun _ _ _ j => by simp [opens, closes, List.countP_cons]⟩
      | ok ds =>
        dsimp only
        refine ⟨fun m => ?_, fun ds' hds hp j => ?_⟩
        · have := countLoop_mem m ds 0 0 [.alloc .guids (g * GUID_SIZE), .openList]
          rw [allocs_append, frees_append]
          by_cases hg : m = .guids
          · subst hg
            simp [allocs, frees, List.countP_cons] at this ⊢
            omega
          · simp [allocs, frees, List.countP_cons, Ne.symm hg] at this ⊢
            omega
        · injection hds with hds
          subst hds
          have := countLoop_keys j ds hp 0 0 [.alloc .guids (g * GUID_SIZE), .openList]
          rw [opens_append, closes_append]
          simp [opens, closes, List.countP_cons] at this ⊢
          omega

/-- The device list is opened and destroyed this often. -/
def lists (es : List Eff) : Nat × Nat := (es.count .openList, es.count .destroyList)

theorem getString_lists (i : Nat) (d : Dev) : lists (getString i d).2 = (0, 0) := by
  unfold getString
  repeat' split
  all_goals simp [lists, List.count_cons]

theorem getProperty_lists (i : Nat) (d : Dev) : lists (getProperty i d).2 = (0, 0) := by
  unfold getProperty
  repeat' split
  all_goals simp [lists, List.count_cons]

theorem lists_append (a b : List Eff) : lists (a ++ b) = ((lists a).1 + (lists b).1, (lists a).2 + (lists b).2) := by
  simp [lists, List.count_append]

theorem lists_free (m : Mem) : lists [.free m] = (0, 0) := by simp [lists]

theorem loop_lists (n : Nat) (ds : List Dev) (i : Nat) (ports : List Port) (k : Nat) (es : List Eff)
    (r : List Port × Nat × List Eff) (h : loop n ds i ports k es = some r) : lists r.2.2 = lists es := by
  induction ds generalizing i ports k es with
  | nil => unfold loop at h; cases h; rfl
  | cons d ds ih =>
    have e1 := getString_lists i d
    have e2 := getProperty_lists i d
    have k1 : lists (es ++ (getString i d).2) = lists es := by rw [lists_append, e1]; rfl
    have k2 : lists (es ++ (getString i d).2 ++ [.free (.utf8 i)]) = lists es := by rw [lists_append, k1, lists_free]; rfl
    have k3 : lists (es ++ (getString i d).2 ++ (getProperty i d).2 ++ [.free (.utf8 i)]) = lists es := by rw [lists_append, lists_append, k1, e2, lists_free]; rfl
    unfold loop at h
    dsimp only at h
    split at h
    · rw [ih _ _ _ _ h, k1]
    · split at h
      · split at h
        · split at h
          · cases h; exact k3
          · rw [ih _ _ _ _ h, k3]
        · cases h
      · split at h
        · cases h; exact k2
        · rw [ih _ _ _ _ h, k2]

theorem countLoop_lists (ds : List Dev) (i k : Nat) (es : List Eff) : lists (countLoop ds i k es).2 = lists es := by
  induction ds generalizing i k es with
  | nil => rfl
  | cons d ds ih =>
    have e1 := getString_lists i d
    have k1 : lists (es ++ (getString i d).2) = lists es := by rw [lists_append, e1]; rfl
    have k2 : lists (es ++ (getString i d).2 ++ [.free (.utf8 i)]) = lists es := by rw [lists_append, k1, lists_free]; rfl
    unfold countLoop
    dsimp only
    split
    · rw [ih, k1]
    · rw [ih, k2]

/-- C62: the list of devices of the system is destroyed exactly if it was opened, and at most once. -/
theorem list_destroyed (sys : Sys) : (∀ ports n r, getPorts sys ports n = some r → (lists r.effs = (0, 0) ∨ lists r.effs = (1, 1))) ∧
    ∀ g, lists (getNumber sys g).2 = (0, 0) ∨ lists (getNumber sys g).2 = (1, 1) := by
  refine ⟨fun ports n r h => ?_, fun g => ?_⟩
  · unfold getPorts at h
    split at h
    · cases h; exact Or.inl rfl
    · split at h
      · cases h; exact Or.inl rfl
      · split at h
        · cases h; exact Or.inl (by simp [lists])
        · split at h
          · cases h; exact Or.inl (by simp [lists])
          · rw [Option.map_eq_some_iff] at h
            obtain ⟨x, hx, rfl⟩ := h
            right
            show lists (x.2.2 ++ _) = _
            rw [lists_append, loop_lists _ _ _ _ _ _ x hx]
            simp [lists]
  · unfold getNumber
    split
    · exact Or.inl rfl
    · split
      · exact Or.inl (by simp [lists])
      · split
        · exact Or.inl (by simp [lists])
        · right
          dsimp only
          rw [lists_append, countLoop_lists]
          simp [lists]

/-! ### Proofs: blocks of memory are large enough, and each is used for one purpose -/

/-- The device a block of memory belongs to. -/
def Mem.owner : Mem → Option Nat
  | .wide i => some i
  | .utf8 i => some i
  | .prop i => some i
  | .friendly i => some i
  | .guids => none

theorem getString_allocs (i : Nat) (d : Dev) (m : Mem) : allocs m (getString i d).2 ≤ (match m with | .wide j => if j = i then 1 else 0 | .utf8 j => if j = i then 1 else 0 | _ => 0) := by
  unfold getString
  repeat' split
  all_goals simp_all [allocs, List.countP_cons]
  all_goals (repeat' split)
  all_goals first | omega | (simp_all; done) | (intro hh; subst hh; simp_all; done) | (constructor <;> (intro hh; subst hh; simp_all); done)

theorem getProperty_allocs (i : Nat) (d : Dev) (m : Mem) : allocs m (getProperty i d).2 ≤ (match m with | .prop j => if j = i then 1 else 0 | .friendly j => if j = i then 1 else 0 | _ => 0) := by
  unfold getProperty
  repeat' split
  all_goals simp_all [allocs, List.countP_cons]
  all_goals (repeat' split)
  all_goals first | omega | (simp_all; done) | (intro hh; subst hh; simp_all; done) | (constructor <;> (intro hh; subst hh; simp_all); done)

/-- The memory of one device. -/
theorem device_allocs (i : Nat) (d : Dev) (m : Mem) : allocs m (getString i d).2 + allocs m (getProperty i d).2 ≤ if m.owner = some i then 1 else 0 := by
  have h1 := getString_allocs i d m
  have h2 := getProperty_allocs i d m
  cases m <;> simp only [Mem.owner, Option.some.injEq] at * <;> (try simp only [reduceCtorEq, if_false]) <;> omega

theorem loop_allocs (n : Nat) (m : Mem) (ds : List Dev) (i : Nat) (ports : List Port) (k : Nat) (es : List Eff)
    (r : List Port × Nat × List Eff) (h : loop n ds i ports k es = some r) : allocs m r.2.2 ≤ allocs m es + (if ∃ j, m.owner = some j ∧ i ≤ j then 1 else 0) := by
  induction ds generalizing i ports k es with
  | nil => unfold loop at h; cases h; exact Nat.le_add_right _ _
  | cons d ds ih =>
    have e1 := device_allocs i d m
    have f1 : ∀ x, allocs m [.free x] = 0 := fun x => allocs_free m x
    have split1 : (if m.owner = some i then 1 else 0) + (if ∃ j, m.owner = some j ∧ i + 1 ≤ j then 1 else 0) ≤ (if ∃ j, m.owner = some j ∧ i ≤ j then 1 else 0) := by
      cases ho : m.owner with
      | none => simp
      | some j =>
        simp only [Option.some.injEq]
        have q1 : (∃ x, some j = some x ∧ i + 1 ≤ x) ↔ i + 1 ≤ j := ⟨fun ⟨x, h1, h2⟩ => Option.some.inj h1 ▸ h2, fun h => ⟨j, rfl, h⟩⟩
        have q2 : (∃ x, some j = some x ∧ i ≤ x) ↔ i ≤ j := ⟨fun ⟨x, h1, h2⟩ => Option.some.inj h1 ▸ h2, fun h => ⟨j, rfl, h⟩⟩
        by_cases hh : i + 1 ≤ j
        · rw [if_pos (q1.2 hh), if_pos (q2.2 (by omega)), if_neg (by omega)]; exact Nat.le_refl 1
        · rw [if_neg (fun hx => hh (q1.1 hx))]
          by_cases hi : j = i
          · rw [if_pos (q2.2 (by omega)), if_pos hi]; exact Nat.le_refl 1
          · rw [if_neg hi]; exact Nat.zero_le _
    have go : ∀ ports k es', (es' = es ++ (getString i d).2 ∨ es' = es ++ (getString i d).2 ++ [.free (.utf8 i)] ∨ es' = es ++ (getString i d).2 ++ (getProperty i d).2 ++ [.free (.utf8 i)]) →
        loop n ds (i + 1) ports k es' = some r → allocs m r.2.2 ≤ allocs m es + (if ∃ j, m.owner = some j ∧ i ≤ j then 1 else 0) := by
      intro ports k es' he hl
      have := ih _ _ _ _ hl
      rcases he with rfl | rfl | rfl
      · rw [allocs_append] at this; omega
      · simp only [allocs_append, f1] at this; omega
      · simp only [allocs_append, f1] at this; omega
    unfold loop at h
    dsimp only at h
    split at h
    · exact go _ _ _ (Or.inl rfl) h
    · split at h
      · split at h
        · split at h
          · cases h
            simp only [allocs_append, f1]
            omega
          · exact go _ _ _ (Or.inr (Or.inr rfl)) h
        · cases h
      · split at h
        · cases h
          simp only [allocs_append, f1]
          omega
        · exact go _ _ _ (Or.inr (Or.inl rfl)) h

theorem countLoop_allocs (m : Mem) (ds : List Dev) (i k : Nat) (es : List Eff) : allocs m (countLoop ds i k es).2 ≤ allocs m es + (if ∃ j, m.owner = some j ∧ i ≤ j then 1 else 0) := by
  induction ds generalizing i k es with
  | nil => exact Nat.le_add_right _ _
  | cons d ds ih =>
    have e1 := device_allocs i d m
    have f1 : ∀ x, allocs m [.free x] = 0 := fun x => allocs_free m x
    have split1 : (if m.owner = some i then 1 else 0) + (if ∃ j, m.owner = some j ∧ i + 1 ≤ j then 1 else 0) ≤ (if ∃ j, m.owner = some j ∧ i ≤ j then 1 else 0) := by
      cases ho : m.owner with
      | none => simp
      | some j =>
        simp only [Option.some.injEq]
        have q1 : (∃ x, some j = some x ∧ i + 1 ≤ x) ↔ i + 1 ≤ j := ⟨fun ⟨x, h1, h2⟩ => Option.some.inj h1 ▸ h2, fun h => ⟨j, rfl, h⟩⟩
        have q2 : (∃ x, some j = some x ∧ i ≤ x) ↔ i ≤ j := ⟨fun ⟨x, h1, h2⟩ => Option.some.inj h1 ▸ h2, fun h => ⟨j, rfl, h⟩⟩
        by_cases hh : i + 1 ≤ j
        · rw [if_pos (q1.2 hh), if_pos (q2.2 (by omega)), if_neg (by omega)]; exact Nat.le_refl 1
        · rw [if_neg (fun hx => hh (q1.1 hx))]
          by_cases hi : j = i
          · rw [if_pos (q2.2 (by omega)), if_pos hi]; exact Nat.le_refl 1
          · rw [if_neg hi]; exact Nat.zero_le _
    unfold countLoop
    dsimp only
    split
    · have := ih (i + 1) k (es ++ (getString i d).2)
      rw [allocs_append] at this; omega
    · next name _ =>
      have := ih (i + 1) (if isComPort name = true then k + 1 else k) (es ++ (getString i d).2 ++ [.free (.utf8 i)])
      simp only [allocs_append, f1] at this; omega

/-- C62 (part): nothing is released twice: every block (of every device) is allocated at most once in a call, and (by `names_given_back_partial` and
`number_gives_back_partial`) released as often as it was allocated. -/
theorem released_once_partial (sys : Sys) : (∀ ports n r, getPorts sys ports n = some r → ∀ m, (∀ j, m ≠ .prop j ∧ m ≠ .friendly j) → frees m r.effs ≤ 1) ∧
    ∀ g m, frees m (getNumber sys g).2 ≤ 1 := by
  refine ⟨fun ports n r h m hm => ?_, fun g m => ?_⟩
  · rw [← names_given_back_partial sys ports n r h m hm]
    unfold getPorts at h
    split at h
    · cases h; simp [allocs]
    · split at h
      · cases h; simp [allocs]
      · split at h
        · cases h; simp [allocs, List.countP_cons]; split <;> omega
        · split at h
          · cases h; simp [allocs, List.countP_cons]; split <;> omega
          · rw [Option.map_eq_some_iff] at h
            obtain ⟨x, hx, rfl⟩ := h
            have := loop_allocs n m _ _ _ _ _ x hx
            show allocs m (x.2.2 ++ _) ≤ 1
            rw [allocs_append]
            cases m <;> simp_all [allocs, Mem.owner]
  · rw [← (number_gives_back_partial sys g).1 m]
    unfold getNumber
    split
    · simp [allocs]
    · split
      · simp [allocs, List.countP_cons]; split <;> omega
      · split
        · simp [allocs, List.countP_cons]; split <;> omega
        · next ds _ =>
          have := countLoop_allocs m ds 0 0 [.alloc .guids (g * GUID_SIZE), .openList]
          dsimp only
          rw [allocs_append]
          cases m <;> simp_all [allocs, Mem.owner]

/-- C62: the memory for a converted name has room for what the conversion announced, and the terminating NUL. -/
theorem name_memory_suffices (i : Nat) (d : Dev) (m : Mem) (size : Nat) :
    (.alloc m size ∈ (getString i d).2 → m = .wide i ∨ (m = .utf8 i ∧ d.conv < size)) ∧
      (.alloc m size ∈ (getProperty i d).2 → m = .prop i ∨ (m = .friendly i ∧ d.propConv < size)) := by
  constructor
  · unfold getString
    repeat' split
    all_goals simp
    all_goals (intro h; try (rcases h with h | h))
    all_goals simp_all
  · unfold getProperty
    repeat' split
    all_goals simp
    all_goals (intro h; try (rcases h with h | h))
    all_goals simp_all

/-! ### Non-vacuity and negations -/

/-- A device "COM7" with the friendly name "A". -/
def com7 : Dev := ⟨true, some (true, 10), true, some 10, 5, true, some [67, 79, 77, 55], 4, true, true, 2, true, some [65]⟩

/-- A device that is no serial port. -/
def lpt1 : Dev := { com7 with conv2 := some [76, 80, 84, 49] }

/-- A system with two ports. -/
def exSys : Sys := ⟨true, 0, .ok [lpt1, com7, { com7 with query := none }, { com7 with prop := false }]⟩

example : ((getPorts exSys [([], []), ([], []), ([9], [9])] 3).map fun r => (r.err, r.ports, r.detected)) =
    some (0, [([67, 79, 77, 55], [65]), ([67, 79, 77, 55], []), ([9], [9])], some 2) ∧ (getNumber exSys 3).1 = 2 := by decide

example : com7.Plain ∧ lpt1.Plain := by constructor <;> (intro _ q hq; exact ⟨rfl, fun _ => ⟨by decide, rfl, rfl⟩⟩)

/-- The memory of a friendly name, and of the property it is made from, is never given back. -/
theorem friendly_name_leaks : ∃ (sys : Sys) (r : Result), getPorts sys [([], [])] 1 = some r ∧ r.detected = some 1 ∧
    allocs (.prop 0) r.effs = 1 ∧ frees (.prop 0) r.effs = 0 ∧ allocs (.friendly 0) r.effs = 1 ∧ frees (.friendly 0) r.effs = 0 :=
  ⟨⟨true, 0, .ok [com7]⟩, _, rfl, by decide, by decide, by decide, by decide, by decide⟩

/-- A name that cannot be converted to UTF-8 (or no memory): the key is closed twice. -/
theorem key_closed_twice : ∃ (sys : Sys) (r : Result), getPorts sys [([], [])] 1 = some r ∧ opens 0 r.effs = 1 ∧ closes 0 r.effs = 2 :=
  ⟨⟨true, 0, .ok [{ com7 with conv := 0 }]⟩, _, rfl, by decide, by decide⟩

/-- Whenever the name of a device is converted, the system is told that there are twice as many bytes as there are: the size in bytes is given where the
number of (two-byte) characters is expected, so memory behind the name is read. -/
theorem name_overread (i : Nat) (d : Dev) (size : Nat) (hq : d.query = some (true, size)) (hq2 : d.query2 = some size) (ho : d.opens = true) (hm : d.wideMem = true)
    (hs : 0 < size) : ∃ b, .alloc (.wide i) size ∈ (getString i d).2 ∧ .read (.wide i) b ∈ (getString i d).2 ∧ size < b := by
  refine ⟨2 * size, ?_, ?_, by omega⟩
  · unfold getString
    simp only [ho, hq, hq2, hm, Bool.not_true, Bool.false_eq_true, if_false]
    repeat' split
    all_goals simp
  · unfold getString
    simp only [ho, hq, hq2, hm, Bool.not_true, Bool.false_eq_true, if_false]
    repeat' split
    all_goals simp

/-- The same for friendly names. -/
theorem friendly_overread (i : Nat) (d : Dev) (hm : d.propMem = true) (hp : d.prop = true) (hs : 0 < d.propSize) :
    ∃ b, .alloc (.prop i) d.propSize ∈ (getProperty i d).2 ∧ .read (.prop i) b ∈ (getProperty i d).2 ∧ d.propSize < b := by
  refine ⟨2 * d.propSize, ?_, ?_, by omega⟩
  · unfold getProperty
    simp only [hm, hp, Bool.not_true, Bool.false_eq_true, if_false, if_true]
    repeat' split
    all_goals simp
  · unfold getProperty
    simp only [hm, hp, Bool.not_true, Bool.false_eq_true, if_false, if_true]
    repeat' split
    all_goals simp

/-- Such a device. -/
example : com7.query = some (true, 10) ∧ com7.query2 = some 10 := ⟨rfl, rfl⟩

end Cio.Windows.Ports
