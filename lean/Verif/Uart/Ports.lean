import Verif.Common
/-
Finding serial ports: `cio_uart_get_number_of_uarts` and `cio_uart_get_ports`, /repo/lib/src/platform/linux/uart.c 179-254 (C62).

The file system is a parameter: the entries of the directory in the order in which readdir(3) returns them, and readlink(2) and realpath(3) as functions of
the path they are given.  Reading a string out of a buffer that holds no NUL, or writing outside of a buffer, is undefined behaviour (`none`).
-/
namespace Cio.Uart.Ports

/-! ### Model -/

/-- `DIR_NAME` without the terminating NUL, uart.c 56. -/
def DIR_NAME : List UInt8 := "/dev/serial/by-path/".toUTF8.toList

/-- `PATH_MAX`, linux/limits.h. -/
def PATH_MAX : Nat := 4096

/-- `d_type` of a directory entry. -/
inductive DType where
  | lnk
  | unknown      -- the file system does not tell
  | other
  deriving DecidableEq, Repr

/-- `struct dirent`. -/
structure Entry where
  name : List UInt8        -- `d_name`
  type : DType             -- `d_type`
  deriving DecidableEq, Repr

/-- The file system. -/
structure Fs where
  dir : Option (List Entry)                          -- `none`: opendir(3) fails
  readlink : List UInt8 → Except Err (List UInt8)    -- the target of a link
  realpath : List UInt8 → Except (Err × List UInt8) (List UInt8)   -- on failure also what is left in the buffer of the caller

/-- `strncpy(buf + off, src, n)`: `src` without its NUL. -/
def strncpy (buf : List UInt8) (off : Nat) (src : List UInt8) (n : Nat) : Option (List UInt8) :=
  if off + n ≤ buf.length then some (buf.take off ++ (src.take n ++ List.replicate (n - src.length) 0) ++ buf.drop (off + n)) else none

/-- The C string in `buf`. -/
def cstring (buf : List UInt8) : Option (List UInt8) := if 0 ∈ buf then some (buf.takeWhile (· ≠ 0)) else none

/-- Building the path in `src_buffer`, uart.c 217-221 and again 232-234. -/
def buildPath (src name : List UInt8) : Option (List UInt8) := do
  let max_copy_size := min (DIR_NAME.length + 1) src.length
  let src ← strncpy src 0 DIR_NAME max_copy_size
  let len ← (cstring src).map List.length
  strncpy src len name (src.length - len)

inductive Eff where
  | opendir
  | closedir
  deriving DecidableEq, Repr

/-- What a call of `cio_uart_get_ports` does. -/
structure Result where
  err : Err
  ports : List (List UInt8)          -- `impl.name` of the elements of the array
  detected : Option Nat              -- what was written to `*num_detected_ports`
  effs : List Eff
  deriving DecidableEq, Repr

/-- `ports[i].impl.name = path`; `none`: outside of the array. -/
def setPort (ports : List (List UInt8)) (i : Nat) (path : List UInt8) : Option (List (List UInt8)) :=
  if i < ports.length then some (ports.set i path) else none

/-- The loop of `cio_uart_get_ports`, uart.c 209-249.  `src` is `src_buffer`, whose contents are arbitrary at first. -/
def loop (fs : Fs) (n : Nat) : List Entry → List UInt8 → List (List UInt8) → Nat → Option Result
  | [], _, ports, k => some ⟨SUCCESS, ports, some k, [.opendir, .closedir]⟩
  | d :: ds, src, ports, k =>
    if k ≥ n then some ⟨SUCCESS, ports, some k, [.opendir, .closedir]⟩
    else if d.type = .lnk then
      (buildPath src d.name).bind fun src =>
      (cstring src).bind fun path =>
      match fs.readlink path with
      | .error e => some ⟨e, ports, none, [.opendir, .closedir]⟩
      | .ok dst =>
        -- `dst_buffer[name_len] = '\0'`, line 230
        if min dst.length PATH_MAX < PATH_MAX + 1 then
          (buildPath src d.name).bind fun src =>
          (cstring src).bind fun path =>
          match fs.realpath path with
          | .error (e, junk) => (setPort ports k junk).bind fun ports => some ⟨e, ports, none, [.opendir, .closedir]⟩
          | .ok real => (setPort ports k real).bind fun ports => loop fs n ds src ports (k + 1)
        else none
    else loop fs n ds src ports k

/-- `cio_uart_get_ports`, uart.c 200-254. -/
def getPorts (fs : Fs) (src : List UInt8) (ports : List (List UInt8)) (n : Nat) : Option Result :=
  match fs.dir with
  | none => some ⟨-2, ports, none, []⟩
  | some ds => loop fs n ds src ports 0

/-- `cio_uart_get_number_of_uarts`, uart.c 179-198. -/
def countLoop : List Entry → Nat → Nat
  | [], k => k
  | d :: ds, k => countLoop ds (if d.type = .lnk then k + 1 else k)

def getNumber (fs : Fs) : Nat × List Eff :=
  match fs.dir with
  | none => (0, [])
  | some ds => (countLoop ds 0, [.opendir, .closedir])

/-! ### Specification -/

/-- What a file system may answer: names have 1 to 255 bytes and no NUL (readdir(3)), real paths fit. -/
structure Fs.Ok (fs : Fs) : Prop where
  names : ∀ ds, fs.dir = some ds → ∀ d ∈ ds, 0 ∉ d.name ∧ d.name.length ≤ 255

/-- The entries that are links. -/
def links (ds : List Entry) : List Entry := ds.filter (fun d => d.type = .lnk)

/-- "/dev/serial/by-path/" -/
def byPath : List UInt8 := [47, 100, 101, 118, 47, 115, 101, 114, 105, 97, 108, 47, 98, 121, 45, 112, 97, 116, 104, 47]

/-- Where a link leads to: its real path, or the error and what is left in the array. -/
def resolve (fs : Fs) (d : Entry) : Except (Err × Option (List UInt8)) (List UInt8) :=
  match fs.readlink (byPath ++ d.name) with
  | .error e => .error (e, none)
  | .ok _ =>
    match fs.realpath (byPath ++ d.name) with
    | .error (e, junk) => .error (e, some junk)
    | .ok p => .ok p

/-- What the caller gets if `ds` are the links to be looked at: the real paths at the beginning of the array and their number, or the first error. -/
def expected (fs : Fs) : List Entry → List (List UInt8) → List (List UInt8) → Result
  | [], done, rest => ⟨SUCCESS, done ++ rest, some done.length, [.opendir, .closedir]⟩
  | d :: ds, done, rest =>
    match resolve fs d with
    | .ok p => expected fs ds (done ++ [p]) rest.tail
    | .error (e, none) => ⟨e, done ++ rest, none, [.opendir, .closedir]⟩
    | .error (e, some junk) => ⟨e, done ++ junk :: rest.tail, none, [.opendir, .closedir]⟩

/-! ### Proofs -/

theorem dir_name_eq : byPath = DIR_NAME := by decide +kernel
theorem dir_name_length : DIR_NAME.length = 20 := by decide +kernel
theorem dir_name_noNul : (0 : UInt8) ∉ DIR_NAME := by decide +kernel

theorem takeWhile_nul (s : List UInt8) (h : 0 ∉ s) (r : List UInt8) : (s ++ 0 :: r).takeWhile (· ≠ 0) = s := by
  induction s with
  | nil => simp
  | cons a s ih =>
    have ha : a ≠ 0 := fun e => h (by simp [e])
    rw [List.cons_append, List.takeWhile_cons_of_pos (by simp [ha]), ih (fun hm => h (by simp [hm]))]

theorem cstring_nul (s : List UInt8) (h : 0 ∉ s) (r : List UInt8) : cstring (s ++ 0 :: r) = some s := by
  unfold cstring
  rw [if_pos (by simp), takeWhile_nul s h r]

/-- Building the path works whatever is in the buffer before. -/
theorem buildPath_ok (src name : List UInt8) (hs : src.length = PATH_MAX + 1) (hn : 0 ∉ name) (hl : name.length ≤ 255) :
    ∃ src', buildPath src name = some src' ∧ src'.length = PATH_MAX + 1 ∧ cstring src' = some (DIR_NAME ++ name) := by
  have hs : src.length = 4097 := hs
  have hd := dir_name_length
  have e1 : strncpy src 0 DIR_NAME (min (DIR_NAME.length + 1) src.length) = some (DIR_NAME ++ 0 :: src.drop 21) := by
    unfold strncpy
    rw [hd, hs]
    rw [if_pos (by omega)]
    have : min (20 + 1) 4097 = 21 := by decide
    have ht : DIR_NAME.take 21 = DIR_NAME := List.take_of_length_le (by omega)
    rw [this, ht]
    simp
  have e2 : cstring (DIR_NAME ++ 0 :: src.drop 21) = some DIR_NAME := cstring_nul _ dir_name_noNul _
  have e3 : (DIR_NAME ++ 0 :: src.drop 21).length = 4097 := by rw [List.length_append, hd, List.length_cons, List.length_drop]; omega
  have e4 : strncpy (DIR_NAME ++ 0 :: src.drop 21) 20 name (4097 - 20) = some (DIR_NAME ++ (name ++ List.replicate (4077 - name.length) 0)) := by
    unfold strncpy
    rw [if_pos (by rw [e3]; omega)]
    have h1 : List.take 20 (DIR_NAME ++ 0 :: src.drop 21) = DIR_NAME := by rw [List.take_append_of_le_length (by omega), List.take_of_length_le (by omega)]
    have h2 : List.drop (20 + (4097 - 20)) (DIR_NAME ++ 0 :: src.drop 21) = [] := List.drop_eq_nil_of_le (by rw [e3]; omega)
    rw [h1, h2, List.take_of_length_le (by omega), List.append_nil]
  refine ⟨DIR_NAME ++ (name ++ List.replicate (4077 - name.length) 0), ?_, ?_, ?_⟩
  · unfold buildPath
    dsimp only
    rw [e1]
    show (Option.map List.length (cstring _)).bind _ = _
    rw [e2]
    show strncpy _ DIR_NAME.length name _ = _
    rw [hd, e3, e4]
  · rw [List.length_append, List.length_append, List.length_replicate, hd]; show _ = 4097; omega
  · have : 4077 - name.length = (4076 - name.length) + 1 := by omega
    rw [this, List.replicate_succ, ← List.append_assoc]
    apply cstring_nul
    rw [List.mem_append]
    rintro (h | h)
    · exact dir_name_noNul h
    · exact hn h

theorem setPort_ok (done rest : List (List UInt8)) (p : List UInt8) (h : 0 < rest.length) :
    setPort (done ++ rest) done.length p = some (done ++ p :: rest.tail) := by
  cases rest with
  | nil => cases h
  | cons r rest =>
    unfold setPort
    rw [if_pos (by simp)]
    simp

theorem loop_expected (fs : Fs) (n : Nat) (ds : List Entry) (hds : ∀ d ∈ ds, 0 ∉ d.name ∧ d.name.length ≤ 255) (src : List UInt8) (hsrc : src.length = PATH_MAX + 1)
    (done rest : List (List UInt8)) (hn : n ≤ (done ++ rest).length) :
    loop fs n ds src (done ++ rest) done.length = some (expected fs ((links ds).take (n - done.length)) done rest) := by
  induction ds generalizing src done rest with
  | nil => unfold loop links; simp [expected]
  | cons d ds ih =>
    unfold loop
    by_cases hk : done.length ≥ n
    · rw [if_pos hk]
      have : n - done.length = 0 := by omega
      rw [this, List.take_zero]
      rfl
    · rw [if_neg hk]
      by_cases hl : d.type = .lnk
      · rw [if_pos hl]
        have hlk : links (d :: ds) = d :: links ds := by unfold links; rw [List.filter_cons_of_pos (by simpa using hl)]
        rw [hlk]
        obtain ⟨k, hk'⟩ : ∃ k, n - done.length = k + 1 := ⟨n - done.length - 1, by omega⟩
        rw [hk', List.take_succ_cons]
        obtain ⟨h0, h255⟩ := hds d (by simp)
        obtain ⟨src1, b1, l1, c1⟩ := buildPath_ok src d.name hsrc h0 h255
        obtain ⟨src2, b2, l2, c2⟩ := buildPath_ok src1 d.name l1 h0 h255
        have hrest : 0 < rest.length := by rw [List.length_append] at hn; omega
        unfold expected resolve
        rw [dir_name_eq, b1, Option.bind_some, c1, Option.bind_some]
        cases hr : fs.readlink (DIR_NAME ++ d.name) with
        | error e => rfl
        | ok dst =>
          dsimp only
          rw [if_pos (by omega), b2, Option.bind_some, c2, Option.bind_some]
          cases hp : fs.realpath (DIR_NAME ++ d.name) with
          | error x =>
            obtain ⟨e, junk⟩ := x
            dsimp only
            rw [setPort_ok done rest junk hrest]
            rfl
          | ok real =>
            dsimp only
            rw [setPort_ok done rest real hrest, Option.bind_some]
            have h := ih (fun d hd => hds d (by simp [hd])) src2 l2 (done ++ [real]) rest.tail
              (by rw [List.length_append, List.length_append, List.length_tail] at *; simp; omega)
            rw [List.append_assoc, List.singleton_append, List.length_append] at h
            have e : n - (done.length + [real].length) = k := by simp; omega
            rw [e] at h
            exact h
      · rw [if_neg hl]
        have hlk : links (d :: ds) = links ds := by unfold links; rw [List.filter_cons_of_neg (by simpa using hl)]
        rw [hlk]
        exact ih (fun d hd => hds d (by simp [hd])) src hsrc done rest hn

/-- C62: `cio_uart_get_ports` does nothing undefined: the array gets the real paths of the first links of the directory, in their order, as many as fit; the rest
of the array stays as it was; their number is reported; an error is reported as such; and the directory is closed.  The contents of the local buffers before do
not matter. -/
theorem ports_exact (fs : Fs) (hok : fs.Ok) (src : List UInt8) (hsrc : src.length = PATH_MAX + 1) (ports : List (List UInt8)) (n : Nat) (hn : n ≤ ports.length)
    (ds : List Entry) (hd : fs.dir = some ds) : getPorts fs src ports n = some (expected fs ((links ds).take n) [] ports) := by
  unfold getPorts
  rw [hd]
  exact loop_expected fs n ds (hok.names ds hd) src hsrc [] ports hn

theorem expected_ok (fs : Fs) (ds : List Entry) (paths : List (List UInt8)) (h : ds.map (resolve fs) = paths.map .ok) (done rest : List (List UInt8)) :
    expected fs ds done rest = ⟨SUCCESS, done ++ paths ++ rest.drop paths.length, some (done.length + paths.length), [.opendir, .closedir]⟩ := by
  induction ds generalizing paths done rest with
  | nil =>
    cases paths with
    | nil => simp [expected]
    | cons p ps => cases h
  | cons d ds ih =>
    cases paths with
    | nil => cases h
    | cons p ps =>
      simp only [List.map_cons, List.cons.injEq] at h
      unfold expected
      rw [h.1]
      dsimp only
      rw [ih ps h.2]
      simp [Nat.add_comm, Nat.add_left_comm]

/-- C62: if all links that fit lead somewhere, the call succeeds and the array begins with their real paths. -/
theorem ports_found (fs : Fs) (hok : fs.Ok) (src : List UInt8) (hsrc : src.length = PATH_MAX + 1) (ports : List (List UInt8)) (n : Nat) (hn : n ≤ ports.length)
    (ds : List Entry) (hd : fs.dir = some ds) (paths : List (List UInt8)) (hp : ((links ds).take n).map (resolve fs) = paths.map .ok) :
    ∃ r, getPorts fs src ports n = some r ∧ r.err = SUCCESS ∧ r.ports = paths ++ ports.drop paths.length ∧ r.detected = some (min n (links ds).length) ∧
      r.effs = [.opendir, .closedir] := by
  refine ⟨_, ports_exact fs hok src hsrc ports n hn ds hd, ?_⟩
  have hlen := congrArg List.length hp
  rw [List.length_map, List.length_map, List.length_take] at hlen
  rw [expected_ok fs _ paths hp, hlen]
  refine ⟨rfl, ?_, ?_, rfl⟩
  · simp
  · simp

/-- C62: without the directory there is no port, which is reported as an error; nothing is written. -/
theorem no_directory (fs : Fs) (hd : fs.dir = none) (src : List UInt8) (ports : List (List UInt8)) (n : Nat) :
    getPorts fs src ports n = some ⟨-2, ports, none, []⟩ ∧ getNumber fs = (0, []) := by
  unfold getPorts getNumber
  rw [hd]
  exact ⟨rfl, rfl⟩

theorem countLoop_links (ds : List Entry) (k : Nat) : countLoop ds k = k + (links ds).length := by
  induction ds generalizing k with
  | nil => rfl
  | cons d ds ih =>
    unfold countLoop
    rw [ih]
    unfold links
    by_cases h : d.type = .lnk
    · rw [if_pos h, List.filter_cons_of_pos (by simpa using h), List.length_cons]; omega
    · rw [if_neg h, List.filter_cons_of_neg (by simpa using h)]

/-- C62: the number of ports: an array of `cio_uart_get_number_of_uarts` elements is filled completely and holds all ports. -/
theorem number_exact (fs : Fs) (hok : fs.Ok) (src : List UInt8) (hsrc : src.length = PATH_MAX + 1) (ports : List (List UInt8))
    (ds : List Entry) (hd : fs.dir = some ds) (hn : ports.length = (getNumber fs).1) (paths : List (List UInt8)) (hp : (links ds).map (resolve fs) = paths.map .ok) :
    (getPorts fs src ports (getNumber fs).1).map (fun r => (r.err, r.ports, r.detected)) = some (SUCCESS, paths, some (getNumber fs).1) := by
  have e : (getNumber fs).1 = (links ds).length := by unfold getNumber; rw [hd]; dsimp only; rw [countLoop_links, Nat.zero_add]
  have hlen := congrArg List.length hp
  rw [List.length_map, List.length_map] at hlen
  obtain ⟨r, h1, h2, h3, h4, _⟩ := ports_found fs hok src hsrc ports (getNumber fs).1 (by omega) ds hd paths (by rw [e, List.take_length]; exact hp)
  rw [h1, Option.map_some, h2, h3, h4, List.drop_eq_nil_of_le (by omega), List.append_nil, e, Nat.min_self]

/-- C62: every directory that is opened is closed, whatever happens. -/
theorem directory_closed (fs : Fs) (src : List UInt8) (ports : List (List UInt8)) (n : Nat) (r : Result) (h : getPorts fs src ports n = some r) :
    r.effs.count .opendir = r.effs.count .closedir ∧ (getNumber fs).2.count .opendir = (getNumber fs).2.count .closedir := by
  have key : ∀ ds src ports k r, loop fs n ds src ports k = some r → r.effs = [.opendir, .closedir] := by
    intro ds
    induction ds with
    | nil => intro src ports k r h; unfold loop at h; cases h; rfl
    | cons d ds ih =>
      intro src ports k r h
      unfold loop at h
      split at h
      · cases h; rfl
      · split at h
        · simp only [Option.bind_eq_some_iff] at h
          obtain ⟨s1, _, p1, _, h⟩ := h
          split at h
          · cases h; rfl
          · split at h
            · simp only [Option.bind_eq_some_iff] at h
              obtain ⟨s2, _, p2, _, h⟩ := h
              split at h
              · simp only [Option.bind_eq_some_iff] at h
                obtain ⟨ps, _, h⟩ := h
                cases h; rfl
              · simp only [Option.bind_eq_some_iff] at h
                obtain ⟨ps, _, h⟩ := h
                exact ih _ _ _ _ h
            · cases h
        · exact ih _ _ _ _ h
  constructor
  · unfold getPorts at h
    cases hd : fs.dir with
    | none => rw [hd] at h; cases h; rfl
    | some ds => rw [hd] at h; rw [key ds src ports 0 r h]; decide
  · unfold getNumber
    cases fs.dir with
    | none => rfl
    | some ds => dsimp only; decide

/-! ### Non-vacuity and negations -/

/-- A system with two ports; a third link leads nowhere. -/
def exFs : Fs where
  dir := some [⟨[46], .other⟩, ⟨[97], .lnk⟩, ⟨[98], .lnk⟩, ⟨[99], .lnk⟩]
  readlink := fun _ => .ok [46, 46]
  realpath := fun p => if p = byPath ++ [97] then .ok [47, 49] else if p = byPath ++ [98] then .ok [47, 50] else .error (-2, [47])

example : exFs.Ok := ⟨fun ds h => (by cases h; decide)⟩

set_option maxRecDepth 100000 in
example : (expected exFs ((links (exFs.dir.getD [])).take 2) [] [[1], [2], [3]]) = ⟨SUCCESS, [[47, 49], [47, 50], [3]], some 2, [.opendir, .closedir]⟩ ∧
    (expected exFs ((links (exFs.dir.getD [])).take 3) [] [[1], [2], [3]]) = ⟨-2, [[47, 49], [47, 50], [47]], none, [.opendir, .closedir]⟩ ∧
    (getNumber exFs).1 = 3 := by decide +kernel

/-- One link that leads nowhere, or vanishes while the directory is read, hides all ports: C62 fails for the ports found before it. -/
theorem one_dead_link_hides_all : ∃ (fs : Fs) (r : Result), fs.Ok ∧ getPorts fs (List.replicate 4097 7) [[], [], []] 3 = some r ∧ r.err = -2 ∧ r.detected = none ∧
    resolve fs ⟨[97], .lnk⟩ = .ok [47, 49] := by
  refine ⟨exFs, _, ⟨fun ds h => (by cases h; decide)⟩, ports_exact exFs ⟨fun ds h => (by cases h; decide)⟩ _ (by rw [List.length_replicate]; rfl) _ _ (by decide) _ rfl, ?_, ?_, ?_⟩
  · decide +kernel
  · decide +kernel
  · have h : exFs.realpath (byPath ++ [97]) = .ok [47, 49] := by unfold exFs; dsimp only; rw [if_pos rfl]
    unfold resolve
    rw [show exFs.readlink (byPath ++ (⟨[97], .lnk⟩ : Entry).name) = .ok [46, 46] from rfl]
    dsimp only
    rw [h]

/-- On a file system that does not tell the type of its entries no port is found. -/
theorem unknown_types_missed (fs : Fs) (ds : List Entry) (hd : fs.dir = some ds) (hu : ∀ d ∈ ds, d.type = .unknown) : (getNumber fs).1 = 0 := by
  unfold getNumber
  rw [hd]
  dsimp only
  rw [countLoop_links]
  have : links ds = [] := by
    unfold links
    rw [List.filter_eq_nil_iff]
    intro d h
    rw [hu d h]
    decide
  rw [this]; rfl

/-- Such a file system. -/
example : ∃ fs : Fs, fs.dir = some [⟨[97], .unknown⟩] ∧ fs.Ok := ⟨{ exFs with dir := some [⟨[97], .unknown⟩] }, rfl, ⟨fun ds h => (by cases h; decide)⟩⟩

end Cio.Uart.Ports
