import Verif.HttpLocation.Props
import Verif.HttpLife.Model
/-
Model of /repo/lib/src/http_location_handler.c (complete) and of `on_url`, `call_url_parts_callback`, `path_in_url` and `data_callback` of
/repo/lib/src/http_server.c 399-406, 458-556: which location is asked for a handler, and which callbacks of the handler are called for the URL of a request.

Simplifications: `http_parser_parse_url` (not in the repository) is an input, the `struct http_parser_url` it fills in; callbacks are user code, given by a
function of everything they were called with so far (so they may behave differently every time); a callback may call `cio_http_client_write_response`, which
sets `response_fired` (see HttpLife for what the response does).
-/
namespace Cio.HttpUrl

/-- The callbacks for a URL. -/
inductive Name where
  | schema | host | port | path | query | fragment | url
deriving DecidableEq, Repr

/-- `struct cio_http_location_handler`, http_location_handler.h 90-171: which function pointers are not NULL. -/
structure Handler where
  onUrl : Bool
  onSchema : Bool
  onHost : Bool
  onPort : Bool
  onPath : Bool
  onQuery : Bool
  onFragment : Bool
  onHeaderFieldName : Bool
  onHeaderFieldValue : Bool
  onHeadersComplete : Bool
  onBody : Bool
  onMessageComplete : Bool
  free : Bool
deriving DecidableEq, Repr

/-- `cio_http_location_handler_init`, http_location_handler.c 34-49; the handler is memory with any content. -/
def handlerInit (_ : Handler) : Handler :=
  { onUrl := false, onPort := false, onSchema := false, onHost := false, onPath := false, onQuery := false, onFragment := false,
    onHeaderFieldName := false, onHeaderFieldValue := false, onHeadersComplete := false, onBody := false, onMessageComplete := false, free := false }

/-- `cio_http_location_handler_no_callbacks`, http_location_handler.c 51-69. -/
def noCallbacks (h : Handler) : Bool :=
  if h.onUrl || h.onHeadersComplete || h.onMessageComplete || h.onHeaderFieldName || h.onHeaderFieldValue || h.onBody || h.onPort || h.onHost || h.onPath ||
     h.onQuery || h.onSchema || h.onFragment then false
  else true

/-- `enum http_parser_url_fields` of http_parser. -/
def UF_SCHEMA : Nat := 0
def UF_HOST : Nat := 1
def UF_PORT : Nat := 2
def UF_PATH : Nat := 3
def UF_QUERY : Nat := 4
def UF_FRAGMENT : Nat := 5

/-- `struct http_parser_url` of http_parser. -/
structure Parsed where
  fieldSet : Nat
  off : Nat → Nat
  len : Nat → Nat

/-- A callback was called with these bytes. -/
structure Call where
  name : Name
  data : List UInt8
deriving DecidableEq, Repr

/-- What a callback does when it is called, given all calls up to this one: does it write a response, and what does it return. -/
def User := List Call → Bool × HttpLife.Ret

/-- What is changed on the way: `response_fired`, and the calls made, oldest first. -/
structure St where
  fired : Bool
  calls : List Call

/-- `data_callback`, http_server.c 399-406; `set`: the function pointer is not NULL. -/
def dataCallback (user : User) (st : St) (name : Name) (set : Bool) (data : List UInt8) : St × HttpLife.Ret :=
  if !st.fired && set then
    let calls := st.calls ++ [⟨name, data⟩]
    ({ fired := (user calls).1, calls := calls }, (user calls).2)
  else (st, .success)

/-- `len` bytes at `at + off`. -/
def slice (target : List UInt8) (off len : Nat) : List UInt8 := (target.drop off).take len

/-- `(url->field_set & (1U << f)) == (1U << f)`, http_server.c 460, 469. -/
def hasField (u : Parsed) (f : Nat) : Bool := (u.fieldSet &&& (1 <<< f)) == (1 <<< f)

/-- `call_url_parts_callback`, http_server.c 458-465. -/
def callPart (user : User) (target : List UInt8) (u : Parsed) (f : Nat) (name : Name) (set : Bool) (st : St) : St × HttpLife.Ret :=
  if hasField u f then dataCallback user st name set (slice target (u.off f) (u.len f)) else (st, .success)

/-- The callbacks for the parts of the URL, http_server.c 518-546: the first one that returns an error ends `on_url` with -1 (`none`). -/
def callParts (user : User) (target : List UInt8) (u : Parsed) : List (Nat × Name × Bool) → St → St × Bool
  | [], st => (st, true)
  | (f, name, set) :: l, st =>
    match callPart user target u f name set st with
    | (st, .error) => (st, false)
    | (st, _) => callParts user target u l st

/-- The order of http_server.c 518-546. -/
def parts (h : Handler) : List (Nat × Name × Bool) :=
  [(UF_SCHEMA, .schema, h.onSchema), (UF_HOST, .host, h.onHost), (UF_PORT, .port, h.onPort), (UF_PATH, .path, h.onPath), (UF_QUERY, .query, h.onQuery),
   (UF_FRAGMENT, .fragment, h.onFragment)]

/-- What comes out of `on_url`: how far it came, the location that was asked for a handler, the calls made, whether a response was fired by one of them, and
whether it returned 0. -/
structure Outcome where
  kind : HttpLife.Url
  location : Option Nat
  calls : List Call
  fired : Bool
  ok : Bool

/-- `on_url`, http_server.c 472-556, for a request that no response was fired for before.  `parsed`: `http_parser_parse_url` was successful; `alloc`: what
`alloc_handler` of a location returns.  `none` is undefined behaviour in the search for the location. -/
def onUrl (s : HttpLocation.Server) (alloc : Nat → Option Handler) (user : User) (target : List UInt8) (parsed : Option Parsed) : Option Outcome :=
  match parsed with
  | none => some ⟨.bad, none, [], false, false⟩
  | some u =>
    if !hasField u UF_PATH then some ⟨.bad, none, [], false, false⟩
    else match HttpLocation.route s (slice target (u.off UF_PATH) (u.len UF_PATH)) with
    | none => none
    | some .notFound => some ⟨.noLocation, none, [], true, true⟩
    | some (.handler l) =>
      match alloc l with
      | none => some ⟨.noHandler, some l, [], true, true⟩
      | some h =>
        if !h.free then some ⟨.noFree, some l, [], true, true⟩
        else if noCallbacks h then some ⟨.noCallbacks, some l, [], true, true⟩
        else match callParts user target u (parts h) ⟨false, []⟩ with
        | (st, false) => some ⟨.ok, some l, st.calls, st.fired, false⟩
        | (st, true) =>
          if h.onUrl && !st.fired then
            let (st, r) := dataCallback user st .url h.onUrl target
            some ⟨.ok, some l, st.calls, st.fired, decide (r = .success)⟩
          else some ⟨.ok, some l, st.calls, st.fired, true⟩

end Cio.HttpUrl
