import Verif.Model.Basic

/-!
# Workers, requests and the registry (src/worker.h, src/worker.cpp, src/worker_registry.cpp)
-/

namespace Broker

/-! ## Header matchers -/

/-- The matcher class hierarchy: `header_matcher` (src/worker.h:121-145),
    `multiple_string_matcher` (src/worker.cpp:14-37), `count_matcher` (src/worker.cpp:63-88).
    `count` carries `my_count_`. -/
inductive Matcher where
  | exact (v : String)
  | multi (v : String)
  | count (n : Nat)
  deriving DecidableEq, Repr

/-- The loop of `multiple_string_matcher::match` (src/worker.cpp:39-58), on the part of `value`
    from `offset` on.  `seg` collects (reversed) the characters since `offset`; reaching a
    delimiter or the end of the string compares the segment.  The loop condition
    `offset < value.size()` means that an empty remainder is never compared. -/
def multiMatchGo (v : List Char) : (seg : List Char) → (rest : List Char) → Bool
  | seg, [] => seg.reverse == v
  | seg, c :: t =>
    if c = '|' then
      if seg.reverse == v then true
      else match t with
        | [] => false
        | c' :: t' => multiMatchGo v [] (c' :: t')
    else multiMatchGo v (c :: seg) t

/-- `multiple_string_matcher::match` (src/worker.cpp:39-58). -/
def multiMatch (v value : String) : Bool :=
  match value.toList with
  | [] => false
  | c :: t => multiMatchGo v.toList [] (c :: t)

/-- Virtual `match` (src/worker.cpp:4-7, 39-58, 90-93). -/
def Matcher.run : Matcher → String → Except Exn Bool
  | .exact v, value => .ok (value == v)
  | .multi v, value => .ok (multiMatch v value)
  | .count n, value => do return decide ((← stoul value) ≤ n)

/-! ## Workers -/

/-- A `worker` object (src/worker.h:150-212).  `addr` is its address; the mutable field
    `liveness` lives in the handler state (`HState.live`); `description` is only written before
    the worker is published (src/handlers/broker_handler.cpp:236), so it is part of the record. -/
structure Worker where
  addr : Nat
  identity : String
  hwgroup : String
  /-- `headers_copy_` (src/worker.h:161) -/
  headers : Headers
  /-- `headers_` (src/worker.h:158) -/
  matchers : MMap Matcher
  description : String
  deriving DecidableEq, Repr

/-- Body of the constructor loop (src/worker.cpp:101-109): one matcher per declared header.  The
    `count_matcher` constructor converts with `std::stoul` and may throw. -/
def addMatchers : Headers → MMap Matcher → Except Exn (MMap Matcher)
  | [], m => .ok m
  | (k, v) :: t, m =>
    if k = "threads" then
      match stoul v with
      | .ok n => addMatchers t (mmEmplace k (.count n) m)
      | .error e => .error e
    else addMatchers t (mmEmplace k (.exact v) m)

/-- `worker::worker` (src/worker.cpp:95-110) at a given address, with the description that
    `process_worker_init` sets afterwards. -/
def Worker.create (addr : Nat) (identity hwgroup : String) (headers : Headers)
    (description : String) : Except Exn Worker := do
  let ms ← addMatchers headers (mmEmplace "hwgroup" (.multi hwgroup) [])
  return { addr, identity, hwgroup, headers, matchers := ms, description }

/-- Loop over a range of matchers: true as soon as one matches (src/worker.cpp:117-125). -/
def anyMatch : List Matcher → String → Except Exn Bool
  | [], _ => .ok false
  | m :: ms, value => do
    if (← m.run value) then return true else anyMatch ms value

/-- `worker::check_header` (src/worker.cpp:113-126). -/
def Worker.checkHeader (w : Worker) (header value : String) : Except Exn Bool :=
  anyMatch (mmRange header w.matchers) value

/-- `worker::check_headers` (src/worker.cpp:143-152). -/
def Worker.checkHeaders (w : Worker) : Headers → Except Exn Bool
  | [] => .ok true
  | (k, v) :: t => do
    if (← w.checkHeader k v) then w.checkHeaders t else return false

/-- `worker::headers_equal` (src/worker.cpp:129-132): equality of multimaps as sequences. -/
def Worker.headersEqual (w : Worker) (other : Headers) : Bool := other == w.headers

/-- One lower-case hexadecimal digit. -/
def hexDigit (n : Nat) : Char := Nat.digitChar n

/-- Text `ss << std::setw(2) << static_cast<unsigned int>(c)` inserts for a byte
    (src/helpers/string_to_hex.cpp:6-9).  `char` is signed on the supported platforms, so bytes
    from 0x80 on are sign-extended to 32 bits before printing. -/
def hexByte (c : Char) : List Char :=
  let b := c.toNat
  if b < 128 then [hexDigit (b / 16), hexDigit (b % 16)]
  else ['f', 'f', 'f', 'f', 'f', 'f', hexDigit (b / 16), hexDigit (b % 16)]

/-- `helpers::string_to_hex` (src/helpers/string_to_hex.cpp:3-11). -/
def stringToHex (s : String) : String := String.ofList (s.toList.flatMap hexByte)

/-- `worker::get_description` (src/worker.cpp:134-141). -/
def Worker.getDescription (w : Worker) : String :=
  if w.description = "" then stringToHex w.identity
  else stringToHex w.identity ++ " (" ++ w.description ++ ")"

/-! ## Requests -/

/-- A `request` object together with its `job_request_data` (src/worker.h:15-115).  `rid`
    identifies the object; the mutable `failure_count` lives in the handler state (`HState.fc`). -/
structure Req where
  rid : Nat
  headers : Headers
  metadata : Metadata
  /-- `job_id_` -/
  jobId : String
  /-- `data_`, the frames sent to the worker -/
  frames : List String
  /-- `complete_` -/
  complete : Bool
  deriving DecidableEq, Repr

/-- `request(headers, metadata, job_request_data(job_id, additional))`
    (src/worker.h:31-38, 103-106; src/handlers/broker_handler.cpp:150-153). -/
def Req.full (rid : Nat) (headers : Headers) (metadata : Metadata) (jobId : String)
    (additional : List String) : Req :=
  { rid, headers, metadata, jobId, frames := "eval" :: jobId :: additional, complete := true }

/-- `request(job_request_data(job_id))` (src/worker.h:44-46, 112-114): a job known only by id. -/
def Req.incomplete (rid : Nat) (jobId : String) : Req :=
  { rid, headers := [], metadata := [], jobId, frames := [], complete := false }

/-! ## Registry -/

/-- `worker_registry::remove_worker` (src/worker_registry.cpp:11-18): erases the first entry with
    this address. -/
def regRemove (w : Worker) : List Worker → List Worker
  | [] => []
  | x :: t => if x.addr = w.addr then t else x :: regRemove w t

/-- `worker_registry::find_worker_by_identity` (src/worker_registry.cpp:31-40). -/
def regFind (identity : String) (ws : List Worker) : Option Worker :=
  ws.find? (fun w => w.identity == identity)

/-- `worker_registry::find_worker` (src/worker_registry.cpp:20-29).  Not used by the broker
    itself (the queue managers do their own search). -/
def regFindHeaders (headers : Headers) : List Worker → Except Exn (Option Worker)
  | [] => .ok none
  | w :: t => do
    if (← w.checkHeaders headers) then return some w else regFindHeaders headers t

end Broker
