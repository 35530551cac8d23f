/-!
# Basic vocabulary of the model: outcomes, `size_t`, strings, multimaps

Strings.  A C++ `std::string` (a byte sequence) is modelled by a Lean `String` whose characters
are the bytes (code points below 256).  Nothing below depends on the bound unless it says so.
-/

namespace Broker

/-! ## Outcomes -/

/-- Exceptions the modelled code can raise.  Nothing between the message handlers and `main`
    catches them (src/reactor/reactor.cpp:58-130, src/broker_connect.cpp:44-48,
    src/main.cpp:10-16), so any of them terminates the broker process. -/
inductive Exn where
  /-- `std::out_of_range` from `vector::at` or `std::stoul`/`std::stoll` -/
  | outOfRange
  /-- `std::invalid_argument` from `std::stoul`/`std::stoll` -/
  | invalidArgument
  deriving DecidableEq, Repr

/-- Undefined behaviour the modelled code can run into. -/
inductive UB where
  /-- a null `shared_ptr` is dereferenced -/
  | nullDeref
  /-- an iterator equal to `end()` is dereferenced or advanced -/
  | pastEnd
  /-- an uninitialised object is read -/
  | uninitialised
  deriving DecidableEq, Repr

/-- Abnormal outcomes of a step. -/
inductive Err where
  | exn (e : Exn)
  | ub (u : UB)
  deriving DecidableEq, Repr

/-! ## `std::size_t` (64 bit) -/

/-- 2^64, the modulus of `std::size_t` on the supported platforms. -/
def SZ : Nat := 18446744073709551616

/-- `x + 1` / `x += 1` on `std::size_t`. -/
def szInc (n : Nat) : Nat := (n + 1) % SZ

/-- `x - 1` / `x -= 1` on `std::size_t` (wraps at zero). -/
def szDec (n : Nat) : Nat := (n + (SZ - 1)) % SZ

/-! ## Numbers in strings -/

/-- `isspace` in the "C" locale, as used by `strtoul`/`strtoll`. -/
def isSpace (c : Char) : Bool :=
  c == ' ' || c == '\t' || c == '\n' || c == '\x0b' || c == '\x0c' || c == '\r'

/-- Optional sign and the rest, after leading white space (C `strtoul`/`strtoll`). -/
def numSign : List Char → Bool × List Char
  | '-' :: t => (true, t)
  | '+' :: t => (false, t)
  | l => (false, l)

/-- Sign and digits that `strtoul`/`strtoll` (base 10) convert; `none` if there is no number.
    The value is the magnitude. -/
def numParse (s : String) : Option (Bool × Nat) :=
  let (neg, l) := numSign (s.toList.dropWhile isSpace)
  let ds := l.takeWhile Char.isDigit
  if ds.isEmpty then none else some (neg, Nat.ofDigitChars 10 ds 0)

/-- `std::stoul` with 64-bit `unsigned long`: `invalid_argument` when no conversion is possible,
    `out_of_range` when the magnitude exceeds `ULONG_MAX`, a leading minus negates modulo 2^64,
    trailing characters are ignored.  Used at src/worker.cpp:74 and src/worker.cpp:92. -/
def stoul (s : String) : Except Exn Nat :=
  match numParse s with
  | none => .error .invalidArgument
  | some (neg, n) =>
    if SZ ≤ n then .error .outOfRange
    else if neg then .ok ((SZ - n) % SZ) else .ok n

/-- `std::stoll` with 64-bit `long long`.  Used at src/handlers/broker_handler.cpp:385. -/
def stoll (s : String) : Except Exn Int :=
  match numParse s with
  | none => .error .invalidArgument
  | some (neg, n) =>
    if neg then (if 9223372036854775808 < n then .error .outOfRange else .ok (-(n : Int)))
    else (if 9223372036854775808 ≤ n then .error .outOfRange else .ok (n : Int))

/-- `std::to_string` of an unsigned value.  Used at src/handlers/broker_handler.cpp:496, 526. -/
def natStr (n : Nat) : String := toString n

/-- `std::to_string` of a signed value.  Used at src/reactor/reactor.cpp:124. -/
def intStr : Int → String
  | .ofNat n => natStr n
  | .negSucc n => "-" ++ natStr (n + 1)

/-! ## Header frames -/

/-- Split of a header frame at the first `=`, as done by the `find`/`substr` sequences at
    src/handlers/broker_handler.cpp:119-123, 202-205 and 230-233.
    Without `=`, `find` gives `npos`, `npos + 1` wraps to 0, and both key and value become the
    whole frame. -/
def splitHeader (s : String) : String × String :=
  let l := s.toList
  match l.findIdx? (· == '=') with
  | some i => (String.ofList (l.take i), String.ofList (l.drop (i + 1)))
  | none => (s, s)

/-! ## `std::multimap` and `std::map` keyed by strings -/

/-- A `std::multimap<std::string, V>`: entries in iteration order, i.e. sorted by key, equal keys
    in insertion order. -/
abbrev MMap (V : Type) := List (String × V)

/-- `multimap::emplace`: the new entry goes to the end of the range of its key. -/
def mmEmplace {V : Type} (k : String) (v : V) : MMap V → MMap V
  | [] => [(k, v)]
  | (k', v') :: t => if k < k' then (k, v) :: (k', v') :: t else (k', v') :: mmEmplace k v t

/-- `multimap::equal_range`: the values stored under a key, in order.  For a multimap in
    iteration order this is the sub-list with that key. -/
def mmRange {V : Type} (k : String) (m : MMap V) : List V :=
  (m.filter (fun e => e.1 == k)).map (·.2)

/-- `map::emplace`: does nothing when the key is present. -/
def mapEmplace {V : Type} (k : String) (v : V) : MMap V → MMap V
  | [] => [(k, v)]
  | (k', v') :: t =>
    if k = k' then (k', v') :: t
    else if k < k' then (k, v) :: (k', v') :: t else (k', v') :: mapEmplace k v t

/-- `map::operator[](k) = v`: inserts or overwrites. -/
def mapAssign {V : Type} (k : String) (v : V) : MMap V → MMap V
  | [] => [(k, v)]
  | (k', v') :: t =>
    if k = k' then (k', v) :: t
    else if k < k' then (k, v) :: (k', v') :: t else (k', v') :: mapAssign k v t

/-- Request and worker headers: `std::multimap<std::string, std::string>` (src/worker.h:81, 161). -/
abbrev Headers := MMap String

/-- Job metadata: `std::map<std::string, std::string>` (src/worker.h:84). -/
abbrev Metadata := MMap String

end Broker
