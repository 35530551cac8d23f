import Verif.Spec.Run

/-!
# What it means that a worker can process a request

Stated on the frames of the messages: the header frames of an `eval` message and the hardware group
and header frames of an `init` message.  Nothing here refers to the matcher objects of the code.
-/

namespace Broker.Spec

/-- `alt` is one of the alternatives separated by `|` in `value`; an empty alternative at the end
    does not count. -/
def IsAlternative (alt value : String) : Prop :=
  '|' ∉ alt.toList ∧
  ∃ pre post : List Char, value.toList = pre ++ alt.toList ++ post ∧
    (pre = [] ∨ ∃ p, pre = p ++ ['|']) ∧ (post = [] ∨ ∃ p, post = '|' :: p) ∧
    (alt.toList ≠ [] ∨ post ≠ [])

/-- Value of a string of decimal digits, most significant first. -/
def decimal (ds : List Char) : Nat := ds.foldl (fun n c => 10 * n + (c.toNat - 48)) 0

/-- White space of the "C" locale. -/
def blank (c : Char) : Prop := c ∈ [' ', '\t', '\n', '\x0b', '\x0c', '\r']

/-- The string starts, after white space and an optional sign, with a decimal number below 2^64; a
    minus sign negates modulo 2^64; anything may follow the number.  (The C conversion rules.) -/
def IsCount (s : String) (n : Nat) : Prop :=
  ∃ ws sign ds rest : List Char, s.toList = ws ++ sign ++ ds ++ rest ∧
    (∀ c ∈ ws, blank c) ∧ (sign = [] ∨ sign = ['+'] ∨ sign = ['-']) ∧
    ds ≠ [] ∧ (∀ c ∈ ds, c.isDigit = true) ∧ (∀ c, rest.head? = some c → c.isDigit = false) ∧
    decimal ds < 2 ^ 64 ∧ n = if sign = ['-'] then (2 ^ 64 - decimal ds) % 2 ^ 64 else decimal ds

/-- The frame is metadata and does not take part in routing. -/
def isMeta (f : String) : Bool := (frameKey f).toList.take 5 == ['m', 'e', 't', 'a', '.']

/-- A worker with this hardware group and these declared header frames satisfies a header. -/
def Satisfies (hwgroup : String) (declared : List String) (k v : String) : Prop :=
  (k = "hwgroup" ∧ IsAlternative hwgroup v) ∨
  (k = "threads" ∧ ∃ d ∈ declared, frameKey d = "threads" ∧
    ∃ wanted offered, IsCount v wanted ∧ IsCount (frameValue d) offered ∧ wanted ≤ offered) ∨
  (k ≠ "threads" ∧ ∃ d ∈ declared, frameKey d = k ∧ frameValue d = v)

/-- A worker with this hardware group and these declared header frames satisfies all header frames
    of a request. -/
def Capable (hwgroup : String) (declared : List String) (wanted : List String) : Prop :=
  ∀ f ∈ wanted, isMeta f = false → Satisfies hwgroup declared (frameKey f) (frameValue f)

/-- The frames before the first empty one. -/
def headerFrames (fs : List String) : List String := fs.takeWhile (· != "")

/-- The frames after the first empty one. -/
def payloadFrames (fs : List String) : List String := (fs.dropWhile (· != "")).tail

/-- Values declared under a name, in order. -/
def declared (k : String) (fs : List String) : List String :=
  ((headerFrames fs).filter (fun f => frameKey f == k)).map frameValue

end Broker.Spec
