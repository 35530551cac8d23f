import Verif.Model.Notifier
import Verif.Spec.Protocol

/-!
# Decoding of `application/x-www-form-urlencoded`

What the frontend makes of the body of a request (independent of the code): the body is split at
`&`, each part at its first `=`, `+` stands for a space and `%XX` for a byte.
-/

namespace Broker.Spec

/-- The parts between the `&`. -/
def fields : List Char → List (List Char)
  | [] => [[]]
  | c :: t =>
    if c = '&' then [] :: fields t
    else match fields t with
      | [] => [[c]]
      | f :: fs => (c :: f) :: fs

/-- Value of a hexadecimal digit. -/
def hexDigit (c : Char) : Option Nat :=
  if '0' ≤ c ∧ c ≤ '9' then some (c.toNat - 48)
  else if 'a' ≤ c ∧ c ≤ 'f' then some (c.toNat - 87)
  else if 'A' ≤ c ∧ c ≤ 'F' then some (c.toNat - 55)
  else none

/-- Undo the escapes. -/
def unescape : List Char → List Char
  | [] => []
  | '+' :: t => ' ' :: unescape t
  | '%' :: a :: b :: t =>
    match hexDigit a, hexDigit b with
    | some x, some y => Char.ofNat (16 * x + y) :: unescape t
    | _, _ => '%' :: unescape (a :: b :: t)
  | c :: t => c :: unescape t

/-- Name and value of one part. -/
def field (f : List Char) : String × String :=
  (String.ofList (unescape (f.takeWhile (· ≠ '='))),
   String.ofList (unescape ((f.dropWhile (· ≠ '=')).drop 1)))

/-- The parameters in the body of a request. -/
def decodeForm (body : String) : List (String × String) :=
  if body.toList = [] then [] else (fields body.toList).map field

/-- Characters that have a meaning in the body of a request. -/
def special (c : Char) : Prop := c = '&' ∨ c = '+' ∨ c = '%' ∨ c = '\x00'

/-- A name that needs no escapes. -/
def PlainName (s : String) : Prop := ∀ c ∈ s.toList, ¬ special c ∧ c ≠ '='

/-- A value that needs no escapes. -/
def PlainValue (s : String) : Prop := ∀ c ∈ s.toList, ¬ special c

/-- The last value given for a name. -/
def lastValue (k : String) (ps : List (String × String)) : Option String :=
  ((ps.filter (fun p => p.1 == k)).getLast?).map (·.2)

/-- The requests in what the notifier did. -/
def posts (l : List NAct) : List (HttpPost × Bool) :=
  l.filterMap fun | .post r ok => some (r, ok) | .sleep _ => none

/-- The waits in what the notifier did, in seconds. -/
def waits (l : List NAct) : List Nat :=
  l.filterMap fun | .post _ _ => none | .sleep s => some s

end Broker.Spec
