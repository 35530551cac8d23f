import Verif.Model.Handler

/-!
# The munin plug-in (install/munin-broker)

A separate Python program that asks the broker for its statistics and prints three of them.
Python's `bytes` are strings of code points below 256 here, as everywhere.
-/

namespace Broker

/-- Exceptions the plug-in can end with. -/
inductive PyErr where
  /-- `next(it)` after the last frame (raised out of the loop) -/
  | stopIteration
  /-- a key is not in the dictionary -/
  | keyError
  /-- `decode('ascii')` of a byte from 0x80 on -/
  | unicodeDecode
  deriving DecidableEq, Repr

/-- The frames the plug-in sends (install/munin-broker:28). -/
def muninQuestion : List String := ["get-runtime-stats"]

/-- A dictionary as a list of items in the order of insertion. -/
abbrev PyDict := List (String × String)

/-- `data[k] = v`. -/
def pySet (k v : String) : PyDict → PyDict
  | [] => [(k, v)]
  | (k', v') :: t => if k' = k then (k', v) :: t else (k', v') :: pySet k v t

/-- `data[k]`. -/
def pyGet (k : String) : PyDict → Option String
  | [] => none
  | (k', v) :: t => if k' = k then some v else pyGet k t

/-- The loop that fills the dictionary (install/munin-broker:32-36). -/
def muninDict : List String → PyDict → Except PyErr (PyDict)
  | [], d => .ok d
  | [_], _ => .error .stopIteration
  | k :: v :: rest, d => muninDict rest (pySet k v d)

/-- `data[key].decode('ascii')` (install/munin-broker:38-40). -/
def muninValue (d : PyDict) (key : String) : Except PyErr String :=
  match pyGet key d with
  | none => .error .keyError
  | some v => if v.toList.all (fun c => c.toNat < 128) then .ok v else .error .unicodeDecode

/-- From the reply to the printed lines (install/munin-broker:32-40); `print` separates its
    arguments with a space. -/
def munin (reply : List String) : Except PyErr (List String) := do
  let d ← muninDict reply []
  let e ← muninValue d "evaluated-jobs"
  let f ← muninValue d "failed-jobs"
  let q ← muninValue d "queued-jobs"
  return ["evaluated.value " ++ e, "failed.value " ++ f, "queued.value " ++ q]

end Broker
