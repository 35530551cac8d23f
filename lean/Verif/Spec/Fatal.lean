import Verif.Spec.Protocol

/-!
# The end of the broker

Exactly which messages the broker does not survive, what happens then, and what it still sends.
-/

namespace Broker.Spec

variable {Q : Type}

/-- The string starts, after white space and an optional sign, with this decimal number. -/
def StartsWith (v : String) (negative : Prop) (n : Nat) : Prop :=
  ∃ ws sign ds rest : List Char, v.toList = ws ++ sign ++ ds ++ rest ∧
    (∀ c ∈ ws, blank c) ∧ (sign = [] ∨ sign = ['+'] ∨ sign = ['-']) ∧
    ds ≠ [] ∧ (∀ c ∈ ds, c.isDigit = true) ∧ (∀ c, rest.head? = some c → c.isDigit = false) ∧
    decimal ds = n ∧ (negative ↔ sign = ['-'])

/-- The value of a `threads` header is no number, or too large; with the exception the C++ library
    throws then. -/
inductive BadCount (v : String) : Exn → Prop
  | noNumber (h : ∀ neg n, ¬ StartsWith v neg n) : BadCount v .invalidArgument
  | tooLarge {neg : Prop} {n : Nat} (h : StartsWith v neg n) (hn : 2 ^ 64 ≤ n) :
    BadCount v .outOfRange

/-- The frame of a timer message is no number, or too large. -/
inductive BadElapsed (v : String) : Exn → Prop
  | noNumber (h : ∀ neg n, ¬ StartsWith v neg n) : BadElapsed v .invalidArgument
  | tooLarge {n : Nat} (h : StartsWith v False n) (hn : 2 ^ 63 ≤ n) : BadElapsed v .outOfRange
  | tooSmall {n : Nat} (h : StartsWith v True n) (hn : 2 ^ 63 < n) : BadElapsed v .outOfRange

/-- The first of the values that is not a number. -/
def FirstBad (vs : List String) (x : Exn) : Prop :=
  ∃ pre v post, vs = pre ++ v :: post ∧ (∀ u ∈ pre, ∃ n, IsCount u n) ∧ BadCount v x

/-- The worker satisfies this header. -/
def Offers (w : Worker) (k v : String) : Prop :=
  (k = "hwgroup" ∧ IsAlternative w.hwgroup v) ∨
  (k = "threads" ∧ ∃ d, ("threads", d) ∈ w.headers ∧
    ∃ wanted offered, IsCount v wanted ∧ IsCount d offered ∧ wanted ≤ offered) ∨
  (k ≠ "threads" ∧ (k, v) ∈ w.headers)

/-- The comparison of the header frames with this worker comes to a `threads` header that is not a
    number: the worker declares `threads`, satisfies all headers with a name before `threads` in the
    alphabet, and all `threads` headers before that one. -/
structure Stumbles (w : Worker) (fs : List String) (x : Exn) : Prop where
  declares : ∃ d, ("threads", d) ∈ w.headers
  before : ∀ f ∈ headerFrames fs, isMeta f = false → frameKey f < "threads" →
    Offers w (frameKey f) (frameValue f)
  first : ∃ pre v post, declared "threads" fs = pre ++ v :: post ∧
    (∀ u ∈ pre, Offers w "threads" u) ∧ BadCount v x

/-- The messages the broker does not survive, with what happens: an uncaught exception or undefined
    behaviour. -/
inductive Fatal [QueueManager Q] (m : Msg) (s : HState Q) : Err → Prop
  | empty (hk : m.key = "workers" ∨ m.key = "clients") (hd : m.data = []) :
    Fatal m s (.exn .outOfRange)
  | init {g : String} {fs : List String} {x : Exn} (hk : m.key = "workers")
      (hd : m.data = "init" :: g :: fs) (hx : FirstBad (declared "threads" fs) x) :
    Fatal m s (.exn x)
  | done {w : Worker} {j st : String} {rest : List String} (hk : m.key = "workers")
      (hd : m.data = "done" :: j :: st :: rest)
      (hw : s.workers.find? (fun w => w.identity == m.identity) = some w)
      (hi : (QueueManager.currentRequest s.queue w).1 = none) : Fatal m s (.ub .nullDeref)
  | evalAlone (hk : m.key = "clients") (hd : m.data = ["eval"]) : Fatal m s (.exn .outOfRange)
  | evalShort {j : String} (hk : m.key = "clients") (hd : m.data = ["eval", j]) :
    Fatal m s (.ub .pastEnd)
  | eval {j : String} {fs : List String} {x : Exn} {w : Worker} (hk : m.key = "clients")
      (hd : m.data = "eval" :: j :: fs) (hdel : "" ∈ fs) (hf : s.frozen = false)
      (hw : w ∈ s.workers) (hx : Stumbles w fs x) : Fatal m s (.exn x)
  | timerEmpty (hk : m.key = "timer") (hd : m.data = []) : Fatal m s (.ub .pastEnd)
  | timer {f : String} {rest : List String} {x : Exn} (hk : m.key = "timer")
      (hd : m.data = f :: rest) (hx : BadElapsed f x) : Fatal m s (.exn x)

/-- What is sent while a fatal message is handled: an `eval` is acknowledged first; an `init` under a
    known identity is reported to the frontend first. -/
def lastWords (m : Msg) (s : HState Q) : List Msg :=
  if m.key = "clients" ∧ m.data.head? = some "eval" then [⟨"clients", m.identity, ["ack"]⟩]
  else if m.key = "workers" ∧ m.data.head? = some "init" then
    (s.workers.find? (fun w => w.identity == m.identity)).toList.map fun w =>
      ⟨"status_notifier", "", ["type", "error", "message",
        "Received two different INIT messages from the same worker (" ++ w.getDescription ++ ")"]⟩
  else []

end Broker.Spec
