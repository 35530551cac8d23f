import Verif.Spec.Capability

/-!
# Messages of the protocol

Which messages are well-formed, and what a history says about the broker being frozen.
-/

namespace Broker.Spec

variable {Q : Type}

/-- Every `threads` frame carries a number. -/
def Numeric (fs : List String) : Prop :=
  ∀ f ∈ fs, frameKey f = "threads" → ∃ n, IsCount (frameValue f) n

/-- A well-formed evaluation request: a job id, header frames, an empty frame, anything; numbers in
    `threads` headers. -/
def WellFormedEval (data : List String) : Prop :=
  ∃ j fs, data = "eval" :: j :: fs ∧ "" ∈ fs ∧ Numeric (headerFrames fs)

/-- A client message with this command. -/
def isCommand (c : String) (m : Msg) : Bool := m.key == "clients" && m.data.head? == some c

/-- The last `freeze` or `unfreeze` command of the messages was `freeze`. -/
def frozenAfter (ms : List Msg) : Bool :=
  ms.foldl (fun b m => if isCommand "freeze" m then true
    else if isCommand "unfreeze" m then false else b) false

/-- Messages for clients among the emitted ones. -/
def toClients (os : List Msg) : List Msg := os.filter (fun o => o.key == "clients")

/-- A worker with this identity is registered. -/
def Registered (i : String) (s : HState Q) : Prop := ∃ w ∈ s.workers, w.identity = i

/-- The elapsed time in a timer message: a decimal number with optional minus sign. -/
def IsElapsed (s : String) (t : Int) : Prop :=
  ∃ ws sign ds rest : List Char, s.toList = ws ++ sign ++ ds ++ rest ∧
    (∀ c ∈ ws, blank c) ∧ (sign = [] ∨ sign = ['+'] ∨ sign = ['-']) ∧
    ds ≠ [] ∧ (∀ c ∈ ds, c.isDigit = true) ∧ (∀ c, rest.head? = some c → c.isDigit = false) ∧
    t = (if sign = ['-'] then - (decimal ds : Int) else decimal ds) ∧
    - 2 ^ 63 ≤ t ∧ t < 2 ^ 63

/-- The message reports that this much time elapsed. -/
def IsTick (m : Msg) (t : Int) : Prop :=
  m.key = "timer" ∧ ∃ f rest, m.data = f :: rest ∧ IsElapsed f t

/-- The time elapsed according to the timer messages among these messages. -/
def Elapsed : List Msg → Int → Prop
  | [], T => T = 0
  | m :: ms, T => (m.key ≠ "timer" ∧ Elapsed ms T) ∨
      ∃ t T', IsTick m t ∧ Elapsed ms T' ∧ T = t + T'

/-- Nothing but the heartbeat of workers with identity `i` (and the emitted messages) differs. -/
structure OnlyHeartbeat (i : String) (s s' : HState Q) : Prop where
  rest : s' = { s with timers := s'.timers, live := s'.live, outs := s'.outs }
  others : ∀ w ∈ s.workers, w.identity ≠ i →
    s'.timers.getD w 0 = s.timers.getD w 0 ∧ s'.live w.addr = s.live w.addr

/-- The string is a decimal numeral for the number. -/
def IsDecimal (s : String) (n : Nat) : Prop :=
  s.toList ≠ [] ∧ (∀ c ∈ s.toList, c.isDigit = true) ∧ decimal s.toList = n

/-- Alternating keys and values as pairs; a key without value at the end is dropped. -/
def pairs : List String → List (String × String)
  | k :: v :: rest => (k, v) :: pairs rest
  | _ => []

/-- The worker the broker knows under this identity (the first one registered) processes this
    request. -/
def Processing [QueueManager Q] (i : String) (w : Worker) (r : Req) (s : HState Q) : Prop :=
  s.workers.find? (fun w => w.identity == i) = some w ∧
    (QueueManager.currentRequest s.queue w).1 = some r

/-- The messages that can bring the broker down: a message without frames, an `init` with a `threads`
    header that is no number, a `done` from a registered worker that processes nothing, an `eval`
    with at most one more frame, an `eval` with a `threads` header that is no number while some
    registered worker declares `threads` and the broker is not frozen, a timer message that carries no number. -/
inductive Hazard [QueueManager Q] (m : Msg) (s : HState Q) : Prop
  | empty (hk : m.key = "workers" ∨ m.key = "clients") (hd : m.data = [])
  | init {g : String} {fs : List String} (hk : m.key = "workers") (hd : m.data = "init" :: g :: fs)
      (hn : ¬ Numeric (headerFrames fs))
  | done {w : Worker} {j st : String} {rest : List String} (hk : m.key = "workers")
      (hd : m.data = "done" :: j :: st :: rest)
      (hw : s.workers.find? (fun w => w.identity == m.identity) = some w)
      (hi : (QueueManager.currentRequest s.queue w).1 = none)
  | evalShort (hk : m.key = "clients") (hd : m.data = ["eval"] ∨ ∃ j, m.data = ["eval", j])
  | eval {j : String} {fs : List String} (hk : m.key = "clients") (hd : m.data = "eval" :: j :: fs)
      (hdel : "" ∈ fs) (hn : ¬ Numeric (headerFrames fs)) (hf : s.frozen = false)
      (hw : ∃ w ∈ s.workers, ∃ v, ("threads", v) ∈ w.headers)
  | timer (hk : m.key = "timer") (hd : ¬ ∃ t, IsTick m t)

/-- The description in an `init` message: the last `description` item after the first empty frame. -/
def describedAs (data : List String) : String :=
  ((((data.drop 2).dropWhile (· != "")).filter (fun f => frameKey f == "description")).getLast?.map
    frameValue).getD ""

/-- The notification that a known identity introduced itself with different headers. -/
def isInitConflict (m : Msg) : Bool :=
  m.key == "status_notifier" && m.data.take 2 == ["type", "error"]

end Broker.Spec
