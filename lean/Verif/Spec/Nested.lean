import Verif.Spec.Loop
import Verif.Spec.System

/-!
# The broker as an instance of the reactor with any handlers
-/

namespace Broker.Reactor

/-- What a handler does if it is not entered again meanwhile: the messages it passes to the response
    callback, whether it ends normally, and the state of its object at the end. -/
def Prog.run {σ : Type} : Prog σ → List Msg × Bool × σ
  | .done v => ([], true, v)
  | .throw v => ([], false, v)
  | .respond v m k => (m :: (k v).run.1, (k v).run.2)

variable {Q : Type} [QueueManager Q]

/-- `impl` is a program for `broker_handler::on_request`: taken by itself it has the result given by
    `step`.  Where in the program the messages are passed on, and what the state is at these points,
    is left open. -/
def Faithful (cfg : HConfig) (env : Env)
    (impl : (Nat → Bool) → Msg → HState Q → Prog (HState Q)) : Prop :=
  ∀ x m h, (impl x m h).run = match step cfg env m h with
    | .ok () h' => (h'.outs, true, h')
    | .error _ h' => (h'.outs, false, h')

/-- The status notifier handler; the object remembers what was done. -/
def notifierObj (ncfg : NotifierConfig) : Obj where
  σ := List (Msg × List NAct)
  init := []
  onRequest x m v := match notifierOnRequest ncfg x m with
    | .ok acts => .done (v ++ [(m, acts)])
    | .error _ => .throw v

/-- The reactor as set up by `broker_connect` (src/broker_connect.cpp:13-42). -/
def brokerSetup (e : SysEnv) (impl : (Nat → Bool) → Msg → HState Q → Prog (HState Q)) :
    Setup HandlerRef where
  wiring := brokerWiring
  isAsync a := a == .notifier
  obj a := match a with
    | .broker => ⟨HState Q, HState.init Q, impl⟩
    | .notifier => notifierObj e.ncfg
  uid a := match a with
    | .broker => ""
    | .notifier => e.uid
  full a n len := match a with
    | .broker => true
    | .notifier => decide (e.room ≤ len) && e.full n

/-- The executions look the same from outside: what arrived, what waits at the sockets, what was sent
    on them, what was passed to the notifier thread and lost on the way, what it took, and, when it is
    not in a call, what it did with it. -/
structure Agree {e : SysEnv} {impl : (Nat → Bool) → Msg → HState Q → Prog (HState Q)}
    (evs : List (Ev HandlerRef)) (g : St (brokerSetup e impl)) (s : Sys Q) : Prop where
  received : ∀ k, arrivals k evs = Spec.received k s
  waiting : ∀ k, g.inbox k = s.inbox k
  sent : ∀ k, (g.sent.filter (fun m => m.key == k)).foldl Router.sendMessage Router.fresh = s.socks k
  posted : (g.posted .notifier).map (·.1) = s.posted
  lost : ((g.posted .notifier).filter (fun p => !p.2)).map (·.1) = s.lost
  taken : g.taken .notifier = s.notified.map (·.1)
  reported : (g.thr .notifier).cur = none → g.obj .notifier = s.notified

/-- The main threads are at the same place between two calls of handlers: the broker's state is the
    same, it was called with the same messages and has answered the same. -/
structure InLoop {e : SysEnv} {impl : (Nat → Bool) → Msg → HState Q → Prog (HState Q)}
    (g : St (brokerSetup e impl)) (s : Sys Q) : Prop where
  todo : s.todo = []
  asked : g.asked = s.routed
  state : g.place ≠ .halt → g.obj .broker = s.h ∧ g.calls.map (·.2) = s.calls
  halt : g.place = .halt ↔ ∃ err, s.pc = .halt err

end Broker.Reactor
