import Verif.Proof.NestedBack
import Verif.Props.AnyHandlers
import Verif.Props.Notifier

/-!
# C91: answers are sent in the middle of a call
-/

namespace Broker.Reactor

variable {Q : Type} [QueueManager Q] {cfg : HConfig} {env : Env} {e : SysEnv}
  {impl : (Nat → Bool) → Msg → HState Q → Prog (HState Q)}

theorem Side.agree {evs : List (Ev HandlerRef)} {g : BSt e impl} {s : Sys Q} (h : Side evs g s) :
    Agree evs g s := by
  refine ⟨h.arrived, h.inbox, fun k => (h.sent k).symm, h.posted, h.lost, h.taken, fun hc => ?_⟩
  rcases h.cur with h | h
  · exact h.2
  · rw [hc] at h; cases h

theorem PlaceRel.halt_iff {pl : Place} {pc : Pc} (h : PlaceRel pl pc) :
    pl = .halt ↔ ∃ err, pc = .halt err := by
  cases h with
  | poll => simp
  | serve => simp
  | halt => simp

/-- **C91, nested calls.** For every program for the broker handler that does what `step` says, no
    matter at which points it passes on its messages: every execution in which each message is sent
    at once, in the middle of the call, looks from outside like an execution of the process in which
    the messages are sent after the call; in the loop the states are the same as well. -/
theorem C91_refines (hf : Faithful cfg env impl) {evs : List (Ev HandlerRef)}
    {g : St (brokerSetup e impl)} (hr : Exec (brokerSetup e impl) evs g) :
    ∃ evs' s, SRun cfg env e evs' s ∧ Agree evs g s ∧ (g.stack = [] → InLoop g s) := by
  obtain ⟨⟨evs', s, h1, h2, h3⟩, _⟩ := nested hf hr
  refine ⟨evs', s, h1, h2.agree, fun h => ?_⟩
  cases h3 with
  | idle g1 g2 g3 g4 g5 => exact ⟨g2, g4, g5, g3.halt_iff⟩
  | ok g1 => rw [g1] at h; cases h
  | fail g1 => rw [g1] at h; cases h
  | body g1 => rw [g1] at h; cases h
  | wait g1 => rw [g1] at h; cases h
  | sending g1 => rw [g1] at h; cases h
  | sent g1 => rw [g1] at h; cases h

/-- **C91, nothing is added.** Conversely, every execution of the process looks from outside like one
    with nested calls; when no messages are left to send the main thread is in its loop there. -/
theorem C91_complete (hf : Faithful cfg env impl) {evs' : List SysEv} {s : Sys Q}
    (hr : SRun cfg env e evs' s) : ∃ evs, ∃ g : St (brokerSetup e impl),
      Exec (brokerSetup e impl) evs g ∧ Agree evs g s ∧ (s.todo = [] → g.stack = [] ∧ InLoop g s) := by
  obtain ⟨evs, g, h1, h2, h3⟩ := nested_back (impl := impl) hf hr
  refine ⟨evs, g, h1, h2.agree, fun h => ?_⟩
  cases h3 with
  | idle g1 g2 g3 g4 g5 => exact ⟨g1, g2, g4, g5, g3.halt_iff⟩
  | body g1 g2 => rw [h] at g2; simp [Prog.run] at g2

/-- **C91, no re-entrance.** The broker handler is never called while it handles a message. -/
theorem C91_not_reentrant (hf : Faithful cfg env impl) {evs : List (Ev HandlerRef)}
    {g : St (brokerSetup e impl)} (hr : Exec (brokerSetup e impl) evs g) : g.reentered = false :=
  (nested hf hr).2

/-! ## Concrete programs -/

/-- A program that passes on its messages at the end. -/
def late (cfg : HConfig) (env : Env) (_ : Nat → Bool) (m : Msg) (h : HState Q) : Prog (HState Q) :=
  match step cfg env m h with
  | .ok () h' => h'.outs.foldr (fun o p => .respond h' o (fun _ => p)) (.done h')
  | .error _ h' => h'.outs.foldr (fun o p => .respond h' o (fun _ => p)) (.throw h')

/-- A program that passes on its messages while its state is still the old one. -/
def early (cfg : HConfig) (env : Env) (_ : Nat → Bool) (m : Msg) (h : HState Q) : Prog (HState Q) :=
  match step cfg env m h with
  | .ok () h' => h'.outs.foldr (fun o p => .respond h o (fun _ => p)) (.done h')
  | .error _ h' => h'.outs.foldr (fun o p => .respond h o (fun _ => p)) (.throw h')

theorem run_foldr {σ : Type} (v : σ) (p : Prog σ) (os : List Msg) (hp : p.run.1 = []) :
    (os.foldr (fun o p => .respond v o (fun _ => p)) p).run = (os, p.run.2) := by
  induction os with
  | nil => exact Prod.ext hp rfl
  | cons o os ih => simp only [List.foldr_cons, Prog.run, ih]

theorem late_faithful : Faithful (Q := Q) cfg env (late cfg env) := by
  intro x m h
  unfold late
  cases step cfg env m h with
  | ok u h' => exact run_foldr _ _ _ rfl
  | error err h' => exact run_foldr _ _ _ rfl

theorem early_faithful : Faithful (Q := Q) cfg env (early cfg env) := by
  intro x m h
  unfold early
  cases step cfg env m h with
  | ok u h' => exact run_foldr _ _ _ rfl
  | error err h' => exact run_foldr _ _ _ rfl

/-- A worker reports that a job has failed; the thread takes the notification while the broker handler
    is still in the call. -/
def nestedEvs : List (Ev HandlerRef) :=
  let mains (n : Nat) : List (Ev HandlerRef) := List.replicate n (.main (fun _ => false) none)
  [.connect .notifier, .arrive "workers" "w1" ["init", "group", "env=c"], .poll 0 0] ++ mains 8 ++
  [.arrive "clients" "c1" ["eval", "J1", "env=c", "", "x"], .poll 0 0] ++ mains 14 ++
  [.arrive "workers" "w1" ["done", "J1", "FAILED", "out of memory"], .poll 0 0] ++ mains 4 ++
  [.take .notifier (fun _ => true)]

example : ∃ g, Exec (brokerSetup (Q := Multi) senv0 (early cfg0 env0)) nestedEvs g ∧
    g.stack.length = 3 ∧ g.sent.map (fun m => (m.key, m.data.head?)) =
      [("clients", some "ack"), ("workers", some "eval"), ("clients", some "accept")] ∧
    (g.taken .notifier).map (fun m => m.data) =
      [["type", "job-status", "id", "J1", "status", "FAILED", "message", "out of memory"]] := by
  obtain ⟨g, hr, hp⟩ := exists_exec (S := brokerSetup (Q := Multi) senv0 (early cfg0 env0)) nestedEvs
    (fun g => decide (g.stack.length = 3 ∧ g.sent.map (fun m => (m.key, m.data.head?)) =
      [("clients", some "ack"), ("workers", some "eval"), ("clients", some "accept")] ∧
    (g.taken .notifier).map (fun m => m.data) =
      [["type", "job-status", "id", "J1", "status", "FAILED", "message", "out of memory"]]))
    (by decide +kernel)
  exact ⟨g, hr, of_decide_eq_true hp⟩

end Broker.Reactor
