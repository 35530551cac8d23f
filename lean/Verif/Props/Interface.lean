import Verif.Proof.QueueSim
import Verif.Spec.Calls
import Verif.Props.Rota

/-!
# C88: queue managers are interchangeable
-/

namespace Broker

open Spec

variable {Q Q' : Type} [QueueManager Q] [QueueManager Q']

/-- The queue managers give the same answers from here on. -/
def Alike (env env' : Env) (n : Nat) (q : Q) (q' : Q') : Prop :=
  ∀ cs, answers env n q cs = answers env' n q' cs

/-- Related answers to a call, and the queue managers are alike afterwards. -/
theorem Alike.call {env env' : Env} {n : Nat} {q : Q} {q' : Q'} (h : Alike env env' n q q')
    (c : Call) : SameRes (fun a b => b.1 = a.1 ∧ Alike env env' (n + c.readings) a.2 b.2)
      (answer env n q c) (answer env' n q' c) := by
  have h0 : ∀ cs, _ := fun cs => h (c :: cs)
  simp only [answers] at h0
  cases h1 : answer env n q c with
  | error e =>
    cases h2 : answer env' n q' c with
    | error e' =>
      have := h0 []
      simp only [h1, h2, List.cons.injEq, Except.error.injEq, and_true] at this
      rw [this]
      exact .error _
    | ok b =>
      have := h0 []
      simp [h1, h2] at this
  | ok a =>
    cases h2 : answer env' n q' c with
    | error e' =>
      have := h0 []
      simp [h1, h2] at this
    | ok b =>
      simp only [h1, h2, List.cons.injEq, Except.ok.injEq] at h0
      exact .ok ⟨(h0 []).1.symm, fun cs => (h0 cs).2⟩

theorem SameRes.of_map {α β γ δ : Type} {R : α → β → Prop} {S : γ → δ → Prop} {f : α → γ} {g : β → δ}
    {x : Except Exn α} {y : Except Exn β} (h : SameRes S (x.map f) (y.map g))
    (hs : ∀ a b, S (f a) (g b) → R a b) : SameRes R x y := by
  cases x with
  | error e =>
    cases y with
    | error e' => cases h; exact .error _
    | ok b => cases h
  | ok a =>
    cases y with
    | error e' => cases h
    | ok b =>
      cases h with
      | ok h => exact .ok (hs _ _ h)

theorem alike_sim {env env' : Env} (ha : env'.alloc = env.alloc)
    (h : Alike env env' 0 (QueueManager.empty : Q) (QueueManager.empty : Q')) :
    QSim (Q := Q) (Q' := Q') env env' (Alike env env') where
  alloc := ha
  empty := h
  addWorker w c h := (h.call (.add w c)).of_map fun a b h => ⟨by injection h.1, h.2⟩
  assign w h := (h.call (.assign w)).of_map fun a b h => ⟨by injection h.1, h.2⟩
  finished w h := (h.call (.finished w)).of_map fun a b h => ⟨by injection h.1, h.2⟩
  terminated w h := (h.call (.terminated w)).of_map fun a b h => ⟨by injection h.1, h.2⟩
  enqueue r h := (h.call (.enqueue r)).of_map fun a b h => ⟨by injection h.1, h.2⟩
  queued h := by
    cases h.call .count with
    | ok h => injection h.1
  current w h := by
    cases h.call (.current w) with
    | ok h => exact ⟨by injection h.1, h.2⟩
  cancelled w h := by
    cases h.call (.cancelled w) with
    | ok h => exact ⟨by injection h.1, h.2⟩

/-- **C88.** If two implementations of the queue manager interface, starting empty, answer all
    sequences of calls in the same way, then brokers with them cannot be told apart: whatever messages
    come, they send the same messages and fail in the same way. -/
theorem C88_interchangeable (cfg : HConfig) (env env' : Env) (ha : env'.alloc = env.alloc)
    (h : ∀ cs, answers env 0 (QueueManager.empty : Q) cs = answers env' 0 (QueueManager.empty : Q') cs)
    (ms : List Msg) : observed Q cfg env ms = observed Q' cfg env' ms :=
  (observed_sim (alike_sim ha h) cfg ms).symm

/-- `C88_interchangeable`: the multi-queue manager and its specification. -/
example : observed Multi cfg0 env0 fiveJobs = observed Rota cfg0 env0 fiveJobs :=
  C88_interchangeable cfg0 env0 env0 rfl (C87_calls env0) fiveJobs

/-- `C88_interchangeable`: the single-queue manager with two clocks and two sorting algorithms. -/
example : observed Single cfg0 env0 fiveJobs = observed Single cfg0 envJumps fiveJobs :=
  C88_interchangeable cfg0 env0 envJumps rfl (fun cs =>
    (C85_calls env0 env0 cs inOrder_env0 rfl).trans (C85_calls envJumps env0 cs inOrder_jumps rfl).symm)
    fiveJobs

end Broker
