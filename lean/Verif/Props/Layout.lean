import Verif.Proof.LayoutHandler
import Verif.Proof.LayoutQueues
import Verif.Spec.Transcript
import Verif.Spec.Exec

/-!
# Behaviour and memory layout (C71)

Both queue managers keep workers in maps ordered by the addresses of the worker objects.  With the
multi-queue manager nothing that can be observed depends on the addresses, on the wall clock or on
the sorting algorithm.  With the single-queue manager the addresses decide which idle worker gets
a job; nothing else of the memory layout can be seen.
-/

namespace Broker

variable {Q : Type} [QueueManager Q] [Carries Q] [LayoutQM Q]

theorem transcript_layout (cfg : HConfig) {env env' : Env} (he : LayoutQM.EnvR Q False env env')
    (ms : List Msg) {s s' : HState Q} (h : LayoutEq s s') :
    transcript cfg env s ms = transcript cfg env' s' ms := by
  induction ms generalizing s s' with
  | nil => rfl
  | cons m ms ih =>
    have hr := step_layout cfg he m h
    unfold transcript
    generalize step cfg env m s = r at hr
    generalize step cfg env' m s' = r' at hr
    cases hr with
    | ok ho h' => simp only [ho, ih h']
    | error e ho => simp only [ho]

theorem LayoutEq.init : LayoutEq (HState.init Q) (HState.init Q) := NamesEq.init (fun h => h) False

/-- Histories are seen as their messages' outputs. -/
theorem Run.observed {Q : Type} [QueueManager Q] {cfg : HConfig} {env : Env} {h : List (Tr Q)}
    {s : HState Q} (hr : Run cfg env h s) :
    Broker.observed Q cfg env (h.map (·.msg)) = h.map fun t => (t.outs, none) := by
  have key : ∀ ms, Broker.observed Q cfg env (h.map (·.msg) ++ ms) =
      (h.map fun t => (t.outs, none)) ++ transcript cfg env s ms := by
    induction hr with
    | nil => intro ms; rfl
    | @snoc h s m s' hr hs ih =>
      intro ms
      rw [List.map_append, List.append_assoc, ih]
      simp only [List.map_cons, List.map_nil, List.cons_append, List.nil_append, transcript, hs,
        List.map_append, List.append_assoc, Tr.outs]
  simpa [transcript] using key []

/-- **C71** (multi-queue manager).  Whatever messages arrive, two brokers with the same
    configuration emit the same messages and fail in the same way, whatever addresses their worker
    objects get, whatever times they read and however they sort. -/
theorem C71_multi (cfg : HConfig) (env env' : Env) (ms : List Msg) :
    observed Multi cfg env ms = observed Multi cfg env' ms :=
  transcript_layout cfg (Q := Multi) (env := env) (env' := env') trivial ms LayoutEq.init

/-- The full claim for the single-queue manager: the addresses of worker objects cannot be
    observed. -/
def C71_singleClaim : Prop :=
  ∀ (cfg : HConfig) (env env' : Env) (ms : List Msg), env'.clock = env.clock → env'.srt = env.srt →
    observed Single cfg env ms = observed Single cfg env' ms

/-- **C71**, single-queue manager.  Two brokers that read the same times and sort in the same way
    cannot be told apart if later worker objects get higher addresses in both of them, whatever
    the addresses are.  Missing: other orders of addresses; `C71_single_false` shows that the claim
    is false for them. -/
theorem C71_single_partial (cfg : HConfig) (env env' : Env) (ms : List Msg)
    (hclock : env'.clock = env.clock) (hsrt : env'.srt = env.srt)
    (hup : ∀ n l, ∀ a ∈ l, a < env.alloc n l) (hup' : ∀ n l, ∀ a ∈ l, a < env'.alloc n l) :
    observed Single cfg env ms = observed Single cfg env' ms :=
  transcript_layout cfg (Q := Single) (env := env) (env' := env')
    (show SameOrder False env env' from ⟨hclock, hsrt, .inl ⟨id, hup, hup'⟩⟩) ms LayoutEq.init

/-! ## Concrete cases -/

/-- The allocator hands out lower and lower addresses (the first eight). -/
def envDown : Env where
  alloc := fun n l => if 8 - n ∈ l then succMax l else 8 - n
  alloc_fresh := fun n l => by
    split
    · exact fun h => Nat.lt_irrefl _ (lt_succMax h)
    · assumption
  clock := env0.clock
  srt := env0.srt

/-- Addresses with gaps. -/
def envGaps : Env where
  alloc := fun n l => succMax l + 7 * n + 100
  alloc_fresh := fun n l h => by
    have := lt_succMax h; omega
  clock := env0.clock
  srt := env0.srt

/-- Two workers register, then a job is submitted. -/
def twoWorkersOneJob : List Msg :=
  [fromW "a" ["init", "g"], fromW "b" ["init", "g"], fromC "c" ["eval", "j", "hwgroup=g", "", "x"]]

/-- `C71_multi`: the worker that registered last gets the job, although its address is the lower
    one in one of the environments and the higher one in the other. -/
example : observed Multi cfg0 envDown twoWorkersOneJob = observed Multi cfg0 env0 twoWorkersOneJob ∧
    (observed Multi cfg0 envDown twoWorkersOneJob).map Prod.snd = [none, none, none] ∧
    ((observed Multi cfg0 envDown twoWorkersOneJob).flatMap Prod.fst).filter
      (fun m => m.key == keyWorkers) = [⟨keyWorkers, "b", ["eval", "j", "x"]⟩] :=
  ⟨C71_multi _ _ _ _, by decide +kernel, by decide +kernel⟩

/-- `C71_single_partial`: addresses with gaps. -/
example : observed Single cfg0 env0 twoWorkersOneJob = observed Single cfg0 envGaps twoWorkersOneJob ∧
    ((observed Single cfg0 envGaps twoWorkersOneJob).flatMap Prod.fst).filter
      (fun m => m.key == keyWorkers) = [⟨keyWorkers, "a", ["eval", "j", "x"]⟩] :=
  ⟨C71_single_partial _ _ _ _ rfl rfl (fun _ _ _ h => lt_succMax h)
    (fun _ _ _ h => by have := lt_succMax h; show _ < succMax _ + _ + _; omega), by decide +kernel⟩

/-- `Run.observed`. -/
example : ∃ h s, Run (Q := Multi) cfg0 envDown h s ∧ h.map (·.msg) = twoWorkersOneJob :=
  exists_run (cfg := cfg0) (env := envDown) twoWorkersOneJob (fun h _ => decide (h.map (·.msg) = twoWorkersOneJob))
    (by decide +kernel) |>.imp fun _ h => h.imp fun _ h => ⟨h.1, of_decide_eq_true h.2⟩

/-- **C71** is false of the single-queue manager: which of two idle workers gets a job depends on
    the addresses of the worker objects. -/
theorem C71_single_false : ¬ C71_singleClaim := by
  intro h
  have h1 := h cfg0 env0 envDown twoWorkersOneJob rfl rfl
  revert h1
  decide +kernel

end Broker
