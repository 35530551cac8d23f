import Verif.Proof.Rest
import Verif.Props.Peer
import Verif.Props.Drain
import Verif.Props.Accounting

/-!
# Deployments come to rest, and then every job has been reported (C78)
-/

set_option linter.unusedSectionVars false

namespace Broker

open QueueManager LawfulQM Spec

variable {Q : Type} [QueueManager Q] [LawfulQM Q]

theorem Weighs.bound {cfg : HConfig} {env : Env} {mes : String → Me} {patient : Bool} (n : Nat) :
    ∀ {hist : List (Tr Q)} {d : Deployment Q}, Weighs cfg d n →
      Deployed cfg env mes patient hist d → ∀ (f : Nat → Deployment Q) (k : Nat), f 0 = d →
      (∀ m < k, ∃ l, Work cfg env mes (f m) l (f (m + 1))) → k ≤ n := by
  induction n using Nat.strongRecOn with
  | ind n ih =>
    intro hist d hw hd f k h0 hf
    cases k with
    | zero => omega
    | succ k =>
      obtain ⟨l, h1⟩ := hf 0 (by omega)
      rw [h0] at h1
      obtain ⟨n', hn, hw'⟩ := hw.work hd.run h1
      have := ih n' hn hw' (hd.step h1.dstep) (fun m => f (m + 1)) k rfl
        (fun m hm => hf (m + 1) (by omega))
      omega

/-- **C78, no endless work.** In every deployment of workers that follow the protocol, patiently or
    not, and in every situation, there is a bound on the number of steps of work: whatever the order
    in which messages arrive and jobs are finished, and whatever the results, unless something new
    happens the work comes to an end. -/
theorem C78_no_endless_work {cfg : HConfig} {env : Env} {mes : String → Me} {patient : Bool}
    {hist : List (Tr Q)} {d : Deployment Q} (h : Deployed cfg env mes patient hist d) :
    ∃ n, ∀ (f : Nat → Deployment Q) (k : Nat), f 0 = d →
      (∀ m < k, ∃ l, Work cfg env mes (f m) l (f (m + 1))) → k ≤ n := by
  obtain ⟨n, hn⟩ := h.weighs
  exact ⟨n, Weighs.bound n hn h⟩

/-- **C78, work goes on (partial).** If all workers are patient and declare numbers of threads
    properly, the work never gets stuck: unless everything is at rest, there is something to do, and
    the broker handles every message that arrives. -/
theorem C78_goes_on_partial {cfg : HConfig} {env : Env} {mes : String → Me}
    (hid : ∀ i, (mes i).identity = i) (hn : ∀ i, Numeric (mes i).headers) {hist : List (Tr Q)}
    {d : Deployment Q} (h : Deployed cfg env mes true hist d) (hne : ¬ AtRest d) :
    ∃ l d', Work cfg env mes d l d' := by
  obtain ⟨b, ps⟩ := d
  unfold AtRest at hne
  push Not at hne
  obtain ⟨i, hi⟩ := hne
  cases h1 : (ps i).inbox with
  | cons f rest => exact ⟨[], _, .own i (.read h1)⟩
  | nil =>
    cases h2 : (ps i).outbox with
    | cons x rest =>
      obtain ⟨b', hb⟩ := C76_deployment_partial hid hn h (.inr ⟨i, x, rest, h2, rfl⟩)
      exact ⟨_, _, .handle i h2 hb⟩
    | nil =>
      obtain ⟨j, hj⟩ := Option.ne_none_iff_exists'.1 (hi h1 h2)
      exact ⟨[], _, .own i (.finish hj .ok)⟩

/-- **C78, rest is reached (partial).** From every situation of a deployment of patient workers, work
    alone leads to rest. -/
theorem C78_rest_partial {cfg : HConfig} {env : Env} {mes : String → Me}
    (hid : ∀ i, (mes i).identity = i) (hn : ∀ i, Numeric (mes i).headers) {hist : List (Tr Q)}
    {d : Deployment Q} (h : Deployed cfg env mes true hist d) :
    ∃ l d', Works cfg env mes d l d' ∧ Deployed cfg env mes true (hist ++ l) d' ∧ AtRest d' := by
  obtain ⟨n, hw⟩ := h.weighs
  induction n using Nat.strongRecOn generalizing hist d with
  | ind n ih =>
    by_cases hr : AtRest d
    · exact ⟨[], d, .nil d, by rw [List.append_nil]; exact h, hr⟩
    · obtain ⟨l, d1, h1⟩ := C78_goes_on_partial hid hn h hr
      obtain ⟨n', hn', hw'⟩ := hw.work h.run h1
      obtain ⟨l', d', g1, g2, g3⟩ := ih n' hn' (h.step h1.dstep) hw'
      exact ⟨l ++ l', d', .cons h1 g1, by rw [← List.append_assoc]; exact g2, g3⟩

/-- At rest all registered workers are idle. -/
theorem rest_idle {cfg : HConfig} {env : Env} {mes : String → Me}
    (hid : ∀ i, (mes i).identity = i) {hist : List (Tr Q)}
    {d : Deployment Q} (h : Deployed cfg env mes true hist d) (hrest : AtRest d) {w : Worker}
    (hw : w ∈ d.broker.workers) : Idle d.broker w := by
  have hwd := h.world hid w.identity
  obtain ⟨r1, r2, r3⟩ := hrest w.identity
  have hreg : Registered (mes w.identity).identity d.broker := ⟨w, hw, (hid _).symm⟩
  have hb := C76_agree_partial hwd r2 r1 hreg
  have h1 := C76_once_partial hwd
  rw [hid] at hb h1
  simp only at hb h1
  unfold believes at hb
  rw [r3, Option.map_eq_some_iff] at hb
  obtain ⟨x, hx, hc⟩ := hb
  have hxw : x = w := by
    have m1 : w ∈ d.broker.workers.filter (fun y => y.identity == w.identity) :=
      List.mem_filter.2 ⟨hw, by simp⟩
    have m2 : x ∈ d.broker.workers.filter (fun y => y.identity == w.identity) :=
      List.mem_filter.2 ⟨List.mem_of_find?_eq_some hx, by simpa using List.find?_some hx⟩
    generalize d.broker.workers.filter (fun y => y.identity == w.identity) = l at h1 m1 m2
    match l with
    | [] => cases m1
    | [a] => rw [List.mem_singleton.1 m1, List.mem_singleton.1 m2]
    | a :: b :: t => simp at h1
  subst hxw
  exact Option.map_eq_none_iff.1 hc

/-- **C78, at rest everything has been reported (partial).** In a deployment of patient workers that
    is at rest, if no worker has been idle since it reported an internal error, the frontend has been
    told the result of every job as often as the broker took responsibility for it: once for every
    time a client's request was accepted, and once for every time the broker learned of the job from
    a worker it had lost sight of. -/
theorem C78_reported_partial [Conserving Q] [Draining Q] {cfg : HConfig} {env : Env}
    {mes : String → Me} (hid : ∀ i, (mes i).identity = i) {hist : List (Tr Q)} {d : Deployment Q}
    (h : Deployed cfg env mes true hist d) (hrest : AtRest d)
    (hs : ∀ w ∈ d.broker.workers, ¬ StalledByError hist w) (j : String) :
    hist.countP (Spec.accepts j) + hist.countP (Spec.adopts j) =
      (emitted hist).countP (Spec.isFinal j) := by
  have h0 : heldJobs d.broker = 0 := by
    by_contra hne
    obtain ⟨w, hw, hi⟩ := C69_someone_works h.run (fun w hw _ => hs w hw) hne
    exact hi (rest_idle hid h hrest hw)
  have := C01_job_accounting h.run j
  rw [h0] at this
  simpa using this

/-- **C78 (partial).** If patient workers never report internal errors, then once the deployment has
    come to rest the result of every accepted job has been reported. -/
theorem C78_every_job_partial [Conserving Q] [Draining Q] {cfg : HConfig} {env : Env}
    {mes : String → Me} (hid : ∀ i, (mes i).identity = i) {hist : List (Tr Q)} {d : Deployment Q}
    (h : Deployed cfg env mes true hist d) (hrest : AtRest d)
    (hs : ∀ t ∈ hist, ∀ j text, t.msg.data ≠ ["done", j, "INTERNAL_ERROR", text]) {j : String}
    {t : Tr Q} (ht : t ∈ hist) (ha : Spec.accepts j t = true) :
    ∃ o ∈ emitted hist, Spec.isFinal j o = true := by
  have := C78_reported_partial hid h hrest (by
    rintro w _ ⟨a, t, b, rfl, _, ⟨j, text, he⟩, _⟩
    exact hs t (by simp) j text he) j
  have hp : 0 < hist.countP (Spec.accepts j) := List.countP_pos_iff.2 ⟨t, ht, ha⟩
  exact List.countP_pos_iff.1 (by omega)

/-! ## Concrete deployments -/

/-- A client submits a job. -/
def dJob (j : String) : String × Act := ("", .other (fromC "c" ["eval", j, "env=c", "", "url"]))

/-- Two workers start, three jobs are submitted, both workers are busy and one job waits. -/
def busyActs : List (String × Act) :=
  [("v", .start), ("w", .start), ("v", .handle), ("w", .handle), dJob "J", dJob "K", dJob "L",
    ("v", .read), ("w", .read)]

/-- The broker loses sight of the worker `w` while it works, finds it again, and everything is
    finished. -/
def finishActs : List (String × Act) :=
  [("w", .ping), ("w", .handle), ("w", .read),
   ("", .other (tick "1001")), ("v", .ping), ("v", .handle), ("v", .read),
   ("", .other (tick "1001")), ("v", .ping), ("v", .handle), ("v", .read),
   ("", .other (tick "1001")), ("v", .ping), ("v", .handle), ("v", .read),
   ("", .other (tick "1001")), ("w", .ping), ("w", .handle), ("w", .read), ("w", .handle),
   ("v", .finish .ok), ("v", .handle), ("v", .read), ("v", .finish (.failed "x")), ("v", .handle),
   ("v", .read), ("v", .finish .ok), ("v", .handle), ("w", .finish .ok), ("w", .handle)]

/-- The worker `w` reports an internal error; the broker gives its job to `v` and `w` nothing. -/
def stallActs : List (String × Act) :=
  [("v", .finish .ok), ("v", .handle), ("w", .finish (.internal "x")), ("w", .handle), ("v", .read),
    ("v", .finish .ok), ("v", .handle)]

theorem dact_started {cfg : HConfig} {env : Env} {mes : String → Me} {patient : Bool}
    {d : Deployment Q} {r : List (Tr Q) × Deployment Q} {i k : String} {a : Act}
    (h : dact cfg env mes patient d i a = some r) (hk : k ≠ i) :
    (r.2.peers k).started = (d.peers k).started := by
  have hs := dact_step h
  have hown : (ownAct patient (d.peers i) a).map (fun p =>
      (([], ⟨d.broker, fun k => if k = i then p else d.peers k⟩) : List (Tr Q) × Deployment Q)) =
        some r → (r.2.peers k).started = (d.peers k).started := by
    intro h
    rw [Option.map_eq_some_iff] at h
    obtain ⟨p', h1, rfl⟩ := h
    simp only [if_neg hk]
  cases a with
  | handle =>
    simp only [dact] at h
    split at h
    · split at h
      · cases h; rfl
      · cases h
    · cases h
  | other m =>
    simp only [dact] at h
    split at h
    · split at h
      · cases h; rfl
      · cases h
    · cases h
  | start => exact hown h
  | read => exact hown h
  | finish o => exact hown h
  | ping => exact hown h
  | progress fs => exact hown h

theorem dacts_started {cfg : HConfig} {env : Env} {mes : String → Me} {patient : Bool} :
    ∀ {as : List (String × Act)} {r r' : List (Tr Q) × Deployment Q} {k : String},
      dacts cfg env mes patient as r = some r' → k ∉ as.map (·.1) →
      (r'.2.peers k).started = (r.2.peers k).started
  | [], r, r', k, he, _ => by cases he; rfl
  | a :: as, r, r', k, he, hk => by
    cases hw : dact cfg env mes patient r.2 a.1 a.2 with
    | none => rw [dacts, hw] at he; cases he
    | some n =>
      rw [dacts, hw] at he
      rw [dacts_started (r := (r.1 ++ n.1, n.2)) he (fun h => hk (by simp [h])),
        dact_started hw (by rintro rfl; exact hk (by simp))]

/-- A deployment at rest after some actions. -/
theorem exists_rest {cfg : HConfig} {env : Env} {mes : String → Me}
    (hid : ∀ i, (mes i).identity = i) (as : List (String × Act))
    (p : List (Tr Q) → Deployment Q → Bool)
    (hp : (dacts cfg env mes true as
      (([], ⟨HState.init Q, fun _ => {}⟩) : List (Tr Q) × Deployment Q)).any
        (fun r => p r.1 r.2 && decide (∀ i ∈ as.map (·.1), (r.2.peers i).inbox = [] ∧
          (r.2.peers i).outbox = [] ∧ (r.2.peers i).job = none)) = true) :
    ∃ h d, Deployed cfg env mes true h d ∧ AtRest d ∧ p h d = true := by
  cases he : dacts cfg env mes true as
      (([], ⟨HState.init Q, fun _ => {}⟩) : List (Tr Q) × Deployment Q) with
  | none => rw [he] at hp; cases hp
  | some r =>
    rw [he] at hp
    simp only [Option.any_some, Bool.and_eq_true, decide_eq_true_eq] at hp
    have hd := dacts_deployed (r := ([], _)) .start he
    refine ⟨r.1, r.2, hd, fun i => ?_, hp.1⟩
    by_cases hi : i ∈ as.map (·.1)
    · exact hp.2 i hi
    · obtain ⟨_, v, _, hv⟩ := (hd.world hid i).inv
      obtain ⟨h1, h2, h3, _⟩ := hv.before (dacts_started he hi)
      exact ⟨h2, h1, h3⟩

/-- Both workers are busy, one job waits: not at rest. -/
example : ∃ hist d, Deployed cfg0 env0 mes0 true hist (d : Deployment Multi) ∧
    (∀ i, (mes0 i).identity = i) ∧ (∀ i, Numeric (mes0 i).headers) ∧ ¬ AtRest d ∧
    (heldJobs d.broker).card = 3 := by
  obtain ⟨hist, d, h, hp⟩ := exists_deployment (Q := Multi) (cfg := cfg0) (env := env0) (mes := mes0)
    (patient := true) busyActs
    (fun _ d => decide ((d.peers "v").job = some "K" ∧
      (d.broker.queue.current.filterMap (fun p => p.2.map (·.jobId))).length +
        (d.broker.queue.queues.flatMap (fun p => p.2.map (·.jobId))).length = 3)) (by decide +kernel)
  obtain ⟨h1, h2⟩ := of_decide_eq_true hp
  refine ⟨hist, d, h, fun _ => rfl, fun _ => me0_numeric, ?_, ?_⟩
  · intro hr
    have := (hr "v").2.2
    rw [h1] at this
    cases this
  · rw [heldJobs_multi, Multiset.card_add, Multiset.coe_card, Multiset.coe_card]
    exact h2

/-- At rest although the broker lost sight of a worker in between; the job of that worker was done
    twice and is reported twice. -/
example : ∃ hist d, Deployed cfg0 env0 mes0 true hist (d : Deployment Multi) ∧ AtRest d ∧
    (∀ i, (mes0 i).identity = i) ∧
    (∀ t ∈ hist, ∀ j text, t.msg.data ≠ ["done", j, "INTERNAL_ERROR", text]) ∧
    hist.countP (Spec.accepts "J") = 1 ∧ hist.countP (Spec.adopts "J") = 1 ∧
    hist.countP (Spec.accepts "L") = 1 ∧ hist.countP (Spec.adopts "L") = 0 := by
  obtain ⟨hist, d, h, hr, hp⟩ := exists_rest (Q := Multi) (cfg := cfg0) (env := env0) (mes := mes0)
    (fun _ => rfl) (busyActs ++ finishActs)
    (fun hist _ => hist.all (fun t => !(t.msg.data.contains "INTERNAL_ERROR")) &&
      decide (hist.countP (Spec.accepts "J") = 1 ∧ hist.countP (Spec.adopts "J") = 1 ∧
      hist.countP (Spec.accepts "L") = 1 ∧ hist.countP (Spec.adopts "L") = 0)) (by decide +kernel)
  simp only [Bool.and_eq_true, decide_eq_true_eq, List.all_eq_true] at hp
  refine ⟨hist, d, h, hr, fun _ => rfl, fun t ht j text he => ?_, hp.2⟩
  have := hp.1 t ht
  rw [he] at this
  simp at this

/-- **C78 is false in general:** after an internal error the deployment may come to rest while a job
    waits that both idle workers could do. -/
theorem C78_refuted : ∃ (hist : List (Tr Multi)) (d : Deployment Multi),
    Deployed cfg0 env0 mes0 true hist d ∧ AtRest d ∧ hist.countP (Spec.accepts "L") = 1 ∧
      (emitted hist).countP (Spec.isFinal "L") = 0 := by
  obtain ⟨hist, d, h, hr, hp⟩ := exists_rest (Q := Multi) (cfg := cfg0) (env := env0) (mes := mes0)
    (fun _ => rfl) (busyActs ++ stallActs)
    (fun hist _ => decide (hist.countP (Spec.accepts "L") = 1 ∧
      (emitted hist).countP (Spec.isFinal "L") = 0)) (by decide +kernel)
  exact ⟨hist, d, h, hr, of_decide_eq_true hp⟩

end Broker
