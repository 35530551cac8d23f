import Verif.Proof.Clients
import Verif.Spec.Exec

/-!
# Clients do not influence what other clients are told (C105)
-/

set_option linter.unusedSectionVars false

namespace Broker

open QueueManager LawfulQM Spec

variable {Q : Type} [QueueManager Q] [LawfulQM Q]

/-- **C105.** What a client is told, apart from statistics, depends only on its own requests, on the
    messages of the timer, on which workers introduced themselves how and when they were heard of, and
    on when the broker was frozen and unfrozen: two histories, with the same or different queue
    managers, that agree about these facts in their order agree about every reply.  Other clients'
    requests and workers' reports about jobs make no difference. -/
theorem C105_told {Q' : Type} [QueueManager Q'] [LawfulQM Q'] {cfg : HConfig} {env : Env}
    {h : List (Tr Q)} {s : HState Q} {g : List (Tr Q')} {t : HState Q'} (hr : Run cfg env h s)
    (hg : Run cfg env g t) {i : String} (hf : factsFor i h = factsFor i g) :
    toldTo i h = toldTo i g := by
  rw [(told_eq hr i).2, (told_eq hg i).2, hf]

/-- **C105, which workers there are.** The same facts also determine which workers are registered, and
    whether the broker is frozen. -/
theorem C105_registered {Q' : Type} [QueueManager Q'] [LawfulQM Q'] {cfg : HConfig} {env : Env}
    {h : List (Tr Q)} {s : HState Q} {g : List (Tr Q')} {t : HState Q'} (hr : Run cfg env h s)
    (hg : Run cfg env g t) {i : String} (hf : factsFor i h = factsFor i g) :
    s.workers = t.workers ∧ s.frozen = t.frozen := by
  have : s.rs = t.rs := by rw [(told_eq hr i).1, (told_eq hg i).1, hf]
  exact ⟨congrArg RState.workers this, congrArg RState.frozen this⟩

/-- **C105, the next reply.** After two such histories the same request, of whatever client, gets the
    same replies, unless it asks for statistics. -/
theorem C105_next {Q' : Type} [QueueManager Q'] [LawfulQM Q'] {cfg : HConfig} {env : Env}
    {h : List (Tr Q)} {s s' : HState Q} {g : List (Tr Q')} {t t' : HState Q'} (hr : Run cfg env h s)
    (hg : Run cfg env g t) {i : String} (hf : factsFor i h = factsFor i g) {m : Msg}
    (hk : m.key = "clients") (hq : asksStats m = false) (hs : step cfg env m s = .ok () s')
    (ht : step cfg env m t = .ok () t') : toClients s'.outs = toClients t'.outs := by
  obtain ⟨h1, h2⟩ := C105_registered hr hg hf
  show s'.outs.filter (fun o => o.key == "clients") = t'.outs.filter (fun o => o.key == "clients")
  rw [client_reply hr hs hk hq, client_reply hg ht hk hq, h1, h2]

/-! ## Cases that meet the hypotheses -/

/-- The client `c` alone with a worker. -/
def quietDay : List Msg :=
  [fromW "w" ["init", "g", "env=c"], fromC "c" ["eval", "J", "env=c", "", "x"],
   fromC "c" ["eval", "K", "env=java", "", "x"], fromW "w" ["ping"], fromC "other" ["freeze"],
   fromC "c" ["eval", "L", "env=c", "", "x"]]

/-- The same, but other clients submit jobs, one of which the worker reports. -/
def busyDay : List Msg :=
  [fromC "other" ["eval", "A", "env=c", "", "y"], fromW "w" ["init", "g", "env=c"],
   fromC "other" ["eval", "A", "env=c", "", "y"], fromC "another" ["eval", "B", "env=c", "", "z"],
   fromC "c" ["eval", "J", "env=c", "", "x"], fromC "c" ["eval", "K", "env=java", "", "x"],
   fromC "c" ["get-runtime-stats"], fromW "w" ["done", "A", "OK"], fromC "another" ["freeze"],
   fromC "c" ["eval", "L", "env=c", "", "x"]]

/-- Two such histories, with different queue managers; the client gets six replies in each of them. -/
example : ∃ (h : List (Tr Multi)) (s : HState Multi) (g : List (Tr Single)) (t : HState Single),
    Run cfg0 env0 h s ∧ Run cfg0 env0 g t ∧ factsFor "c" h = factsFor "c" g ∧
    h.length = 6 ∧ g.length = 10 ∧ (toldTo "c" h).length = 6 := by
  obtain ⟨h, s, hr, hp⟩ := exists_run (Q := Multi) (cfg := cfg0) (env := env0) quietDay
    (fun h _ => decide (factsFor "c" h = [.hello "w" ["init", "g", "env=c"],
      .mine ["eval", "J", "env=c", "", "x"], .mine ["eval", "K", "env=java", "", "x"], .heard "w",
      .frozen true, .mine ["eval", "L", "env=c", "", "x"]] ∧ h.length = 6 ∧
      (toldTo "c" h).length = 6)) (by decide +kernel)
  obtain ⟨g, t, hg, hq⟩ := exists_run (Q := Single) (cfg := cfg0) (env := env0) busyDay
    (fun h _ => decide (factsFor "c" h = [.hello "w" ["init", "g", "env=c"],
      .mine ["eval", "J", "env=c", "", "x"], .mine ["eval", "K", "env=java", "", "x"], .heard "w",
      .frozen true, .mine ["eval", "L", "env=c", "", "x"]] ∧ h.length = 10)) (by decide +kernel)
  obtain ⟨h1, h2, h3⟩ := of_decide_eq_true hp
  obtain ⟨g1, g2⟩ := of_decide_eq_true hq
  exact ⟨h, s, g, t, hr, hg, h1.trans g1.symm, h2, g2, h3⟩

/-- The replies to a query for statistics do depend on what other clients submitted. -/
theorem C105_statistics : ∃ (h : List (Tr Multi)) (s : HState Multi) (g : List (Tr Multi))
    (t : HState Multi), Run cfg0 env0 h s ∧ Run cfg0 env0 g t ∧ factsFor "c" h = factsFor "c" g ∧
      onlyFor "c" (emitted h) ≠ [] ∧ onlyFor "c" (emitted g) ≠ [] ∧
      onlyFor "c" (emitted h) ≠ onlyFor "c" (emitted g) := by
  obtain ⟨h, s, hr, hp⟩ := exists_run (Q := Multi) (cfg := cfg0) (env := env0)
    [fromW "w" ["init", "g", "env=c"], tick "1", fromC "c" ["get-runtime-stats"]]
    (fun h _ => decide (factsFor "c" h = [.hello "w" ["init", "g", "env=c"], .time ["1"]] ∧
      onlyFor "c" (emitted h) = [⟨"clients", "c", ["evaluated-jobs", "0", "failed-jobs", "0",
        "idle-worker-count", "1", "jobs-in-progress", "0", "queued-jobs", "0",
        "worker-count", "1", "is-frozen", "0"]⟩])) (by decide +kernel)
  obtain ⟨g, t, hg, hq⟩ := exists_run (Q := Multi) (cfg := cfg0) (env := env0)
    [fromW "w" ["init", "g", "env=c"], fromC "other" ["eval", "J", "env=c", "", "x"], tick "1",
     fromC "c" ["get-runtime-stats"]]
    (fun h _ => decide (factsFor "c" h = [.hello "w" ["init", "g", "env=c"], .time ["1"]] ∧
      onlyFor "c" (emitted h) = [⟨"clients", "c", ["evaluated-jobs", "0", "failed-jobs", "0",
        "idle-worker-count", "0", "jobs-in-progress", "1", "queued-jobs", "0",
        "worker-count", "1", "is-frozen", "0"]⟩])) (by decide +kernel)
  obtain ⟨h1, h2⟩ := of_decide_eq_true hp
  obtain ⟨g1, g2⟩ := of_decide_eq_true hq
  refine ⟨h, s, g, t, hr, hg, h1.trans g1.symm, ?_, ?_, ?_⟩ <;> simp [h2, g2]

end Broker
