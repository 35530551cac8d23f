import Verif.Proof.Paused
import Verif.Spec.Exec
import Verif.Model.Single
import Verif.Model.Multi

/-!
# C116: a frozen broker is one nobody asks for anything
-/

namespace Broker

open QueueManager Spec

variable {Q : Type} [QueueManager Q]

/-- **C116.** Freezing the broker, and unfreezing it after the messages `l`, has the effect of
    removing all messages of clients from `l`: workers, frontend and monitor are told the same in the
    same order, the process survives or ends in the same way, and after `unfreeze` everybody is told
    the same in reply to the same messages. -/
theorem C116_pause {cfg : HConfig} {env : Env} {s : HState Q} (hs : s.frozen = false)
    {i i' : String} {f f' : List String} {l ms : List Msg}
    (hl : ∀ m ∈ l, m.key = "clients" → WhileFrozen m) :
    let a := transcript cfg env s
      (⟨"clients", i, "freeze" :: f⟩ :: (l ++ ⟨"clients", i', "unfreeze" :: f'⟩ :: ms))
    let b := transcript cfg env s (l.filter (fun m => m.key != "clients") ++ ms)
    toldOthers a = toldOthers b ∧ ending a = ending b ∧
      a.drop (l.length + 2) = b.drop (l.filter (fun m => m.key != "clients")).length := by
  have h1 : step cfg env ⟨"clients", i, "freeze" :: f⟩ s
      = .ok () { s with frozen := true, outs := [⟨"clients", i, ["ack"]⟩] } := rfl
  have h2 := transcript_outs (cfg := cfg) (env := env)
    (s := { s with frozen := true, outs := [⟨"clients", i, ["ack"]⟩] }) (s' := s.setFrozen true) rfl
  obtain ⟨i1, i2, i3⟩ := paused (cfg := cfg) (env := env) (i := i') (rest := f') (ms := ms) hs hl
  simp only [transcript, h1, h2]
  refine ⟨?_, ?_, ?_⟩
  · rw [← i1]; simp [toldOthers]
  · rw [← i2]; simp [ending]
  · rw [← i3]; simp

/-- **C116, clients.** While the broker is frozen a message of a client changes nothing; the sender,
    and nobody else, may be answered, but no request is accepted. -/
theorem C116_clients {cfg : HConfig} {env : Env} {m : Msg} {s : HState Q}
    (hk : m.key = "clients") (hm : WhileFrozen m) (hf : s.frozen = true) :
    ∃ o, step cfg env m s = .ok () { s with outs := o } ∧
      ∀ x ∈ o, x.key = "clients" ∧ x.identity = m.identity ∧ x.data ≠ ["accept"] :=
  frozen_client hk hm hf

/-- Two workers, a job, and then a pause in which a job is finished and a worker introduces itself. -/
def beforePause : List Msg :=
  [fromW "w" ["init", "g", "env=c", "threads=2"], fromC "c" ["eval", "J", "env=c", "", "x"],
   fromC "c" ["eval", "K", "env=c", "", "x"]]

/-- Messages of workers and clients, one of which would end a broker that is not frozen. -/
def duringPause : List Msg :=
  [fromC "c" ["eval", "L", "env=c", "", "x"], fromW "w" ["done", "J", "OK"],
   fromC "c" ["eval", "M", "env=c", "threads=many", "", "x"], fromC "a" ["get-runtime-stats"],
   fromC "a" ["freeze"], fromW "v" ["init", "g", "env=c"]]

/-- Requests after the pause. -/
def afterPause : List Msg :=
  [fromC "c" ["eval", "N", "env=c", "", "x"], fromW "w" ["done", "K", "OK"]]

example : ∀ m ∈ duringPause, m.key = "clients" → WhileFrozen m := by
  simp only [duringPause, List.forall_mem_cons, fromC, fromW]
  refine ⟨?_, ?_, ?_, ?_, ?_, ?_, by simp⟩ <;> intro _ <;>
    exact ⟨by simp, by simp, by simp, by simp⟩

/-- The job that is done is reported and the next one given out; requests are passed over, although
    one of them would have ended the broker had it not been frozen. -/
example : ∃ (h : List (Tr Single)) (s : HState Single), Run cfg0 env0 h s ∧ s.frozen = false ∧
    toldOthers (transcript cfg0 env0 s
      (fromC "a" ["freeze"] :: (duringPause ++ fromC "a" ["unfreeze"] :: afterPause)))
      = [⟨"status_notifier", "", ["type", "job-status", "id", "J", "status", "OK"]⟩,
         ⟨"workers", "w", ["eval", "K", "x"]⟩, ⟨"workers", "v", ["eval", "N", "x"]⟩,
         ⟨"status_notifier", "", ["type", "job-status", "id", "K", "status", "OK"]⟩] ∧
    ending (transcript cfg0 env0 s duringPause) = some (.exn .invalidArgument) := by
  obtain ⟨h, s, hr, hp⟩ := exists_run (Q := Single) (cfg := cfg0) (env := env0) beforePause
    (fun _ s => decide (s.frozen = false ∧ toldOthers (transcript cfg0 env0 s
      (fromC "a" ["freeze"] :: (duringPause ++ fromC "a" ["unfreeze"] :: afterPause)))
      = [⟨"status_notifier", "", ["type", "job-status", "id", "J", "status", "OK"]⟩,
         ⟨"workers", "w", ["eval", "K", "x"]⟩, ⟨"workers", "v", ["eval", "N", "x"]⟩,
         ⟨"status_notifier", "", ["type", "job-status", "id", "K", "status", "OK"]⟩] ∧
      ending (transcript cfg0 env0 s duringPause) = some (.exn .invalidArgument)))
    (by decide +kernel)
  exact ⟨h, s, hr, of_decide_eq_true hp⟩

/-- **C116, the condition is needed.** A request that breaks off ends a frozen broker as well. -/
theorem C116_short_needed : ∃ l : List Msg,
    ending (observed Single cfg0 env0 (fromC "a" ["freeze"] :: (l ++ [fromC "a" ["unfreeze"]])))
      ≠ ending (observed Single cfg0 env0 (l.filter (fun m => m.key != "clients"))) :=
  ⟨[fromC "c" ["eval", "J"]], by decide +kernel⟩

end Broker
