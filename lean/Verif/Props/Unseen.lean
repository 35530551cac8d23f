import Verif.Proof.Skip
import Verif.Props.Fifo
import Verif.Props.Layout
import Verif.Props.Matching

/-!
# C86: rejected requests and queries leave no trace
-/

namespace Broker

namespace Spec

/-- A message of a client and what the broker sent because of it: a query, an unknown or malformed
    command, or a request that was not accepted. -/
def Refused (m : Msg) (outs : List Msg) : Prop :=
  m.key = "clients" ∧ m.data.head? ≠ some "freeze" ∧ m.data.head? ≠ some "unfreeze" ∧
    (⟨"clients", m.identity, ["accept"]⟩ : Msg) ∉ outs

instance (m : Msg) (outs : List Msg) : Decidable (Refused m outs) := by
  unfold Refused; exact inferInstance

/-- The other messages of a history. -/
def others {Q : Type} (h : List (Tr Q)) : List (Tr Q) := h.filter fun t => ¬ Refused t.msg t.outs

end Spec

/-! ## One message -/

section
variable {Q : Type} [QueueManager Q] [BareQM Q] [LawfulQM Q] [RejectQM Q]

/-- After a refused message the broker goes on as it would have without it, or as it would have with
    a clock that is one reading further. -/
theorem refused_later {cfg : HConfig} {env env' : Env} (he : BareQM.okSort Q env'.srt)
    {h : List (Tr Q)} {s s' : HState Q} {m : Msg} (hr : Run cfg env h s)
    (hs : step cfg env m s = .ok () s') (hm : Spec.Refused m s'.outs) :
    (∀ env' ms, transcript cfg env' s' ms = transcript cfg env' s ms) ∨
      ∀ ms, transcript cfg env' s' ms = transcript cfg env'.later s ms := by
  rcases hr.unseen hm.1 hs hm.2.1 hm.2.2.1 hm.2.2.2 with h1 | ⟨h1, -⟩
  · left
    intro env' ms
    refine transcript_outs ?_ ms
    rw [h1]
  · right
    intro ms
    rw [← transcript_skip he ms (Nat.le_refl s.nextRid)]
    refine transcript_outs ?_ ms
    rw [h1]

end

theorem Run.layout {cfg : HConfig} {env : Env} {h : List (Tr Multi)} {s : HState Multi}
    (hr : Run cfg env h s) : LayoutEq s s := by
  induction hr with
  | nil => exact LayoutEq.init
  | @snoc h s m s' hr hs ih =>
    have h1 := step_layout cfg (Q := Multi) (env := env) (env' := env) trivial m ih
    rw [hs] at h1
    cases h1 with
    | ok _ h => exact h

theorem Run.like {P : Int → Int → Prop} {cfg : HConfig} {env : Env} (hp : Fifo.Order env P)
    {h : List (Tr Single)} {s : HState Single} (hr : Run cfg env h s) :
    ∃ f, Fifo.Like P env s.clockReads s.queue f := by
  induction hr with
  | nil => exact ⟨_, (Fifo.sim (env' := env) hp rfl).empty⟩
  | @snoc h s m s' hr hs ih =>
    obtain ⟨f, hf⟩ := ih
    have h1 := sim_request (Fifo.sim (env' := env) hp rfl) cfg m { s with outs := [] } f hf
    have e : step cfg env m s = onRequest cfg env m { s with outs := [] } := rfl
    rw [← e, hs] at h1
    obtain ⟨f', -, h2⟩ := h1
    exact ⟨f', h2⟩

/-- **C86** (multi-queue manager).  After a refused message of a client, whatever comes next, the
    broker sends the same messages and fails in the same way as if the message had never come. -/
theorem C86_multi {cfg : HConfig} {env : Env} {h : List (Tr Multi)} {s s' : HState Multi} {m : Msg}
    (hr : Run cfg env h s) (hs : step cfg env m s = .ok () s') (hm : Spec.Refused m s'.outs)
    (ms : List Msg) : transcript cfg env s' ms = transcript cfg env s ms := by
  rcases refused_later (env' := env) trivial hr hs hm with h1 | h1
  · exact h1 env ms
  · rw [h1]
    exact (transcript_layout cfg (Q := Multi) (env := env) (env' := env.later) trivial ms
      hr.layout).symm

/-- **C86** (single-queue manager).  The same as long as arrival times tell the order of
    arrival. -/
theorem C86_single {cfg : HConfig} {env : Env} {h : List (Tr Single)} {s s' : HState Single}
    {m : Msg} (ho : Spec.InOrder env) (hr : Run cfg env h s)
    (hs : step cfg env m s = .ok () s') (hm : Spec.Refused m s'.outs)
    (ms : List Msg) : transcript cfg env s' ms = transcript cfg env s ms := by
  obtain ⟨P, hp, hle⟩ := ho.order
  let env' : Env := { env with srt := insSorter }
  have hp0 : Fifo.Order env' P := ⟨hp.clock, fun l hl => insSort_id (hl.imp fun h => hle _ _ h)⟩
  rcases refused_later (env' := env') insSorter_blind hr hs hm with h1 | h1
  · exact h1 env ms
  · obtain ⟨f, hf⟩ := hr.like hp
    obtain ⟨f', hf'⟩ := (hr.snoc hs).like hp
    have e1 := transcript_sim (Fifo.sim (env' := env) hp rfl) cfg ms hf
    have e2 := transcript_sim (Fifo.sim (env' := env) hp rfl) cfg ms hf'
    have e3 := transcript_sim (Fifo.sim (env := env') (env' := env) hp0 rfl) cfg ms
      (s := s') (q' := f') ⟨hf'.waiting, hf'.current, hf'.workers, hf'.order, hf'.past⟩
    have hp' : Fifo.Order env'.later P := ⟨fun a b hab => hp.clock _ _ (by omega), hp0.keep⟩
    have e4 := transcript_sim (Fifo.sim (env := env'.later) (env' := env) hp' rfl) cfg ms
      (s := s) (q' := f) ⟨hf.waiting, hf.current, hf.workers, hf.order,
        fun e he k hk => hf.past e he (k + 1) (by omega)⟩
    rw [← e1, ← e2, e3, h1, e4]

/-! ## Histories -/

theorem transcript_others {Q : Type} [QueueManager Q] {cfg : HConfig} {env : Env}
    (key : ∀ {h : List (Tr Q)} {s s' : HState Q} {m : Msg}, Run cfg env h s →
      step cfg env m s = .ok () s' → Spec.Refused m s'.outs → ∀ ms,
      transcript cfg env s' ms = transcript cfg env s ms)
    {h : List (Tr Q)} {s : HState Q} (hr : Run cfg env h s) (ms : List Msg) :
    observed Q cfg env ((Spec.others h).map (·.msg) ++ ms) =
      (Spec.others h).map (fun t => (t.outs, none)) ++ transcript cfg env s ms := by
  induction hr generalizing ms with
  | nil => rfl
  | @snoc h s m s' hr hs ih =>
    by_cases hm : Spec.Refused m s'.outs
    · have e : Spec.others (h ++ [⟨s, m, s'⟩]) = Spec.others h := by
        simp [Spec.others, Tr.outs, hm]
      rw [e, ih, key hr hs hm]
    · have e : Spec.others (h ++ [⟨s, m, s'⟩]) = Spec.others h ++ [⟨s, m, s'⟩] := by
        simp [Spec.others, Tr.outs, hm]
      rw [e]
      simp only [List.map_append, List.map_cons, List.map_nil, List.append_assoc, List.cons_append,
        List.nil_append, ih, transcript, hs, Tr.outs]

/-- **C86** (multi-queue manager).  Take the refused messages of clients out of any history: what the
    broker sends for each of the other messages stays the same, and so does everything after. -/
theorem C86_multi_history {cfg : HConfig} {env : Env} {h : List (Tr Multi)} {s : HState Multi}
    (hr : Run cfg env h s) (ms : List Msg) :
    observed Multi cfg env ((Spec.others h).map (·.msg) ++ ms) =
      (Spec.others h).map (fun t => (t.outs, none)) ++ transcript cfg env s ms :=
  transcript_others C86_multi hr ms

/-- **C86** (single-queue manager).  The same as long as arrival times tell the order of
    arrival. -/
theorem C86_single_history {cfg : HConfig} {env : Env} (ho : Spec.InOrder env)
    {h : List (Tr Single)} {s : HState Single} (hr : Run cfg env h s) (ms : List Msg) :
    observed Single cfg env ((Spec.others h).map (·.msg) ++ ms) =
      (Spec.others h).map (fun t => (t.outs, none)) ++ transcript cfg env s ms :=
  transcript_others (C86_single ho) hr ms

/-! ## Concrete cases -/

/-- Requests that nobody can process, queries and nonsense between the work of a worker. -/
def noise : List Msg :=
  [fromC "c" ["eval", "n1", "hwgroup=x", ""], fromW "a" ["init", "g"], fromC "d" ["get-runtime-stats"],
   fromC "c" ["eval", "j1", "hwgroup=g", ""], fromC "d" ["eval", "n2", "hwgroup=x", ""],
   fromC "c" ["eval", "j2", "hwgroup=g", ""], fromC "d" ["hello"], fromC "d" ["eval", "n3", "hwgroup=g"],
   fromW "a" ["done", "j1", "OK"]]

/-- The work of the worker without the noise. -/
def noNoise : List Msg :=
  [fromW "a" ["init", "g"], fromC "c" ["eval", "j1", "hwgroup=g", ""],
   fromC "c" ["eval", "j2", "hwgroup=g", ""], fromW "a" ["done", "j1", "OK"]]

/-- `C86_multi`, `C86_multi_history`: five of nine messages are refused; two jobs are given to the
    worker with and without them. -/
example : ∃ h s, Run (Q := Multi) cfg0 env0 h s ∧ h.map (·.msg) = noise ∧
    (Spec.others h).map (·.msg) = noNoise ∧
    jobsGiven (observed Multi cfg0 env0 noNoise) = [["eval", "j1"], ["eval", "j2"]] := by
  obtain ⟨h, s, hr, hd⟩ := exists_run (Q := Multi) (cfg := cfg0) (env := env0) noise
    (fun h _ => decide (h.map (·.msg) = noise ∧ (Spec.others h).map (·.msg) = noNoise))
    (by decide +kernel)
  have hd := of_decide_eq_true hd
  exact ⟨h, s, hr, hd.1, hd.2, by decide +kernel⟩

/-- `C86_single`, `C86_single_history`. -/
example : ∃ h s, Run (Q := Single) cfg0 env0 h s ∧ h.map (·.msg) = noise ∧
    (Spec.others h).map (·.msg) = noNoise ∧
    jobsGiven (observed Single cfg0 env0 noNoise) = [["eval", "j1"], ["eval", "j2"]] := by
  obtain ⟨h, s, hr, hd⟩ := exists_run (Q := Single) (cfg := cfg0) (env := env0) noise
    (fun h _ => decide (h.map (·.msg) = noise ∧ (Spec.others h).map (·.msg) = noNoise))
    (by decide +kernel)
  have hd := of_decide_eq_true hd
  exact ⟨h, s, hr, hd.1, hd.2, by decide +kernel⟩

end Broker
