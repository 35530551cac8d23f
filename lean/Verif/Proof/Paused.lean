import Verif.Proof.Frozen
import Verif.Proof.Skip
import Verif.Spec.Transcript

/-!
# A frozen broker
-/

namespace Broker.Spec

/-- Everything told to anybody but clients, in order. -/
def toldOthers (t : List (List Msg × Option Err)) : List Msg :=
  (t.flatMap (·.1)).filter (fun o => o.key != "clients")

/-- How it ended, if it ended. -/
def ending (t : List (List Msg × Option Err)) : Option Err := t.findSome? (·.2)

/-- A message of a client the broker survives while it is frozen, and remains frozen. -/
structure WhileFrozen (m : Msg) : Prop where
  nonempty : m.data ≠ []
  alone : m.data ≠ ["eval"]
  short : ∀ j, m.data ≠ ["eval", j]
  stays : m.data.head? ≠ some "unfreeze"

end Broker.Spec

namespace Broker

open QueueManager Spec

variable {Q : Type} [QueueManager Q]

theorem evalHeaders_ok : ∀ (fs : List String) (hs : Headers) (md : Metadata), fs ≠ [] →
    ∃ x, evalHeaders fs hs md = .ok x := by
  intro fs
  induction fs with
  | nil => intro _ _ h; exact absurd rfl h
  | cons f rest ih =>
    intro hs md _
    unfold evalHeaders
    by_cases hf : f = ""
    · rw [if_pos hf]; exact ⟨_, rfl⟩
    · rw [if_neg hf]
      cases rest with
      | nil => exact ⟨_, rfl⟩
      | cons a t =>
        dsimp only
        split
        · exact ih _ _ (by simp)
        · exact ih _ _ (by simp)

/-- Clients change nothing while the broker is frozen. -/
theorem frozen_client {cfg : HConfig} {env : Env} {m : Msg} {s : HState Q}
    (hk : m.key = "clients") (hm : WhileFrozen m) (hf : s.frozen = true) :
    ∃ o, step cfg env m s = .ok () { s with outs := o } ∧
      ∀ x ∈ o, x.key = "clients" ∧ x.identity = m.identity ∧ x.data ≠ ["accept"] := by
  obtain ⟨key, identity, data⟩ := m
  cases hk
  obtain ⟨h1, h2, h3, h4⟩ := hm
  cases data with
  | nil => exact absurd rfl h1
  | cons c rest =>
    have h0 : step cfg env ⟨"clients", identity, c :: rest⟩ s
        = clientCommand env c identity (c :: rest) { s with outs := [] } := rfl
    rw [h0]
    unfold clientCommand
    by_cases he : c = "eval"
    · subst he
      rw [if_pos rfl]
      cases rest with
      | nil => exact absurd rfl h2
      | cons j fs =>
        cases fs with
        | nil => exact absurd rfl (h3 j)
        | cons f fs =>
          obtain ⟨x, hx⟩ := evalHeaders_ok (f :: fs) [] [] (by simp)
          have h5 : ("eval" :: j :: f :: fs)[1]? = some j := rfl
          have h6 : ("eval" :: j :: f :: fs).drop 2 = f :: fs := rfl
          simp only [processEval, h5, h6, hx]
          cases x with
          | none => exact ⟨[⟨keyClients, identity, ["ack"]⟩], rfl, by simp [keyClients]⟩
          | some y =>
            refine ⟨[⟨keyClients, identity, ["ack"]⟩,
              ⟨keyClients, identity, ["reject", "The broker is frozen."]⟩], ?_, by simp [keyClients]⟩
            simp only [Bind.bind, EStateM.bind, respond, modify, modifyGet, MonadStateOf.modifyGet,
              EStateM.modifyGet, MonadState.get, getThe, MonadStateOf.get, EStateM.get, hf, if_true,
              List.nil_append, List.cons_append]
    · rw [if_neg he]
      by_cases hs : c = "get-runtime-stats"
      · subst hs
        rw [if_pos rfl]
        exact ⟨[⟨keyClients, identity, statsReply s.stats s.frozen⟩], rfl, by simp [keyClients, statsReply]⟩
      · rw [if_neg hs]
        by_cases hz : c = "freeze"
        · subst hz
          rw [if_pos rfl]
          refine ⟨[⟨keyClients, identity, ["ack"]⟩], ?_, by simp [keyClients]⟩
          have : ({ s with outs := [⟨keyClients, identity, ["ack"]⟩] } : HState Q)
            = { s with frozen := true, outs := [⟨keyClients, identity, ["ack"]⟩] } := by rw [← hf]
          rw [this]; rfl
        · rw [if_neg hz, if_neg (by rintro rfl; exact h4 rfl)]
          exact ⟨[], rfl, by simp⟩

/-- A broker that is frozen, hears messages, and is unfrozen. -/
theorem paused {cfg : HConfig} {env : Env} {i : String} {rest : List String} {ms : List Msg} :
    ∀ {l : List Msg} {s : HState Q}, s.frozen = false →
    (∀ m ∈ l, m.key = "clients" → WhileFrozen m) →
    let a := transcript cfg env (s.setFrozen true) (l ++ ⟨"clients", i, "unfreeze" :: rest⟩ :: ms)
    let b := transcript cfg env s (l.filter (fun m => m.key != "clients") ++ ms)
    toldOthers a = toldOthers b ∧ ending a = ending b ∧
      a.drop (l.length + 1) = b.drop (l.filter (fun m => m.key != "clients")).length := by
  intro l
  induction l with
  | nil =>
    intro s hf _
    have h1 : step cfg env ⟨"clients", i, "unfreeze" :: rest⟩ (s.setFrozen true)
        = .ok () { s with frozen := false, outs := [⟨"clients", i, ["ack"]⟩] } := rfl
    have h2 : ({ s with frozen := false, outs := [] } : HState Q) = { s with outs := [] } := by
      rw [← hf]
    have h3 : transcript cfg env
        ({ s with frozen := false, outs := [⟨"clients", i, ["ack"]⟩] } : HState Q) ms
        = transcript cfg env s ms := transcript_outs h2 ms
    simp only [List.nil_append, transcript, h1, h3, List.filter_nil]
    exact ⟨by simp [toldOthers], by simp [ending], by simp⟩
  | cons m l ih =>
    intro s hf hl
    have hl' : ∀ m ∈ l, m.key = "clients" → WhileFrozen m :=
      fun x hx => hl x (List.mem_cons_of_mem _ hx)
    by_cases hk : m.key = "clients"
    · obtain ⟨o, h1, h2⟩ := frozen_client (cfg := cfg) (env := env) (s := s.setFrozen true) hk
        (hl m (by simp) hk) rfl
      have h3 := transcript_outs (cfg := cfg) (env := env)
        (s := { s.setFrozen true with outs := o }) (s' := s.setFrozen true) rfl
      obtain ⟨i1, i2, i3⟩ := ih hf hl'
      have hfl : (m :: l).filter (fun m => m.key != "clients")
          = l.filter (fun m => m.key != "clients") := by simp [hk]
      simp only [List.cons_append, transcript, h1, h3, hfl]
      refine ⟨?_, ?_, ?_⟩
      · rw [← i1]
        simp only [toldOthers, List.flatMap_cons, List.filter_append]
        rw [List.filter_eq_nil_iff.2 (by intro x hx; simp [(h2 x hx).1]), List.nil_append]
      · rw [← i2]; simp [ending]
      · rw [← i3]; simp
    · have hfl : (m :: l).filter (fun m => m.key != "clients")
          = m :: l.filter (fun m => m.key != "clients") := by simp [hk]
      have h1 := step_setFrozen (cfg := cfg) (env := env) (m := m) hk true s
      simp only [List.cons_append, transcript, h1, hfl]
      cases hs : step cfg env m s with
      | error e t => exact ⟨rfl, rfl, by simp [mapRes]⟩
      | ok u t =>
        have hft : t.frozen = false := by
          have h2 := step_setFrozen (cfg := cfg) (env := env) (m := m) hk false s
          have h3 : s.setFrozen false = s := by unfold HState.setFrozen; rw [← hf]
          rw [h3, hs] at h2
          simp only [mapRes] at h2
          injection h2 with h2 h4
          rw [h4]; rfl
        obtain ⟨i1, i2, i3⟩ := ih hft hl'
        simp only [mapRes]
        refine ⟨?_, ?_, ?_⟩
        · simp only [toldOthers, List.flatMap_cons, List.filter_append] at i1 ⊢
          rw [i1]; rfl
        · simp only [ending, List.findSome?_cons] at i2 ⊢
          exact i2
        · simpa using i3

end Broker
