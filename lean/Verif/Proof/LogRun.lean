import Verif.Proof.Log
import Verif.Proof.Trace
import Verif.Proof.Provenance
import Verif.Proof.Delivery
import Verif.Spec.Log

/-!
# Logs of histories
-/

set_option linter.unusedSectionVars false

namespace Broker

open LawfulQM

variable {Q : Type} [QueueManager Q] [LawfulQM Q] [Carries Q] [Refers Q] {ok J : String → Prop}
  {A X P : Prop} {T : HState Q → List LogEntry → HState Q → Prop}

theorem selected_trace (es : List LogEntry) : selected .trace es = es := by
  unfold selected
  rw [List.filter_eq_self]
  intro e _
  simp [Level.writes, Level.toNat]

theorem okMsg_true (m : Msg) : OkMsg (fun _ => True) m :=
  ⟨fun _ _ => trivial, fun _ _ _ _ _ _ => ⟨trivial, trivial⟩,
    fun _ _ _ _ => ⟨fun _ _ _ => trivial, fun _ _ => trivial, trivial⟩⟩

/-- The handling of a message with and without logger, and a relation between what is written and what
    is done. -/
theorem step_logs (hT : Trail ok J A X P T) {cfg : HConfig} {env : Env} {m : Msg} {s : HState Q}
    (hi : HInv s) (hs : HS ok s) (hm : OkMsg ok m)
    (hJ : ∀ j, m.key = keyClients → m.data.head? = some "eval" → m.data[1]? = some j → J j)
    (hA : m.key = keyWorkers → m.data.head? = some "init" → A)
    (hP : m.key = keyWorkers → m.data.head? = some "ping" → P)
    (hX : m.key = keyTimer → X) :
    ∃ es, (∀ lv, stepLog lv cfg env m s = withLog (step cfg env m s) (selected lv es)) ∧
      T { s with outs := [] } es (final (step cfg env m s)) ∧ HS ok (final (step cfg env m s)) := by
  obtain ⟨es, w, t, h⟩ := logs_onRequest (cfg := cfg) (env := env) hT
    (h := { s with outs := [] }) (hs.of_eq rfl rfl) hi.addr_nodup hm hJ hA hP hX
  exact ⟨es, fun lv => w lv [], t, h⟩

/-- The trivial relation. -/
theorem trail_true : Trail (Q := Q) (fun _ => True) (fun _ => True) True True True
    fun _ _ _ => True := by
  constructor <;> intros <;> trivial

theorem Run.hs {cfg : HConfig} {env : Env} {h : List (Tr Q)} {s : HState Q}
    (hr : Run cfg env h s) : HS (fun _ => True) s := by
  induction hr with
  | nil => exact HS.init _
  | snoc hr hs ih =>
    obtain ⟨es, _, _, h⟩ := step_logs trail_true hr.inv.1 ih (okMsg_true _) (fun _ _ _ _ => trivial)
      (fun _ _ => trivial) (fun _ _ => trivial) (fun _ => trivial) (cfg := cfg) (env := env)
    rw [hs] at h
    exact h

theorem withLog_ok {α : Type} {r : EStateM.Result Err (HState Q) α} {l : List LogEntry} {a : α}
    {s : LState Q} (h : withLog r l = .ok a s) : r = .ok a s.h ∧ s.log = l := by
  cases r with
  | error e s' => cases h
  | ok b s' => cases h; exact ⟨rfl, rfl⟩

theorem LRun.run {lv : Level} {cfg : HConfig} {env : Env} {h : List (Tr Q)} {log : List LogEntry}
    {s : HState Q} (hr : LRun lv cfg env h log s) : Run cfg env h s := by
  induction hr with
  | nil => exact .nil
  | snoc hr hs ih =>
    obtain ⟨es, hw, _, _⟩ := step_logs trail_true ih.inv.1 ih.hs (okMsg_true _)
      (fun _ _ _ _ => trivial) (fun _ _ => trivial) (fun _ _ => trivial) (fun _ => trivial)
      (cfg := cfg) (env := env)
    rw [hw lv] at hs
    exact .snoc ih (withLog_ok hs).1

/-- Induction over histories with a log: `T` relates what happens in each step to everything that could
    be written in it, of which the logger selects. -/
theorem LRun.step_trail {lv : Level} {cfg : HConfig} {env : Env} {h : List (Tr Q)}
    {log : List LogEntry} {s s' : HState Q} {m : Msg} {es : List LogEntry}
    (hr : LRun lv cfg env h log s) (hst : stepLog lv cfg env m s = .ok () ⟨s', es⟩) (hs : HS ok s)
    (hT : Trail ok J A X P T) (hm : OkMsg ok m)
    (hJ : ∀ j, m.key = keyClients → m.data.head? = some "eval" → m.data[1]? = some j → J j)
    (hA : m.key = keyWorkers → m.data.head? = some "init" → A)
    (hP : m.key = keyWorkers → m.data.head? = some "ping" → P)
    (hX : m.key = keyTimer → X) :
    ∃ full, es = selected lv full ∧ step cfg env m s = .ok () s' ∧
      T { s with outs := [] } full s' ∧ HS ok s' := by
  obtain ⟨full, hw, t, h⟩ := step_logs hT hr.run.inv.1 hs hm hJ hA hP hX (cfg := cfg) (env := env)
  rw [hw lv] at hst
  obtain ⟨h1, h2⟩ := withLog_ok hst
  rw [h1] at t h
  exact ⟨full, h2, h1, t, h⟩

/-- Entries of one kind, all of a level that is written. -/
theorem selected_filterMap {α : Type} {lv l : Level} {f : LogEntry → Option α}
    (hl : lv.writes l = true) (hf : ∀ e, (f e).isSome → e.level = l) (es : List LogEntry) :
    (selected lv es).filterMap f = es.filterMap f := by
  induction es with
  | nil => rfl
  | cons e t ih =>
    simp only [selected, List.filter_cons] at ih ⊢
    cases he : f e with
    | none =>
      split
      · rw [List.filterMap_cons, List.filterMap_cons, he]; exact ih
      · rw [List.filterMap_cons, he]; exact ih
    | some a =>
      have := hf e (by rw [he]; rfl)
      rw [if_pos (by rw [this]; exact hl), List.filterMap_cons, List.filterMap_cons, he]
      simp only [ih]

/-! ## Relations between entries and events -/

/-- Nothing of this kind is in an entry that says nothing about jobs, workers and freezing. -/
theorem plain_kinds {e : LogEntry} (h : e.plain = true) : Spec.sentEntry e = none ∧
    Spec.rejectedEntry e = none ∧ Spec.expiredEntry e = none ∧ Spec.frozenEntry e = none := by
  cases e <;> first | exact ⟨rfl, rfl, rfl, rfl⟩ | cases h

theorem plain_filterMap {α : Type} {f : LogEntry → Option α} {hs : List LogEntry}
    (hf : ∀ e, e.plain = true → f e = none)
    (h : ∀ x ∈ hs, LogEntry.plain x = true ∧ ∀ a ∈ x.args, ok a) : hs.filterMap f = [] :=
  List.filterMap_eq_nil_iff.2 fun e he => hf e (h e he).1

theorem names_self (w : Worker) : Spec.names w.getDescription w.identity := by
  unfold Spec.names Worker.getDescription
  split
  · exact .inl rfl
  · exact .inr ⟨w.description, rfl⟩

/-- As `Spec.Tells`, but the message may be empty. -/
def TellsEmpty (e : String × String) (m : Msg) : Prop :=
  (m.data.take 2 = ["eval", e.1] ∨ m.data = []) ∧ Spec.names e.2 m.identity

theorem trail_sent : Trail (Q := Q) ok (fun _ => True) True True True fun h es h' =>
    ∃ ms, h'.outs = h.outs ++ ms ∧
      List.Forall₂ TellsEmpty (es.filterMap Spec.sentEntry) (ms.filter Spec.isJobMsg) where
  trans := by
    rintro h h' h'' es es' ⟨ms, e1, f1⟩ ⟨ms', e2, f2⟩
    refine ⟨ms ++ ms', by rw [e2, e1, List.append_assoc], ?_⟩
    rw [List.filterMap_append, List.filter_append]
    exact List.rel_append f1 f2
  same := fun ho _ _ => ⟨[], by rw [ho, List.append_nil], .nil⟩
  note := fun hp _ => ⟨[], by simp, by simp [(plain_kinds hp).1]⟩
  say := by
    intro h m hm
    refine ⟨[m], rfl, ?_⟩
    have : Spec.isJobMsg m = false := by
      have : (m.key == "workers") = false := by
        rw [beq_eq_false_iff_ne]; exact hm.1
      simp [Spec.isJobMsg, this]
    simp [this]
  send := by
    intro h r w hr _
    refine ⟨_, rfl, ?_⟩
    have h1 : Spec.isJobMsg ⟨keyWorkers, w.identity, r.frames⟩ = true := by
      rcases hr.1 with ⟨x, hx⟩ | hx
      · rw [hx]
        have h1 : ("eval" :: r.jobId :: x != ["intro"]) = true := by
          rw [bne_iff_ne]; intro h; simp at h
        have h2 : ("eval" :: r.jobId :: x != ["pong"]) = true := by
          rw [bne_iff_ne]; intro h; simp at h
        simp only [Spec.isJobMsg, h1, h2]
        rfl
      · rw [hx]; rfl
    rw [List.filter_cons, if_pos h1]
    refine .cons ⟨?_, names_self w⟩ .nil
    rcases hr.1 with ⟨x, hx⟩ | hx
    · exact .inl (by show r.frames.take 2 = _; rw [hx]; rfl)
    · exact .inr hx
  reject := by
    intro h job e i t hs _ _ he hp
    refine ⟨_, rfl, ?_⟩
    have h1 : Spec.sentEntry e = none := by rcases he with rfl | rfl <;> rfl
    rw [List.filterMap_cons, h1, plain_filterMap (fun e h => (plain_kinds h).1) hp]
    exact .nil
  add := fun _ => ⟨[], by simp, .nil⟩
  ping := by
    rintro h i t _ (rfl | rfl)
    · exact ⟨_, rfl, .nil⟩
    · exact ⟨_, rfl, .nil⟩
  expire := fun _ _ _ => ⟨[], by simp, .nil⟩
  freeze := ⟨[], by simp, .nil⟩
  unfreeze := ⟨[], by simp, .nil⟩

theorem trail_rejected (j : String) : Trail (Q := Q) ok (fun x => x = j) True True True fun h es h' =>
    ∃ ms, h'.outs = h.outs ++ ms ∧
      es.filterMap Spec.rejectedEntry = (ms.filter Spec.isReject).map fun _ => j where
  trans := by
    rintro h h' h'' es es' ⟨ms, e1, f1⟩ ⟨ms', e2, f2⟩
    refine ⟨ms ++ ms', by rw [e2, e1, List.append_assoc], ?_⟩
    rw [List.filterMap_append, List.filter_append, List.map_append, f1, f2]
  same := fun ho _ _ => ⟨[], by rw [ho, List.append_nil], rfl⟩
  note := fun hp _ => ⟨[], by simp, by simp [(plain_kinds hp).2.1]⟩
  say := by
    intro h m hm
    refine ⟨[m], rfl, ?_⟩
    have : Spec.isReject m = false := by
      by_cases hk : m.key = "clients"
      · have := hm.2 hk
        simp [Spec.isReject, this]
      · simp [Spec.isReject, hk]
    simp [this]
  send := fun _ _ => ⟨_, rfl, rfl⟩
  reject := by
    rintro h job e i t hs rfl _ he hp
    refine ⟨_, rfl, ?_⟩
    have h1 : Spec.rejectedEntry e = some job := by rcases he with rfl | rfl <;> rfl
    rw [List.filterMap_cons, h1, plain_filterMap (fun e h => (plain_kinds h).2.1) hp]
    rfl
  add := fun _ => ⟨[], by simp, rfl⟩
  ping := by
    rintro h i t _ (rfl | rfl)
    · exact ⟨_, rfl, rfl⟩
    · exact ⟨_, rfl, rfl⟩
  expire := fun _ _ _ => ⟨[], by simp, rfl⟩
  freeze := ⟨[], by simp, rfl⟩
  unfreeze := ⟨[], by simp, rfl⟩

theorem trail_frozen : Trail (Q := Q) ok (fun _ => True) True True True fun h es h' =>
    h'.frozen = (es.filterMap Spec.frozenEntry).getLastD h.frozen where
  trans := by
    intro h h' h'' es es' e1 e2
    rw [List.filterMap_append, e2, e1]
    rcases List.eq_nil_or_concat (es'.filterMap Spec.frozenEntry) with h0 | ⟨l, b, h0⟩
    · simp [h0]
    · simp [h0]
  same := fun _ _ hf => hf
  note := by
    intro h e hp _
    simp [(plain_kinds hp).2.2.2]
  say := fun _ => rfl
  send := fun _ _ => rfl
  reject := by
    intro h job e i t hs _ _ he hp
    have h1 : Spec.frozenEntry e = none := by rcases he with rfl | rfl <;> rfl
    rw [List.filterMap_cons, h1, plain_filterMap (fun e h => (plain_kinds h).2.2.2) hp]
    rfl
  add := fun _ => rfl
  ping := fun _ _ => rfl
  expire := fun _ _ _ => rfl
  freeze := rfl
  unfreeze := rfl

/-- In a step in which no worker expires. -/
theorem trail_stays : Trail (Q := Q) ok (fun _ => True) True False True fun h es h' =>
    (∀ w ∈ h.workers, w ∈ h'.workers) ∧ es.filterMap Spec.expiredEntry = [] where
  trans := by
    rintro h h' h'' es es' ⟨i1, e1⟩ ⟨i2, e2⟩
    exact ⟨fun w hw => i2 w (i1 w hw), by rw [List.filterMap_append, e1, e2]; rfl⟩
  same := fun _ hw _ => ⟨fun w h => hw ▸ h, rfl⟩
  note := fun hp _ => ⟨fun _ h => h, by simp [(plain_kinds hp).2.2.1]⟩
  say := fun _ => ⟨fun _ h => h, rfl⟩
  send := fun _ _ => ⟨fun _ h => h, rfl⟩
  reject := by
    intro h job e i t hs _ _ he hp
    have h1 : Spec.expiredEntry e = none := by rcases he with rfl | rfl <;> rfl
    refine ⟨fun _ h => h, ?_⟩
    rw [List.filterMap_cons, h1, plain_filterMap (fun e h => (plain_kinds h).2.2.1) hp]
  add := fun _ => ⟨fun _ h => List.mem_append_left _ h, rfl⟩
  ping := fun _ _ => ⟨fun _ h => h, rfl⟩
  expire := fun h => h.elim
  freeze := ⟨fun _ h => h, rfl⟩
  unfreeze := ⟨fun _ h => h, rfl⟩

/-- In a step in which no worker is registered. -/
theorem trail_expired : Trail (Q := Q) ok (fun _ => True) False True True fun h es h' =>
    (h.workers.map (·.addr)).Nodup → ∃ rs, h.workers.Perm (rs ++ h'.workers) ∧
      es.filterMap Spec.expiredEntry = rs.map (·.getDescription) where
  trans := by
    intro h h' h'' es es' f1 f2 hn
    obtain ⟨rs, p1, e1⟩ := f1 hn
    have hn' : (h'.workers.map (·.addr)).Nodup := by
      have := (p1.map (·.addr)).nodup_iff.1 hn
      rw [List.map_append] at this
      exact (List.nodup_append.1 this).2.1
    obtain ⟨rs', p2, e2⟩ := f2 hn'
    refine ⟨rs ++ rs', ?_, by rw [List.filterMap_append, e1, e2, List.map_append]⟩
    rw [List.append_assoc]
    exact p1.trans (p2.append_left rs)
  same := fun _ hw _ _ => ⟨[], by rw [hw]; exact .refl _, rfl⟩
  note := fun hp _ _ => ⟨[], .refl _, by simp [(plain_kinds hp).2.2.1]⟩
  say := fun _ _ => ⟨[], .refl _, rfl⟩
  send := fun _ _ _ => ⟨[], .refl _, rfl⟩
  reject := by
    intro h job e i t hs _ _ he hp _
    have h1 : Spec.expiredEntry e = none := by rcases he with rfl | rfl <;> rfl
    refine ⟨[], .refl _, ?_⟩
    rw [List.filterMap_cons, h1, plain_filterMap (fun e h => (plain_kinds h).2.2.1) hp]
    rfl
  add := fun h => h.elim
  ping := fun _ _ _ => ⟨[], .refl _, rfl⟩
  expire := fun _ hw _ hn => ⟨[_], regRemove_perm hn hw, rfl⟩
  freeze := fun _ => ⟨[], .refl _, rfl⟩
  unfreeze := fun _ => ⟨[], .refl _, rfl⟩

/-- All texts in entries are admissible. -/
theorem trail_args : Trail (Q := Q) ok (fun _ => True) True True True fun _ es _ =>
    ∀ e ∈ es, ∀ a ∈ e.args, ok a where
  trans := by
    intro h h' h'' es es' h1 h2 e he
    rcases List.mem_append.1 he with he | he
    · exact h1 e he
    · exact h2 e he
  same := fun _ _ _ _ h => (by cases h)
  note := by
    intro h e _ ha x hx
    rw [List.mem_singleton] at hx
    exact hx ▸ ha
  say := fun _ _ h => (by cases h)
  send := by
    intro h r w hr hk x hx
    rw [List.mem_singleton] at hx
    exact hx ▸ args2 hr.2 hk
  reject := by
    intro h job e i t hs _ hj he hp x hx
    rcases List.mem_cons.1 hx with rfl | hx
    · rcases he with rfl | rfl <;> exact args1 hj
    · exact (hp x hx).2
  add := fun _ _ h => (by cases h)
  ping := fun _ _ _ h => (by cases h)
  expire := by
    intro h w _ _ hk x hx
    rw [List.mem_singleton] at hx
    exact hx ▸ args1 hk
  freeze := by
    intro h x hx
    rw [List.mem_singleton] at hx
    exact hx ▸ args0
  unfreeze := by
    intro h x hx
    rw [List.mem_singleton] at hx
    exact hx ▸ args0

end Broker
