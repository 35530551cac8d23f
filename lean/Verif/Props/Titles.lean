import Verif.Props.Layout
import Verif.Proof.Frames
import Verif.Spec.Titles

/-!
# C122: descriptions of workers are for people only

A worker may send a description and other additional information when it introduces itself.  Only the
current job in it has an influence on what the broker does; the description appears in the texts of two
notifications.
-/

namespace Broker

open Spec

variable {Q : Type} [QueueManager Q]

theorem initHeaders_fst_append (hs t : List String) (hh : ∀ f ∈ hs, f ≠ "") {e : List String}
    (ht : Details t e) (acc : Headers) :
    (initHeaders (hs ++ t) acc).1 = (initHeaders hs acc).1 ∧ (initHeaders (hs ++ t) acc).2 = t := by
  induction hs generalizing acc with
  | nil => cases ht <;> simp [initHeaders]
  | cons f hs ih =>
    have hf : f ≠ "" := hh f (by simp)
    simp only [List.cons_append, initHeaders, if_neg hf]
    exact ih (fun f hf => hh f (by simp [hf])) _

theorem initExtra_details {t e : List String} (ht : Details t e) :
    (initExtra t "" none).2 = (lastJobFrame e).map frameValue := by
  rw [initExtra_job]
  cases ht with
  | none => rfl
  | some e =>
    have h0 : (frameKey "" == "current_job") = false := by decide +kernel
    simp [lastJobFrame, h0]

theorem retitled_retold {m m' : Msg} (h : Retitled m m') : Retold id (fun _ _ => True) (fun _ => Eq) (fun _ => True) m m' := by
  cases h with
  | same =>
    have h := Retold.same (ν := id) (τ := fun _ _ => True) (κ := fun _ => Eq) (ψ := fun _ => True) m
      (fun _ _ => .refl (fun _ => trivial) (fun _ => rfl) _) fun _ _ _ _ => trivial
    rwa [nameInp_id] at h
  | @intro i g hs t t' e e' hh ht ht' hj =>
    have h1 := initHeaders_fst_append hs t hh ht []
    have h2 := initHeaders_fst_append hs t' hh ht' []
    refine .intro i (.more (by rw [h1.1, h2.1]) (by rw [h1.1, h2.1]; exact .refl _ _ _) trivial ?_)
    rw [h1.2, h2.2, initExtra_details ht, initExtra_details ht', hj]

theorem told_titled {m m' : Msg} (h : Told id (fun _ _ => True) m m') : Titled m m' := by
  cases h with
  | worker i d => exact .same _
  | same m _ => exact .same _
  | twice i _ => exact .twice _ _ _
  | lost j i _ => exact .lost _ _ _ _

theorem transcript_titled [Carries Q] [LayoutQM Q] (cfg : HConfig) {env : Env}
    (he : LayoutQM.EnvR Q True env env) {ms ms' : List Msg} (h : List.Forall₂ Retitled ms ms') :
    ∀ {s s' : HState Q}, ToldEq id True (fun _ _ => True) (fun _ => Eq) (fun _ => True) s s' →
      List.Forall₂ SameSeen (transcript cfg env s ms) (transcript cfg env s' ms') := by
  induction h with
  | nil => intro s s' _; exact .nil
  | @cons m m' ms ms' hm _ ih =>
    intro s s' hs
    have hr := step_retold cfg he (retitled_retold hm) hs
    unfold transcript
    generalize step cfg env m s = x at hr
    generalize step cfg env m' s' = x' at hr
    cases hr with
    | ok ho h2 => exact .cons ⟨ho.imp fun _ _ => told_titled, rfl⟩ (ih h2)
    | error e ho => exact .cons ⟨ho.imp fun _ _ => told_titled, rfl⟩ .nil

/-- **C122 (multi-queue manager).** Two sequences of messages that are the same except for the
    descriptions (and any other additional information but the current job) of the workers that
    introduce themselves: the broker answers every message in the same way, and ends in the same way if
    it ends.  Only the description of the worker is another one in a complaint about a second
    introduction and in a notification about a job lost with its worker. -/
theorem C122_multi (cfg : HConfig) (env : Env) {ms ms' : List Msg}
    (h : List.Forall₂ Retitled ms ms') :
    List.Forall₂ SameSeen (observed Multi cfg env ms) (observed Multi cfg env ms') :=
  transcript_titled (Q := Multi) cfg (env := env) trivial h (ToldEq.init (fun h => h) _ _ same_headers trivial)

/-- **C122 (single-queue manager).** As for the multi-queue manager, for any memory allocator, clock and
    sorting algorithm. -/
theorem C122_single (cfg : HConfig) (env : Env) {ms ms' : List Msg}
    (h : List.Forall₂ Retitled ms ms') :
    List.Forall₂ SameSeen (observed Single cfg env ms) (observed Single cfg env ms') :=
  have he : LayoutQM.EnvR Single True env env := ⟨rfl, rfl, .inr ⟨trivial, rfl⟩⟩
  transcript_titled (Q := Single) cfg he h
    (ToldEq.init (fun h => h) _ _ same_headers trivial)

/-! ## Examples -/

/-- A worker introduces itself twice, with a job in hand, gets another job and is lost. -/
def titledMsgs (t : List String) : List Msg :=
  [⟨"workers", "A", "init" :: "g" :: (["x=1"] ++ t)⟩, fromC "C" ["eval", "J", "x=1", "", "url"],
   ⟨"workers", "A", "init" :: "g" :: (["y=2"] ++ t)⟩, fromW "A" ["done", "K", "OK"],
   tick "1001", tick "1001", tick "1001", tick "1001"]

theorem titledMsgs_same {t t' e e' : List String} (ht : Details t e) (ht' : Details t' e')
    (hj : lastJobFrame e = lastJobFrame e') : List.Forall₂ Retitled (titledMsgs t) (titledMsgs t') := by
  unfold titledMsgs
  have h (hs : List String) (hh : ∀ f ∈ hs, f ≠ "") : Retitled
      ⟨"workers", "A", "init" :: "g" :: (hs ++ t)⟩ ⟨"workers", "A", "init" :: "g" :: (hs ++ t')⟩ :=
    .intro "A" "g" hh ht ht' hj
  exact .cons (h _ (by decide)) (.cons (.same _) (.cons (h _ (by decide)) (.cons (.same _)
    (.cons (.same _) (.cons (.same _) (.cons (.same _) (.cons (.same _) .nil)))))))

/-- No description, and a description with other information that the broker does not know. -/
theorem titledMsgs_plain : List.Forall₂ Retitled (titledMsgs [])
    (titledMsgs ["", "description=rack 3", "os=linux"]) :=
  titledMsgs_same .none (.some _) (by decide +kernel)

example : List.Forall₂ Retitled (titledMsgs ["", "current_job=K"])
    (titledMsgs ["", "description=old", "current_job=K", "description=rack 3"]) :=
  titledMsgs_same (.some _) (.some _) (by decide +kernel)

/-- What the broker sends; `n` is what it calls the worker. -/
def titledOuts (n : String) : List Msg :=
  [⟨"clients", "C", ["ack"]⟩, ⟨"clients", "C", ["accept"]⟩,
   ⟨"status_notifier", "", ["type", "error", "message",
     "Received two different INIT messages from the same worker (" ++ n ++ ")"]⟩,
   ⟨"status_notifier", "", ["type", "job-status", "id", "K", "status", "OK"]⟩,
   ⟨"workers", "A", ["eval", "J", "url"]⟩, ⟨"monitor", "recodex-monitor", ["J", "FAILED"]⟩,
   ⟨"status_notifier", "", ["type", "job-status", "id", "J", "status", "FAILED", "message",
     "Worker " ++ n ++ " dieded"]⟩]

example : (observed Multi cfg0 env0 (titledMsgs ["", "current_job=K"])).flatMap (·.1) =
    titledOuts "41" := by decide +kernel

example : (observed Multi cfg0 env0
    (titledMsgs ["", "description=old", "current_job=K", "description=rack 3"])).flatMap (·.1) =
    titledOuts "41 (rack 3)" := by decide +kernel

/-- The single-queue manager hands its current job back to a worker, as a message without frames. -/
example : ((observed Single cfg0 env0 (titledMsgs ["", "current_job=K"])).flatMap (·.1)).filter
    (·.data ≠ []) = titledOuts "41" := by decide +kernel

example : ((observed Single cfg0 env0
    (titledMsgs ["", "description=old", "current_job=K", "description=rack 3"])).flatMap (·.1)).filter
    (·.data ≠ []) = titledOuts "41 (rack 3)" := by decide +kernel

/-- **C122, the texts.** The descriptions can be seen. -/
theorem C122_text_needed : ∃ ms ms' : List Msg, List.Forall₂ Retitled ms ms' ∧
    observed Multi cfg0 env0 ms ≠ observed Multi cfg0 env0 ms' ∧
    observed Single cfg0 env0 ms ≠ observed Single cfg0 env0 ms' :=
  ⟨_, _, titledMsgs_plain, by decide +kernel, by decide +kernel⟩

/-- **C122, the current job.** With another current job the broker sends messages to other sockets: the
    current job is not for people only. -/
theorem C122_job_needed : ∃ t t' : List String,
    (observed Multi cfg0 env0 (titledMsgs ("" :: t))).map (·.1.map (·.key)) ≠
      (observed Multi cfg0 env0 (titledMsgs ("" :: t'))).map (·.1.map (·.key)) ∧
    (observed Single cfg0 env0 (titledMsgs ("" :: t))).map (·.1.map (·.key)) ≠
      (observed Single cfg0 env0 (titledMsgs ("" :: t'))).map (·.1.map (·.key)) :=
  ⟨["current_job=K"], ["description=K"], by decide +kernel, by decide +kernel⟩

end Broker
