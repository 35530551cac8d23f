import Verif.Props.Layout
import Verif.Spec.Names

/-!
# C96: identities of workers are opaque

The broker compares identities of workers for equality and uses them as addresses; they appear in the
texts of two notifications and have no other influence.
-/

namespace Broker

variable {Q : Type} [QueueManager Q]

theorem names_run [Carries Q] [LayoutQM Q] {f : String → String} (hf : ∀ {i j : String}, f i = f j → i = j)
    {σ : Prop} {cfg : HConfig} {env env' : Env} (he : LayoutQM.EnvR Q σ env env') {h : List (Tr Q)}
    {s : HState Q} (hr : Run cfg env h s) :
    ∃ h' s', Run cfg env' h' s' ∧
      List.Forall₂ (fun t t' => t'.msg = Spec.nameInp f t.msg ∧
        List.Forall₂ (Spec.Named f) t.outs t'.outs) h h' ∧ NamesEq f σ s s' := by
  induction hr with
  | nil => exact ⟨[], _, .nil, .nil, NamesEq.init hf σ⟩
  | @snoc h s m s' hr hs ih =>
    obtain ⟨h', t, hr', e1, e2⟩ := ih
    have hst := step_names cfg he m e2
    rw [hs] at hst
    cases ht : step cfg env' (Spec.nameInp f m) t with
    | error e u => rw [ht] at hst; cases hst
    | ok u t' =>
      rw [ht] at hst
      cases hst with
      | ok ho h2 => exact ⟨_, t', hr'.snoc ht, List.rel_append e1 (.cons ⟨rfl, ho⟩ .nil), h2⟩

theorem names_error [Carries Q] [LayoutQM Q] {f : String → String} {σ : Prop} {cfg : HConfig} {env env' : Env}
    (he : LayoutQM.EnvR Q σ env env') {s s' : HState Q} (h : NamesEq f σ s s') (m : Msg) (e : Err) :
    (∃ u, step cfg env m s = .error e u) ↔
      ∃ u, step cfg env' (Spec.nameInp f m) s' = .error e u := by
  have hst := step_names cfg he m h
  generalize step cfg env m s = x at hst
  generalize step cfg env' (Spec.nameInp f m) s' = x' at hst
  cases hst with
  | ok ho h2 => simp
  | error e' ho => simp

/-- **C96 (multi-queue manager).** Let all workers have other identities, different ones for different
    workers.  Then the broker sends the same messages in the same order, to the workers under their new
    identities; only the name of the worker in a complaint about a second `init` and in a notification
    about a job lost with its worker is another one.  And the next message ends the broker in the one
    history exactly if it does in the other. -/
theorem C96_multi {cfg : HConfig} {env : Env} (f : String → String)
    (hf : ∀ {i j : String}, f i = f j → i = j) {h : List (Tr Multi)} {s : HState Multi}
    (hr : Run cfg env h s) :
    ∃ (h' : List (Tr Multi)) (s' : HState Multi), Run cfg env h' s' ∧
      List.Forall₂ (fun t t' => t'.msg = Spec.nameInp f t.msg ∧
        List.Forall₂ (Spec.Named f) t.outs t'.outs) h h' ∧
      ∀ m (e : Err), (∃ u, step cfg env m s = .error e u) ↔
        ∃ u, step cfg env (Spec.nameInp f m) s' = .error e u := by
  have he : LayoutQM.EnvR Multi True env env := trivial
  obtain ⟨h', s', h1, h2, h3⟩ := names_run hf he hr
  exact ⟨h', s', h1, h2, names_error he h3⟩

/-- **C96 (single-queue manager).** As for the multi-queue manager, for any memory allocator, clock and
    sorting algorithm. -/
theorem C96_single {cfg : HConfig} {env : Env} (f : String → String)
    (hf : ∀ {i j : String}, f i = f j → i = j) {h : List (Tr Single)} {s : HState Single}
    (hr : Run cfg env h s) :
    ∃ (h' : List (Tr Single)) (s' : HState Single), Run cfg env h' s' ∧
      List.Forall₂ (fun t t' => t'.msg = Spec.nameInp f t.msg ∧
        List.Forall₂ (Spec.Named f) t.outs t'.outs) h h' ∧
      ∀ m (e : Err), (∃ u, step cfg env m s = .error e u) ↔
        ∃ u, step cfg env (Spec.nameInp f m) s' = .error e u := by
  have he : LayoutQM.EnvR Single True env env := ⟨rfl, rfl, .inr ⟨trivial, rfl⟩⟩
  obtain ⟨h', s', h1, h2, h3⟩ := names_run hf he hr
  exact ⟨h', s', h1, h2, names_error he h3⟩

/-! ## Examples -/

/-- Identities get a prefix. -/
def prefixed (i : String) : String := String.ofList ('#' :: i.toList)

theorem prefixed_inj {i j : String} (h : prefixed i = prefixed j) : i = j := by
  have h' := String.ofList_injective h
  simp only [List.cons.injEq, true_and] at h'
  exact String.toList_inj.1 h'

/-- Two workers; one of them introduces itself again, the other one is lost with a job that nobody
    else can process. -/
def namesMsgs (a b : String) : List Msg :=
  [fromW a ["init", "g"], fromW b ["init", "g", "x=1"], fromW a ["init", "h", "y=2"],
   fromC "C" ["eval", "J", "x=1", "", "url"], fromW b ["ping"], tick "1001", tick "1001", tick "1001",
   tick "1001"]

/-- What the broker sends. -/
def namesOuts (b ha hb : String) : List Msg :=
  [⟨"status_notifier", "", ["type", "error", "message",
     "Received two different INIT messages from the same worker (" ++ ha ++ ")"]⟩,
   ⟨"clients", "C", ["ack"]⟩, ⟨"workers", b, ["eval", "J", "url"]⟩, ⟨"clients", "C", ["accept"]⟩,
   ⟨"workers", b, ["pong"]⟩, ⟨"monitor", "recodex-monitor", ["J", "FAILED"]⟩,
   ⟨"status_notifier", "", ["type", "job-status", "id", "J", "status", "FAILED", "message",
     "Worker " ++ hb ++ " dieded"]⟩]

example : ((namesMsgs "A" "B").map (Spec.nameInp prefixed) == namesMsgs "#A" "#B") = true := by
  decide +kernel

example : ∃ h s, Run (Q := Multi) cfg0 env0 h s ∧
    (emitted h == namesOuts "B" "41" "42") = true :=
  exists_run (namesMsgs "A" "B") _ (by decide +kernel)

example : ∃ h s, Run (Q := Multi) cfg0 env0 h s ∧
    (emitted h == namesOuts "#B" "2341" "2342") = true :=
  exists_run (namesMsgs "#A" "#B") _ (by decide +kernel)

example : ∃ h s, Run (Q := Single) cfg0 envDown h s ∧
    (emitted h == namesOuts "B" "41" "42") = true :=
  exists_run (namesMsgs "A" "B") _ (by decide +kernel)

example : ∃ h s, Run (Q := Single) cfg0 envDown h s ∧
    (emitted h == namesOuts "#B" "2341" "2342") = true :=
  exists_run (namesMsgs "#A" "#B") _ (by decide +kernel)

/-- Workers with the same identity are the same worker: the identities have to stay different. -/
example : ∃ h s, Run (Q := Multi) cfg0 env0 h s ∧
    (emitted h == namesOuts "B" "41" "42") = false :=
  exists_run (namesMsgs "A" "A") (fun h _ => !(emitted h == namesOuts "B" "41" "42"))
    (by decide +kernel) |>.imp fun _ h => h.imp fun _ h => ⟨h.1, by simpa using h.2⟩

end Broker
