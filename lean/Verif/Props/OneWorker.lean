import Verif.Proof.OneWorker
import Verif.Spec.OneWorker
import Verif.Spec.Exec

/-!
# The choice of the queue manager, with at most one worker (C75)
-/

namespace Broker

open Spec

theorem eq_of_snd : ∀ {es : List (Req × Nat)}, es.Pairwise (fun a b => a.2 < b.2) →
    ∀ {x y : Req × Nat}, x ∈ es → y ∈ es → x.2 = y.2 → x = y
  | [], _, _, _, hx, _, _ => by cases hx
  | z :: es, h, x, y, hx, hy, e => by
    obtain ⟨h1, h2⟩ := List.pairwise_cons.1 h
    rcases List.mem_cons.1 hx with hx | hx
    · rcases List.mem_cons.1 hy with hy | hy
      · rw [hx, hy]
      · have := h1 y hy; rw [hx] at e; omega
    · rcases List.mem_cons.1 hy with hy | hy
      · have := h1 x hx; rw [hy] at e; omega
      · exact eq_of_snd h2 hx hy e

theorem InOrder.keeps {env : Env} (h : InOrder env) : OneWorker.Keeps env := by
  intro es hes
  rcases h with h | ⟨h, hs⟩
  · refine List.Perm.eq_of_pairwise ?_ (env.srt.sorted _) ?_ (env.srt.perm _)
    · intro a b ha hb h1 h2
      have ha := (env.srt.perm _).mem_iff.1 ha
      obtain ⟨x, hx, rfl⟩ := List.mem_map.1 ha
      obtain ⟨y, hy, rfl⟩ := List.mem_map.1 hb
      have inj : ∀ m n, env.clock m = env.clock n → m = n := by
        intro m n e
        rcases Nat.lt_trichotomy m n with l | l | l
        · have := h _ _ l; omega
        · exact l
        · have := h _ _ l; omega
      have e : x.2 = y.2 := inj _ _ (Int.le_antisymm h1 h2)
      rw [eq_of_snd hes hx hy e]
    · rw [List.pairwise_map]
      exact hes.imp fun hab => Int.le_of_lt (h _ _ hab)
  · refine hs _ ?_
    rw [List.pairwise_map]
    exact hes.imp fun hab => h _ _ hab

theorem transcript_one {cfg : HConfig} {env : Env} {b : Bool} (hk : OneWorker.Keeps env) :
    ∀ (ms : List Msg) (h : List (Tr Multi)) (s : HState Multi) (s' : HState Single)
      (o : Option Worker), Run cfg env h s → NeverTwo cfg env (h.map (·.msg) ++ ms) →
      (b = true → NoneAnnounced ms) → OneWorker.Same env b o s s' →
      if b then transcript cfg env s' ms = transcript cfg env s ms
      else withoutEmpty (transcript cfg env s' ms) = withoutEmpty (transcript cfg env s ms) := by
  intro ms
  induction ms with
  | nil => intro h s s' o _ _ _ _; cases b <;> rfl
  | cons m ms ih =>
    intro h s s' o hr hn hb hs
    have hone : ∀ t, step cfg env m s = .ok () t → t.workers.length ≤ 1 := fun t ht =>
      hn _ _ (hr.snoc ht) ⟨ms, by simp⟩
    have hst := OneWorker.step_rhx hk cfg m (fun hbt => hb hbt m (by simp)) hs hone
    unfold transcript
    cases hx : step cfg env m s with
    | ok a t =>
      cases hy : step cfg env m s' with
      | error e t' => rw [hx, hy] at hst; cases hst
      | ok a' t' =>
        rw [hx, hy] at hst
        cases hst with
        | ok hst =>
          obtain ⟨o', hst⟩ := hst
          have := ih _ t t' o' (hr.snoc hx) (by simpa using hn)
            (fun hbt x hx => hb hbt x (List.mem_cons_of_mem _ hx)) hst
          obtain ⟨_, _, hst⟩ := hst
          have ho := hst.outs
          cases b with
          | true => simp only [OneWorker.OutsR, if_true] at this ho ⊢; rw [this, ho]
          | false =>
            simp only [OneWorker.OutsR, Bool.false_eq_true, if_false] at this ho ⊢
            have ho' : t'.outs.filter (fun o => !(o.key == "workers" && o.data == [])) =
              t.outs.filter (fun o => !(o.key == "workers" && o.data == [])) := ho
            simp only [withoutEmpty, List.map_cons] at this ⊢
            rw [this, ho']
    | error e t =>
      cases hy : step cfg env m s' with
      | ok a t' => rw [hx, hy] at hst; cases hst
      | error e' t' =>
        rw [hx, hy] at hst
        cases hst with
        | error ho =>
          cases b with
          | true => simp only [OneWorker.OutsR, if_true] at ho ⊢; rw [ho]
          | false =>
            simp only [OneWorker.OutsR, Bool.false_eq_true, if_false] at ho ⊢
            have ho' : t'.outs.filter (fun o => !(o.key == "workers" && o.data == [])) =
              t.outs.filter (fun o => !(o.key == "workers" && o.data == [])) := ho
            simp only [withoutEmpty, List.map_cons, ho']

/-- The full claim: with at most one worker the choice of the queue manager cannot be seen. -/
def C75_claim : Prop := ∀ (cfg : HConfig) (env : Env) (ms : List Msg), NeverTwo cfg env ms →
  observed Single cfg env ms = observed Multi cfg env ms

/-- **C75 (partial).** If at no time more than one worker is registered, no worker announces a job
    when it registers and arrival times tell the order of arrival, then a broker with the
    single-queue manager emits the same messages as one with the multi-queue manager, for every
    sequence of messages, and fails in the same way.  Missing: announced jobs
    (`C75_refuted_announced`) and clocks that go back (`C75_refuted_clock`). -/
theorem C75_same_partial (cfg : HConfig) (env : Env) (ms : List Msg) (hn : NeverTwo cfg env ms)
    (ho : InOrder env) (ha : NoneAnnounced ms) :
    observed Single cfg env ms = observed Multi cfg env ms := by
  have := transcript_one (b := true) (InOrder.keeps ho) ms [] _ _ none Run.nil hn (fun _ => ha)
    ⟨none, rfl, OneWorker.hr_init⟩
  simpa [observed] using this

/-- **C75 (partial), announced jobs.** With jobs announced by workers the only difference are
    messages without frames for workers. -/
theorem C75_announced_partial (cfg : HConfig) (env : Env) (ms : List Msg)
    (hn : NeverTwo cfg env ms) (ho : InOrder env) :
    withoutEmpty (observed Single cfg env ms) = withoutEmpty (observed Multi cfg env ms) := by
  have := transcript_one (b := false) (InOrder.keeps ho) ms [] _ _ none Run.nil hn (by simp)
    ⟨none, rfl, OneWorker.hr_init⟩
  simpa [observed] using this

/-! ## Concrete cases -/

/-- Decides `NeverTwo`. -/
def solo (cfg : HConfig) (env : Env) : HState Multi → List Msg → Bool
  | s, [] => decide (s.workers.length ≤ 1)
  | s, m :: ms => decide (s.workers.length ≤ 1) &&
    match step cfg env m s with
    | .ok _ t => solo cfg env t ms
    | .error _ _ => true

theorem neverTwo_of_solo {cfg : HConfig} {env : Env} {ms : List Msg}
    (h : solo cfg env (HState.init Multi) ms = true) : NeverTwo cfg env ms := by
  have first : ∀ {s : HState Multi} {l : List Msg}, solo cfg env s l = true →
      s.workers.length ≤ 1 := by
    intro s l hl
    cases l with
    | nil => simpa [solo] using hl
    | cons m l => simp only [solo, Bool.and_eq_true, decide_eq_true_eq] at hl; exact hl.1
  have key : ∀ (h : List (Tr Multi)) (s : HState Multi), Run cfg env h s →
      ∀ rest, h.map (·.msg) ++ rest = ms → solo cfg env s rest = true := by
    intro h' s hr
    induction hr with
    | nil => intro rest e; rw [← e] at h; exact h
    | @snoc h' s m t hr hs ih =>
      intro rest e
      have := ih (m :: rest) (by simpa using e)
      simp only [solo, hs, Bool.and_eq_true] at this
      exact this.2
  rintro h' s hr ⟨rest, e⟩
  exact first (key h' s hr rest e)

theorem insSort_id : ∀ {l : List Entry}, l.Pairwise (fun a b => a.2 ≤ b.2) → insSort l = l
  | [], _ => rfl
  | x :: t, h => by
    obtain ⟨h1, h2⟩ := List.pairwise_cons.1 h
    show insEntry x (insSort t) = _
    rw [insSort_id h2]
    cases t with
    | nil => rfl
    | cons y t => simp [insEntry, h1 y (by simp)]

theorem inOrder_env0 : InOrder env0 := .inl fun m n h => by
  show (m : Int) < n; omega

/-- A worker gets three jobs, finishes one, fails at the second, dies with the third; another worker
    comes. -/
def oneByOne : List Msg :=
  [fromW "a" ["init", "g"], fromC "c" ["eval", "j1", "hwgroup=g", "", "x"],
   fromC "c" ["eval", "j2", "hwgroup=g", "", "x"], fromC "c" ["eval", "j3", "hwgroup=g", "", "x"],
   fromW "a" ["done", "j1", "OK"], fromW "a" ["done", "j2", "INTERNAL_ERROR", "why"],
   fromC "c" ["eval", "j4", "hwgroup=h", "", "x"],
   tick "1001", tick "1001", tick "1001", tick "1001", fromW "b" ["init", "h", "", "current_job=j5"],
   fromC "c" ["eval", "j6", "hwgroup=h", "", "x"], fromW "b" ["done", "j5", "OK"]]

/-- A clock that stands still. -/
def envStill : Env := { env0 with clock := fun _ => 7 }

/-- A clock that goes back. -/
def envBack : Env := { env0 with clock := fun n => -(n : Int) }

theorem inOrder_still : InOrder envStill := .inr ⟨fun _ _ _ => Int.le_refl _, fun _ h => insSort_id h⟩

/-- `C75_same_partial`, up to the death of the first worker; with the clock of the example and with
    one that stands still.  In the last step two jobs are reported as failed. -/
example : observed Single cfg0 env0 (oneByOne.take 11) = observed Multi cfg0 env0 (oneByOne.take 11) ∧
    observed Single cfg0 envStill (oneByOne.take 11) = observed Multi cfg0 envStill (oneByOne.take 11) ∧
    ((observed Multi cfg0 env0 (oneByOne.take 11)).map (·.1.length)) = [0, 3, 2, 2, 2, 1, 3, 0, 0, 0, 4] :=
  ⟨C75_same_partial _ _ _ (neverTwo_of_solo (by decide +kernel)) inOrder_env0
      (by unfold NoneAnnounced; decide +kernel),
    C75_same_partial _ _ _ (neverTwo_of_solo (by decide +kernel)) inOrder_still
      (by unfold NoneAnnounced; decide +kernel),
    by decide +kernel⟩

/-- `C75_announced_partial`, with a second worker that announces a job. -/
example : withoutEmpty (observed Single cfg0 env0 oneByOne) =
    withoutEmpty (observed Multi cfg0 env0 oneByOne) :=
  C75_announced_partial _ _ _ (neverTwo_of_solo (by decide +kernel)) inOrder_env0

/-- **C75 is false** if workers announce jobs: the single-queue manager answers with an empty
    message. -/
theorem C75_refuted_announced : ¬ ∀ (cfg : HConfig) (env : Env) (ms : List Msg),
    NeverTwo cfg env ms → InOrder env → observed Single cfg env ms = observed Multi cfg env ms := by
  intro h
  have := h cfg0 env0 [fromW "b" ["init", "h", "", "current_job=j5"]]
    (neverTwo_of_solo (by decide +kernel)) inOrder_env0
  revert this
  decide +kernel

/-- **C75 is false** if the clock goes back: the jobs are sent in another order. -/
theorem C75_refuted_clock : ¬ ∀ (cfg : HConfig) (env : Env) (ms : List Msg),
    NeverTwo cfg env ms → NoneAnnounced ms →
    observed Single cfg env ms = observed Multi cfg env ms := by
  intro h
  have := h cfg0 envBack (oneByOne.take 5) (neverTwo_of_solo (by decide +kernel))
    (by unfold NoneAnnounced; decide +kernel)
  revert this
  decide +kernel

/-- **C75 is false** with two workers: another worker gets the job. -/
theorem C75_refuted_two : ¬ ∀ (cfg : HConfig) (env : Env) (ms : List Msg), InOrder env →
    NoneAnnounced ms → observed Single cfg env ms = observed Multi cfg env ms := by
  intro h
  have := h cfg0 env0 [fromW "a" ["init", "g"], fromW "b" ["init", "g"],
    fromC "c" ["eval", "j", "hwgroup=g", "", "x"]] inOrder_env0
    (by unfold NoneAnnounced; decide +kernel)
  revert this
  decide +kernel

/-- The full claim is false. -/
theorem C75_refuted : ¬ C75_claim := fun h =>
  C75_refuted_announced fun cfg env ms hn _ => h cfg env ms hn

end Broker
