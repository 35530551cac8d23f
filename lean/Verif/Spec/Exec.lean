import Verif.Spec.Run
import Verif.Model.Multi
import Verif.Model.Single

/-!
# Concrete executions

A concrete environment and an executor for lists of messages, used to show that the hypotheses of
theorems can be met and to refute properties that do not hold.
-/

namespace Broker

/-- Insertion by arrival time. -/
def insEntry (e : Entry) : List Entry → List Entry
  | [] => [e]
  | x :: t => if e.2 ≤ x.2 then e :: x :: t else x :: insEntry e t

/-- Insertion sort by arrival time. -/
def insSort : List Entry → List Entry
  | [] => []
  | x :: t => insEntry x (insSort t)

theorem insEntry_perm (e : Entry) (l : List Entry) : (insEntry e l).Perm (e :: l) := by
  induction l with
  | nil => exact List.Perm.refl _
  | cons x t ih =>
    simp only [insEntry]
    split
    · exact List.Perm.refl _
    · exact (ih.cons x).trans (List.Perm.swap _ _ _)

theorem insSort_perm (l : List Entry) : (insSort l).Perm l := by
  induction l with
  | nil => exact List.Perm.refl _
  | cons x t ih => exact (insEntry_perm x _).trans (ih.cons x)

theorem insEntry_sorted (e : Entry) (l : List Entry) (h : l.Pairwise (fun a b => a.2 ≤ b.2)) :
    (insEntry e l).Pairwise (fun a b => a.2 ≤ b.2) := by
  induction l with
  | nil => simp [insEntry]
  | cons x t ih =>
    simp only [insEntry]
    rw [List.pairwise_cons] at h
    split
    · rename_i hle
      rw [List.pairwise_cons]
      refine ⟨?_, List.pairwise_cons.2 h⟩
      intro y hy
      rcases List.mem_cons.1 hy with rfl | hy
      · exact hle
      · exact Int.le_trans hle (h.1 y hy)
    · rename_i hle
      rw [List.pairwise_cons]
      refine ⟨?_, ih h.2⟩
      intro y hy
      rcases List.mem_cons.1 ((insEntry_perm e t).mem_iff.1 hy) with rfl | hy
      · omega
      · exact h.1 y hy

theorem insSort_sorted (l : List Entry) : (insSort l).Pairwise (fun a b => a.2 ≤ b.2) := by
  induction l with
  | nil => exact List.Pairwise.nil
  | cons x t ih => exact insEntry_sorted x _ ih

/-- Insertion sort as a behaviour of `std::sort`. -/
def insSorter : Sorter := ⟨insSort, insSort_perm, insSort_sorted⟩

/-- One more than the largest element. -/
def succMax : List Nat → Nat
  | [] => 1
  | x :: t => max (x + 1) (succMax t)

theorem lt_succMax {x : Nat} {l : List Nat} (h : x ∈ l) : x < succMax l := by
  induction l with
  | nil => simp at h
  | cons y t ih =>
    simp only [succMax]
    rcases List.mem_cons.1 h with rfl | h
    · omega
    · have := ih h; omega

/-- A concrete environment: ascending addresses, a clock that advances by one at each reading. -/
def env0 : Env where
  alloc _ l := succMax l
  alloc_fresh _ _ h := Nat.lt_irrefl _ (lt_succMax h)
  clock n := n
  srt := insSorter

/-- The default values of the configuration (src/config/broker_config.h:88-92): liveness 4,
    three failures, ping interval one second. -/
def cfg0 : HConfig where
  maxLiveness := 4
  maxLiveness_lt := by decide
  maxFailures := 3
  maxFailures_lt := by decide
  pingInterval := 1000

variable {Q : Type} [QueueManager Q]

/-- Handle messages one after the other. -/
def exec (cfg : HConfig) (env : Env) : List Msg → List (Tr Q) → HState Q →
    Option (List (Tr Q) × HState Q)
  | [], h, s => some (h, s)
  | m :: ms, h, s =>
    match step cfg env m s with
    | .ok () s' => exec cfg env ms (h ++ [⟨s, m, s'⟩]) s'
    | .error _ _ => none

/-- Handle messages from the initial state on. -/
def exec0 (Q : Type) [QueueManager Q] (cfg : HConfig) (env : Env) (ms : List Msg) :
    Option (List (Tr Q) × HState Q) := exec cfg env ms [] (HState.init Q)

theorem exec_run {cfg : HConfig} {env : Env} : ∀ {ms : List Msg} {h : List (Tr Q)} {s : HState Q}
    {h' : List (Tr Q)} {s' : HState Q}, Run cfg env h s → exec cfg env ms h s = some (h', s') →
    Run cfg env h' s' := by
  intro ms
  induction ms with
  | nil =>
    intro h s h' s' hr he
    simp only [exec, Option.some.injEq, Prod.mk.injEq] at he
    obtain ⟨rfl, rfl⟩ := he
    exact hr
  | cons m ms ih =>
    intro h s h' s' hr he
    simp only [exec] at he
    cases hs : step cfg env m s with
    | ok u s1 => rw [hs] at he; exact ih (hr.snoc hs) he
    | error e s1 => rw [hs] at he; cases he

theorem exec0_run {cfg : HConfig} {env : Env} {ms : List Msg} {h : List (Tr Q)} {s : HState Q}
    (he : exec0 Q cfg env ms = some (h, s)) : Run cfg env h s := exec_run .nil he

/-- If a property of the result of an execution can be computed, there is a history with it. -/
theorem exists_run {cfg : HConfig} {env : Env} (ms : List Msg) (p : List (Tr Q) → HState Q → Bool)
    (hp : (exec0 Q cfg env ms).any (fun x => p x.1 x.2) = true) :
    ∃ h s, Run cfg env h s ∧ p h s = true := by
  cases he : exec0 Q cfg env ms with
  | none => rw [he] at hp; cases hp
  | some x =>
    rw [he] at hp
    exact ⟨x.1, x.2, exec0_run he, by simpa using hp⟩

/-! ## Short-hands for messages -/

/-- A message from a worker. -/
def fromW (i : String) (data : List String) : Msg := ⟨"workers", i, data⟩
/-- A message from a client. -/
def fromC (i : String) (data : List String) : Msg := ⟨"clients", i, data⟩
/-- A timer message. -/
def tick (ms : String) : Msg := ⟨"timer", "", [ms]⟩

theorem exec_msgs {cfg : HConfig} {env : Env} : ∀ {ms : List Msg} {h : List (Tr Q)} {s : HState Q}
    {h' : List (Tr Q)} {s' : HState Q}, exec cfg env ms h s = some (h', s') →
    h'.map (·.msg) = h.map (·.msg) ++ ms := by
  intro ms
  induction ms with
  | nil =>
    intro h s h' s' he
    simp only [exec, Option.some.injEq, Prod.mk.injEq] at he
    obtain ⟨rfl, rfl⟩ := he
    simp
  | cons m ms ih =>
    intro h s h' s' he
    simp only [exec] at he
    cases hs : step cfg env m s with
    | ok u s1 => rw [hs] at he; rw [ih he]; simp
    | error e s1 => rw [hs] at he; cases he

/-- A history of an execution, split at one message. -/
theorem exists_split {cfg : HConfig} {env : Env} (ms1 : List Msg) (m : Msg) (ms2 : List Msg)
    (p : Tr Q → HState Q → Bool)
    (hp : (exec0 Q cfg env (ms1 ++ m :: ms2)).any
      (fun x => x.1[ms1.length]?.any (fun t => p t x.2)) = true) :
    ∃ h1 t h2 s, Run cfg env (h1 ++ t :: h2) s ∧ h1.map (·.msg) = ms1 ∧ t.msg = m ∧
      h2.map (·.msg) = ms2 ∧ p t s = true := by
  cases he : exec0 Q cfg env (ms1 ++ m :: ms2) with
  | none => rw [he] at hp; cases hp
  | some x =>
    obtain ⟨h, s⟩ := x
    rw [he] at hp
    simp only [Option.any_some] at hp
    have hm := exec_msgs he
    simp only [List.map_nil, List.nil_append] at hm
    obtain ⟨h1, h', rfl, e1, e2⟩ := List.map_eq_append_iff.1 hm
    obtain ⟨t, h2, rfl, e3, e4⟩ := List.map_eq_cons_iff.1 e2
    have hl : ms1.length = h1.length := by rw [← e1]; simp
    rw [hl] at hp
    simp at hp
    exact ⟨h1, t, h2, s, exec0_run he, e1, e3, e4, hp⟩

end Broker
