import Verif.Proof.LoopCount
import Mathlib.Data.Nat.Find

/-!
# Handlers in layers: no re-entrance, and the main thread always returns to the loop
-/

set_option linter.unusedSectionVars false
set_option linter.unusedTactic false
set_option linter.unreachableTactic false

namespace Broker.Reactor

variable {α : Type} [DecidableEq α] {S : Setup α}

/-- What a handler of a layered reactor may send. -/
def Ok (S : Setup α) (layer : α → Nat) (a : α) (m : Msg) : Prop :=
  isSocket S m.key = true ∨
    ∀ b ∈ mmRange m.key S.wiring.handlers, S.isAsync b = true ∨ layer b < layer a

def Below (layer : α → Nat) (a : α) (st : List (Frame S)) : Prop :=
  ∀ c ∈ st.filterMap Frame.owner, layer a < layer c

def Stk (layer : α → Nat) : List (Frame S) → Prop
  | [] => True
  | .loop _ todo :: st => (∀ b ∈ todo, S.isAsync b = true ∨ Below layer b st) ∧ Stk layer st
  | .body a p :: st => p.Sends (Ok S layer a) ∧ Below layer a st ∧ Stk layer st
  | .wait a k :: st => (∀ v, (k v).Sends (Ok S layer a)) ∧ Below layer a st ∧ Stk layer st

theorem stk_process {layer : α → Nat} {s : St S} {m : Msg} (h : s.stack = []) :
    Stk layer (St.process m s).stack := by
  simp [St.process, h, Stk, Below]

theorem stk_send {layer : α → Nat} {s : St S} {m : Msg} (h : s.stack = []) :
    Stk layer (St.send m s).stack := by
  unfold St.send
  split
  · simp [h, Stk]
  · exact stk_process h

theorem Exec.layers {layer : α → Nat}
    (hL : ∀ a, S.isAsync a = false → ∀ x m v, ((S.obj a).onRequest x m v).Sends (Ok S layer a))
    {evs : List (Ev α)} {s : St S} (hr : Exec S evs s) :
    Stk layer s.stack ∧ s.reentered = false := by
  refine Exec.induct (P := fun _ s => Stk layer s.stack ∧ s.reentered = false) ?_ ?_ hr
  · exact ⟨trivial, rfl⟩
  · intro evs s s' ev _ hi hm
    obtain ⟨hi, hre⟩ := hi
    cases hm with
    | arrive => exact ⟨hi, hre⟩
    | poll => exact ⟨hi, hre⟩
    | socket h1 h2 h3 => exact ⟨stk_process h1, hre⟩
    | internal h1 h2 h3 h4 => exact ⟨stk_send h1, by rw [send_reentered]; exact hre⟩
    | timer h1 h2 => exact ⟨stk_process h1, hre⟩
    | ret h1 => rw [h1] at hi; exact ⟨hi.2, hre⟩
    | post h1 h2 =>
      rw [h1] at hi
      exact ⟨⟨fun b hb => hi.1 b (List.mem_cons_of_mem _ hb), hi.2⟩, hre⟩
    | @call s x pick m a as st h1 h2 =>
      rw [h1] at hi
      have hb : Below layer a st := by
        rcases hi.1 a List.mem_cons_self with h | h
        · rw [h2] at h; cases h
        · exact h
      refine ⟨⟨hL a h2 _ _ _, ?_, fun b hb => hi.1 b (List.mem_cons_of_mem _ hb), hi.2⟩, ?_⟩
      · simpa [Below, Frame.owner] using hb
      · have hn : a ∉ st.filterMap Frame.owner := fun h => Nat.lt_irrefl _ (hb a h)
        show (s.reentered || decide (a ∈ st.filterMap Frame.owner)) = false
        rw [hre, decide_eq_false hn]; rfl
    | done h1 => rw [h1] at hi; exact ⟨hi.2.2, hre⟩
    | throw h1 => exact ⟨trivial, hre⟩
    | @respond s x pick a v m k st h1 =>
      rw [h1] at hi
      obtain ⟨⟨g1, g2⟩, g3, g4⟩ := hi
      refine ⟨?_, by rw [send_reentered]; exact hre⟩
      unfold St.send
      split
      · exact ⟨g2, g3, g4⟩
      · rename_i hn
        refine ⟨fun b hb => ?_, g2, g3, g4⟩
        rcases g1 with g1 | g1
        · exact absurd g1 hn
        · rcases g1 b hb with h | h
          · exact .inl h
          · refine .inr fun c hc => ?_
            change c ∈ a :: st.filterMap Frame.owner at hc
            rcases List.mem_cons.1 hc with rfl | hc
            · exact h
            · exact Nat.lt_trans h (g3 c hc)
    | resume h1 => rw [h1] at hi; exact ⟨⟨hi.1 _, hi.2⟩, hre⟩
    | connect => exact ⟨hi, hre⟩
    | stop => exact ⟨hi, hre⟩
    | skip => exact ⟨hi, hre⟩
    | take => exact ⟨hi, hre⟩
    | tdone => exact ⟨hi, hre⟩
    | tthrow => exact ⟨hi, hre⟩
    | reply => exact ⟨hi, hre⟩

/-! ## Termination -/

/-- Other threads do something. -/
def Others (s s' : St S) : Prop := ∃ ev : Ev α, ¬ ev.isMain ∧ s.next ev = some s'

theorem Move.others {ev : Ev α} {s s' : St S} (h : Move S ev s s') (hm : ¬ ev.isMain) :
    s'.stack = s.stack := by
  cases h <;> first | rfl | (exact absurd trivial hm)

/-- After other threads did something, the main thread makes a step in a call. -/
def Works (s' s : St S) : Prop :=
  ∃ s1, s1.stack = s.stack ∧ s1.stack ≠ [] ∧ ∃ x pick, Move S (.main x pick) s1 s'

/-- With this stack the main thread gets back. -/
def Back (st : List (Frame S)) : Prop := ∀ s : St S, s.stack = st → Acc Works s

theorem back_nil : Back ([] : List (Frame S)) := by
  intro s hs
  refine ⟨_, ?_⟩
  rintro s' ⟨s1, h1, h2, _⟩
  exact absurd (h1.trans hs) h2

theorem back_cons {f : Frame S} {st : List (Frame S)}
    (h : ∀ (s1 s' : St S) x pick, s1.stack = f :: st → Move S (.main x pick) s1 s' → Back s'.stack) :
    Back (f :: st) := by
  intro s hs
  refine ⟨_, ?_⟩
  rintro s' ⟨s1, h1, _, x, pick, hm⟩
  exact h s1 s' x pick (h1.trans hs) hm s' rfl

theorem back_loop (Q : α → Prop)
    (hQ : ∀ a, Q a → S.isAsync a = false → ∀ x m v st, Back st →
      Back (.body a ((S.obj a).onRequest x m v) :: st))
    (m : Msg) : ∀ (todo : List α), (∀ a ∈ todo, S.isAsync a = true ∨ Q a) → ∀ st : List (Frame S),
      Back st → Back (.loop m todo :: st) := by
  intro todo
  induction todo with
  | nil =>
    intro _ st hb
    refine back_cons fun s1 s' x pick h1 hm => ?_
    cases hm with
    | ret h2 => rw [h1] at h2; cases h2; exact hb
    | _ => first | (simp_all; done) | (rename_i h2; rw [h1] at h2; cases h2)
  | cons a t ih =>
    intro ha st hb
    have hb' := ih (fun b hb => ha b (List.mem_cons_of_mem _ hb)) st hb
    refine back_cons fun s1 s' x pick h1 hm => ?_
    cases hm with
    | post h2 h3 => rw [h1] at h2; cases h2; exact hb'
    | call h2 h3 =>
      rw [h1] at h2; cases h2
      rcases ha a List.mem_cons_self with h | h
      · rw [h3] at h; cases h
      · exact hQ a h h3 _ _ _ _ hb'
    | _ => first | (simp_all; done) | (rename_i h2; rw [h1] at h2; cases h2)

theorem back_body {layer : α → Nat}
    (hL : ∀ a, S.isAsync a = false → ∀ x m v, ((S.obj a).onRequest x m v).Sends (Ok S layer a)) :
    ∀ (n : Nat) (a : α), layer a = n → ∀ p : Prog (S.obj a).σ, p.Sends (Ok S layer a) →
      ∀ st : List (Frame S), Back st → Back (.body a p :: st) := by
  intro n
  induction n using Nat.strongRecOn with
  | ind n ih =>
    intro a ha p
    induction p with
    | done v =>
      intro _ st hb
      refine back_cons fun s1 s' x pick h1 hm => ?_
      cases hm with
      | done h2 => rw [h1] at h2; cases h2; exact hb
      | _ => first | (simp_all; done) | (rename_i h2; rw [h1] at h2; cases h2)
    | throw v =>
      intro _ st hb
      refine back_cons fun s1 s' x pick h1 hm => ?_
      cases hm with
      | throw h2 => exact back_nil
      | _ => first | (simp_all; done) | (rename_i h2; rw [h1] at h2; cases h2)
    | respond v m k ihk =>
      intro hp st hb
      have hw : Back (.wait a k :: st) := by
        refine back_cons fun s1 s' x pick h1 hm => ?_
        cases hm with
        | resume h2 => rw [h1] at h2; cases h2; exact ihk _ (hp.2 _) st hb
        | _ => first | (simp_all; done) | (rename_i h2; rw [h1] at h2; cases h2)
      refine back_cons fun s1 s' x pick h1 hm => ?_
      cases hm with
      | respond h2 =>
        rw [h1] at h2; cases h2
        unfold St.send
        split
        · exact hw
        · rename_i hn
          refine back_loop (fun b => layer b < n) ?_ m _ ?_ _ hw
          · intro b hb hs x m v st hbk
            exact ih (layer b) hb b rfl _ (hL b hs x m v) st hbk
          · rcases hp.1 with g | g
            · exact absurd g hn
            · intro b hb; rw [← ha]; exact g b hb
      | _ => first | (simp_all; done) | (rename_i h2; rw [h1] at h2; cases h2)

theorem back_stk {layer : α → Nat}
    (hL : ∀ a, S.isAsync a = false → ∀ x m v, ((S.obj a).onRequest x m v).Sends (Ok S layer a)) :
    ∀ st : List (Frame S), Stk layer st → Back st := by
  intro st
  induction st with
  | nil => intro _; exact back_nil
  | cons f st ih =>
    intro h
    cases f with
    | loop m todo =>
      refine back_loop (fun _ => True) ?_ m todo (fun _ _ => .inr trivial) st (ih h.2)
      intro b _ hs x m v st hbk
      exact back_body hL _ b rfl _ (hL b hs x m v) st hbk
    | body a p => exact back_body hL _ a rfl p h.1 st (ih h.2.2)
    | wait a k =>
      refine back_cons fun s1 s' x pick h1 hm => ?_
      cases hm with
      | resume h2 => rw [h1] at h2; cases h2; exact back_body hL _ a rfl _ (h.1 _) st (ih h.2.2)
      | _ => first | (simp_all; done) | (rename_i h2; rw [h1] at h2; cases h2)

theorem comes_back {f : Nat → St S} {ev : Nat → Ev α} (hs : ∀ n, (f n).next (ev n) = some (f (n + 1)))
    (hm : ∀ n, ∃ k, n ≤ k ∧ (ev k).isMain) {s : St S} (ha : Acc Works s) :
    ∀ n, s.stack = (f n).stack → ∃ k, n ≤ k ∧ (f k).stack = [] := by
  induction ha with
  | intro s _ ih =>
    intro n hn
    obtain ⟨k, hk, hmk⟩ := hm n
    -- the first step of the main thread from `n` on
    have hex : ∃ k, n ≤ k ∧ (ev k).isMain := ⟨k, hk, hmk⟩
    classical
    have h1 := Nat.find_spec hex
    have hmin : ∀ j, n ≤ j → j < Nat.find hex → ¬ (ev j).isMain := by
      intro j hj hlt hmj
      exact Nat.find_min hex hlt ⟨hj, hmj⟩
    generalize Nat.find hex = k at h1 hmin
    have hst : ∀ j, n ≤ j → j ≤ k → (f j).stack = (f n).stack := by
      intro j hj
      induction j, hj using Nat.le_induction with
      | base => intro _; rfl
      | succ j hj ihj =>
        intro hlt
        have := (move_of_next (hs j)).others (hmin j hj (by omega))
        rw [this]; exact ihj (by omega)
    by_cases h0 : (f k).stack = []
    · exact ⟨k, h1.1, h0⟩
    · have hmv := move_of_next (hs k)
      cases hev : ev k with
      | main x pick =>
        rw [hev] at hmv
        obtain ⟨j, hj, hj'⟩ := ih (f (k + 1))
          ⟨f k, by rw [hn]; exact hst k h1.1 (Nat.le_refl _), h0, x, pick, hmv⟩ (k + 1) rfl
        exact ⟨j, by omega, hj'⟩
      | _ => have := h1.2; rw [hev] at this; cases this

end Broker.Reactor
