import Verif.Proof.WMap

/-! # Maps of current requests -/

namespace Broker

/-- Busy pairs of a map of current requests. -/
def busyList (m : WMap (Option Req)) : List (Worker × Req) :=
  m.filterMap (fun e => e.2.map (fun r => (e.1, r)))

@[simp] theorem busyList_nil : busyList [] = [] := rfl

@[simp] theorem busyList_append (a b : WMap (Option Req)) :
    busyList (a ++ b) = busyList a ++ busyList b := by simp [busyList]

@[simp] theorem busyList_cons_none (w : Worker) (b : WMap (Option Req)) :
    busyList ((w, none) :: b) = busyList b := by simp [busyList]

@[simp] theorem busyList_cons_some (w : Worker) (r : Req) (b : WMap (Option Req)) :
    busyList ((w, some r) :: b) = (w, r) :: busyList b := by simp [busyList]

theorem mem_busyList {m : WMap (Option Req)} {p : Worker × Req} :
    p ∈ busyList m ↔ (p.1, some p.2) ∈ m := by
  simp only [busyList, List.mem_filterMap, Option.map_eq_some_iff]
  constructor
  · rintro ⟨⟨w, o⟩, h, r, h1, h2⟩
    simp at h1; subst h1; subst h2; exact h
  · intro h; exact ⟨_, h, p.2, rfl, rfl⟩

theorem busyList_addr_sublist (m : WMap (Option Req)) :
    ((busyList m).map (·.1.addr)).Sublist (m.map (·.1.addr)) := by
  induction m with
  | nil => simp
  | cons a t ih =>
    obtain ⟨w, o⟩ := a
    cases o with
    | none => simpa using ih.trans (List.sublist_cons_self _ _)
    | some r => simpa using ih

/-- In a sorted map an address determines the entry. -/
theorem WMap.Sorted.unique {V : Type} {m : WMap V} (hs : m.Sorted) {w x : Worker} {v u : V}
    (h1 : (w, v) ∈ m) (h2 : (x, u) ∈ m) (h : w.addr = x.addr) : w = x ∧ v = u := by
  induction m with
  | nil => simp at h1
  | cons a t ih =>
    rw [WMap.Sorted, List.pairwise_cons] at hs
    rcases List.mem_cons.1 h1 with h1 | h1 <;> rcases List.mem_cons.1 h2 with h2 | h2
    · rw [← h1] at h2; cases h2; exact ⟨rfl, rfl⟩
    · have := hs.1 _ h2; rw [← h1] at this; simp at this; omega
    · have := hs.1 _ h1; rw [← h2] at this; simp at this; omega
    · exact ih hs.2 h1 h2

end Broker
