import Verif.Model.Queue

/-! # Facts about maps keyed by worker addresses -/

namespace Broker
namespace WMap
variable {V : Type}

/-- Keys in strictly increasing order of address. -/
def Sorted (m : WMap V) : Prop := m.Pairwise (fun a b => a.1.addr < b.1.addr)

/-- Everything the operations do at a present key. -/
theorem split {m : WMap V} {w : Worker} (hs : m.Sorted) (hw : w ∈ m.map (·.1)) :
    ∃ v l r, m = l ++ (w, v) :: r ∧ m.find w = some v ∧ (∀ v', m.put w v' = l ++ (w, v') :: r) ∧
      m.erase w = l ++ r ∧ ∀ d, m.emplace w d = m := by
  induction m with
  | nil => simp at hw
  | cons a t ih =>
    obtain ⟨x, u⟩ := a
    rw [Sorted, List.pairwise_cons] at hs
    by_cases hx : x = w
    · subst hx
      refine ⟨u, [], t, ?_⟩
      simp [find, put, erase, emplace]
    · have hw' : w ∈ t.map (·.1) := by
        simp only [List.map_cons, List.mem_cons] at hw
        rcases hw with h | h
        · exact absurd h.symm hx
        · exact h
      have hlt : x.addr < w.addr := by
        obtain ⟨e, he, heq⟩ := List.mem_map.1 hw'
        have := hs.1 e he
        rw [heq] at this; exact this
      obtain ⟨v, l, r, h1, h2, h3, h4, h5⟩ := ih hs.2 hw'
      have e1 : ¬ x.addr = w.addr := by omega
      have e2 : ¬ w.addr < x.addr := by omega
      refine ⟨v, (x, u) :: l, r, ?_, ?_, ?_, ?_, ?_⟩
      · simp [h1]
      · simp [find, e1, h2]
      · intro v'; simp [put, e1, e2, h3]
      · simp [erase, e1, h4]
      · intro d; simp [emplace, e1, e2, h5]

/-- Everything the operations do at an absent key. -/
theorem split_fresh {m : WMap V} {w : Worker} (hs : m.Sorted)
    (hw : w.addr ∉ m.map (·.1.addr)) :
    ∃ l r, m = l ++ r ∧ m.find w = none ∧ (∀ v', m.put w v' = l ++ (w, v') :: r) ∧
      (∀ v', m.emplace w v' = l ++ (w, v') :: r) ∧
      ∀ v', (l ++ (w, v') :: r).Pairwise (fun a b => a.1.addr < b.1.addr) := by
  induction m with
  | nil => exact ⟨[], [], by simp [find, put, emplace]⟩
  | cons a t ih =>
    obtain ⟨x, u⟩ := a
    have hs0 := hs
    rw [Sorted, List.pairwise_cons] at hs
    simp only [List.map_cons, List.mem_cons, not_or] at hw
    obtain ⟨hne, hw⟩ := hw
    obtain ⟨l, r, h1, h2, h3, h4, h5⟩ := ih hs.2 hw
    by_cases hlt : w.addr < x.addr
    · refine ⟨[], (x, u) :: t, ?_⟩
      have e1 : ¬ x.addr = w.addr := by omega
      refine ⟨rfl, by simp [find, e1, h2], by simp [put, e1, hlt], by simp [emplace, e1, hlt], ?_⟩
      intro v'
      simp only [List.nil_append, List.pairwise_cons]
      refine ⟨?_, hs⟩
      intro e he
      rcases List.mem_cons.1 he with rfl | he
      · exact hlt
      · exact Nat.lt_trans hlt (hs.1 e he)
    · have e1 : ¬ x.addr = w.addr := by omega
      refine ⟨(x, u) :: l, r, by simp [h1], by simp [find, e1, h2], by simp [put, e1, hlt, h3],
        by simp [emplace, e1, hlt, h4], ?_⟩
      intro v'
      simp only [List.cons_append, List.pairwise_cons]
      refine ⟨?_, h5 v'⟩
      intro e he
      have : e ∈ t ∨ e = (w, v') := by
        rw [h1]; simp only [List.mem_append, List.mem_cons] at he ⊢
        rcases he with h | h | h <;> simp [h]
      rcases this with h | rfl
      · exact hs.1 e h
      · show x.addr < w.addr
        omega

theorem Sorted.of_keys {U : Type} {m : WMap V} {m' : WMap U} (h : m.Sorted)
    (hk : m'.map (·.1) = m.map (·.1)) : m'.Sorted := by
  have h' : (m.map (·.1)).Pairwise (fun a b => a.addr < b.addr) := by
    rw [List.pairwise_map]; exact h
  rw [← hk, List.pairwise_map] at h'
  exact h'

theorem Sorted.addr_nodup {m : WMap V} (h : m.Sorted) : (m.map (·.1.addr)).Nodup := by
  rw [List.Nodup, List.pairwise_map]
  exact h.imp (fun h => Nat.ne_of_lt h)

theorem Sorted.sublist {m m' : WMap V} (h : m.Sorted) (hm : m'.Sublist m) : m'.Sorted :=
  List.Pairwise.sublist hm h

/-- `find` on any map sees the first entry with the address. -/
theorem find_put_self {m : WMap V} {w : Worker} {v : V} : (m.put w v).find w = some v := by
  induction m with
  | nil => simp [put, find]
  | cons a t ih =>
    obtain ⟨x, u⟩ := a
    simp only [put]
    by_cases h : x.addr = w.addr
    · simp [h, find]
    · by_cases h2 : w.addr < x.addr
      · simp [h, h2, find]
      · simp [h, h2, find, ih]

theorem find_put_of_ne {m : WMap V} {w x : Worker} {v : V} (h : x.addr ≠ w.addr) :
    (m.put w v).find x = m.find x := by
  induction m with
  | nil => simp [put, find, Ne.symm h]
  | cons a t ih =>
    obtain ⟨y, u⟩ := a
    simp only [put]
    by_cases h1 : y.addr = w.addr
    · have : ¬ y.addr = x.addr := by omega
      simp [h1, find, Ne.symm h]
    · by_cases h2 : w.addr < y.addr
      · simp [h1, h2, find, Ne.symm h]
      · simp [h1, h2, find, ih]

theorem find_emplace_of_ne {m : WMap V} {w x : Worker} {v : V} (h : x.addr ≠ w.addr) :
    (m.emplace w v).find x = m.find x := by
  induction m with
  | nil => simp [emplace, find, Ne.symm h]
  | cons a t ih =>
    obtain ⟨y, u⟩ := a
    simp only [emplace]
    split
    · rfl
    · split
      · simp [find, Ne.symm h]
      · simp only [find, ih]

theorem find_emplace_self {m : WMap V} {w : Worker} {v : V} (h : w.addr ∉ m.map (·.1.addr)) :
    (m.emplace w v).find w = some v := by
  induction m with
  | nil => simp [emplace, find]
  | cons a t ih =>
    obtain ⟨y, u⟩ := a
    simp only [List.map_cons, List.mem_cons, not_or] at h
    simp only [emplace, if_neg (Ne.symm h.1)]
    split
    · simp [find]
    · simp only [find, if_neg (Ne.symm h.1)]
      exact ih h.2

end WMap
end Broker
