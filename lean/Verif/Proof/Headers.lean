import Verif.Proof.Capability

/-! # Multimaps of headers -/

namespace Broker

theorem str_le_of_lt {a b : String} (h : a < b) : a ≤ b :=
  fun h' => String.lt_irrefl a (String.lt_trans h h')

theorem str_lt_of_lt_of_le {a b c : String} (h : a < b) (h' : b ≤ c) : a < c := by
  rcases Classical.em (a < c) with hc | hc
  · exact hc
  · have h2 : c ≤ a := hc
    have : b ≤ a := String.le_trans h' h2
    exact absurd h this

/-- Entries sorted by key. -/
def MMap.Sorted {V : Type} (m : MMap V) : Prop := m.Pairwise (fun a b => a.1 ≤ b.1)

theorem mmEmplace_sorted {V : Type} {k : String} {v : V} {m : MMap V} (h : m.Sorted) :
    (mmEmplace k v m).Sorted := by
  induction m with
  | nil => simp [mmEmplace, MMap.Sorted]
  | cons a t ih =>
    obtain ⟨k', v'⟩ := a
    have h' := List.pairwise_cons.1 h
    simp only [mmEmplace]
    split
    · rename_i hlt
      refine List.pairwise_cons.2 ⟨?_, h⟩
      intro b hb
      rcases List.mem_cons.1 hb with rfl | hb
      · exact str_le_of_lt hlt
      · exact String.le_trans (str_le_of_lt hlt) (h'.1 b hb)
    · rename_i hlt
      refine List.pairwise_cons.2 ⟨?_, ih h'.2⟩
      intro b hb
      rcases mem_mmEmplace.1 hb with rfl | hb
      · exact hlt
      · exact h'.1 b hb

theorem mmRange_nil_of_lt {V : Type} {k : String} {m : MMap V} (h : ∀ e ∈ m, k < e.1) :
    mmRange k m = [] := by
  simp only [mmRange, List.map_eq_nil_iff, List.filter_eq_nil_iff, beq_iff_eq]
  intro e he hk
  have := h e he
  rw [hk] at this
  exact String.lt_irrefl _ this

theorem mmRange_emplace {V : Type} {k k' : String} {v : V} {m : MMap V} (h : m.Sorted) :
    mmRange k (mmEmplace k' v m) = if k' = k then mmRange k m ++ [v] else mmRange k m := by
  induction m with
  | nil =>
    by_cases hk : k' = k <;> simp [mmEmplace, mmRange, hk]
  | cons a t ih =>
    obtain ⟨k2, v2⟩ := a
    have h' := List.pairwise_cons.1 h
    simp only [mmEmplace]
    split
    · rename_i hlt
      by_cases hk : k' = k
      · subst hk
        have hn : mmRange k' ((k2, v2) :: t) = [] := by
          refine mmRange_nil_of_lt ?_
          intro e he
          rcases List.mem_cons.1 he with rfl | he
          · exact hlt
          · exact str_lt_of_lt_of_le hlt (h'.1 e he)
        rw [if_pos rfl, hn]
        have : mmRange k' ((k', v) :: (k2, v2) :: t) = v :: mmRange k' ((k2, v2) :: t) := by
          simp [mmRange]
        rw [this, hn]; rfl
      · rw [if_neg hk]
        simp [mmRange, hk]
    · have iht := ih h'.2
      have e1 : ∀ l : MMap V, mmRange k ((k2, v2) :: l)
          = if k2 = k then v2 :: mmRange k l else mmRange k l := by
        intro l
        by_cases h2 : k2 = k <;> simp [mmRange, h2]
      rw [e1, e1, iht]
      by_cases hk : k' = k <;> by_cases h2 : k2 = k <;> simp [hk, h2]

/-- Sorted multimaps with the same ranges are equal. -/
theorem mmap_ext {V : Type} {m m' : MMap V} (h : m.Sorted) (h' : m'.Sorted)
    (he : ∀ k, mmRange k m = mmRange k m') : m = m' := by
  have hr : ∀ (k2 : String) (v2 : V) (k : String) (l : MMap V), mmRange k ((k2, v2) :: l)
      = if k2 = k then v2 :: mmRange k l else mmRange k l := by
    intro k2 v2 k l
    by_cases h2 : k2 = k <;> simp [mmRange, h2]
  induction m generalizing m' with
  | nil =>
    cases m' with
    | nil => rfl
    | cons a t =>
      have := he a.1
      rw [hr a.1 a.2, if_pos rfl] at this
      simp [mmRange] at this
  | cons a t ih =>
    obtain ⟨k, v⟩ := a
    cases m' with
    | nil =>
      have := he k
      rw [hr, if_pos rfl] at this
      simp [mmRange] at this
    | cons b t' =>
      obtain ⟨k2, v2⟩ := b
      have hc := List.pairwise_cons.1 h
      have hc' := List.pairwise_cons.1 h'
      have hkk : k = k2 := by
        have mem : ∀ (k : String) (v : V) (l : MMap V), v ∈ mmRange k l → (k, v) ∈ l :=
          fun k v l hv => mem_mmRange.1 hv
        have m1 : (k, v) ∈ (k2, v2) :: t' := by
          refine mem _ _ _ ?_
          rw [← he k, hr, if_pos rfl]; simp
        have m2 : (k2, v2) ∈ (k, v) :: t := by
          refine mem _ _ _ ?_
          rw [he k2, hr, if_pos rfl]; simp
        have l1 : k2 ≤ k := by
          rcases List.mem_cons.1 m1 with h | h
          · rw [(Prod.mk.inj h).1]; exact String.le_refl _
          · exact hc'.1 _ h
        have l2 : k ≤ k2 := by
          rcases List.mem_cons.1 m2 with h | h
          · rw [(Prod.mk.inj h).1]; exact String.le_refl _
          · exact hc.1 _ h
        exact String.le_antisymm l2 l1
      subst hkk
      have h0 := he k
      rw [hr, hr, if_pos rfl, if_pos rfl] at h0
      obtain ⟨rfl, h00⟩ := List.cons.inj h0
      congr 1
      refine ih hc.2 hc'.2 ?_
      intro k3
      by_cases h3 : k = k3
      · subst h3; exact h00
      · have := he k3
        rw [hr, hr, if_neg h3, if_neg h3] at this
        exact this

theorem initHeaders_sorted : ∀ (l : List String) (hs : Headers), hs.Sorted →
    (initHeaders l hs).1.Sorted := by
  intro l
  induction l with
  | nil => intro hs h; exact h
  | cons f t ih =>
    intro hs h
    rw [initHeaders.eq_def]
    simp only
    split
    · exact h
    · exact ih _ (mmEmplace_sorted h)

theorem mmRange_initHeaders (k : String) : ∀ (l : List String) (hs : Headers), hs.Sorted →
    mmRange k (initHeaders l hs).1 = mmRange k hs ++ Spec.declared k l := by
  intro l
  induction l with
  | nil => intro hs h; simp [initHeaders, Spec.declared, Spec.headerFrames]
  | cons f t ih =>
    intro hs h
    rw [initHeaders.eq_def]
    simp only
    split
    · rename_i hf
      simp [Spec.declared, Spec.headerFrames, hf]
    · rename_i hf
      rw [ih _ (mmEmplace_sorted h), mmRange_emplace h, splitHeader_eq]
      have : Spec.headerFrames (f :: t) = f :: Spec.headerFrames t := by
        simp [Spec.headerFrames, hf]
      by_cases hk : Spec.frameKey f = k <;> simp [Spec.declared, this, hk]

/-- Headers of two `init` messages are equal exactly if every name has the same values in the same
    order. -/
theorem initHeaders_eq_iff (l l' : List String) :
    (initHeaders l []).1 = (initHeaders l' []).1 ↔ ∀ k, Spec.declared k l = Spec.declared k l' := by
  have hn : MMap.Sorted ([] : Headers) := List.Pairwise.nil
  constructor
  · intro h k
    have h1 := mmRange_initHeaders k l [] hn
    have h2 := mmRange_initHeaders k l' [] hn
    rw [h] at h1
    rw [h1] at h2
    simpa [mmRange] using h2
  · intro h
    refine mmap_ext (initHeaders_sorted _ _ hn) (initHeaders_sorted _ _ hn) ?_
    intro k
    rw [mmRange_initHeaders k l [] hn, mmRange_initHeaders k l' [] hn, h k]

end Broker
