import Verif.Proof.Headers
import Verif.Proof.Numbers

/-! # Parsing of the frames of `eval`, numerals, lists of alternatives -/

set_option linter.unusedSimpArgs false

namespace Broker

/-! ## Keys and values of frames -/

theorem takeWhile_ne_append {k v : List Char} (h : '=' ∉ k) :
    (k ++ '=' :: v).takeWhile (· != '=') = k := by
  induction k with
  | nil => simp
  | cons c t ih =>
    simp only [List.mem_cons, not_or] at h
    have : (c != '=') = true := by simpa using Ne.symm h.1
    simp only [List.cons_append, List.takeWhile_cons, this, if_true, ih h.2]

theorem dropWhile_ne_append {k v : List Char} (h : '=' ∉ k) :
    (k ++ '=' :: v).dropWhile (· != '=') = '=' :: v := by
  induction k with
  | nil => simp
  | cons c t ih =>
    simp only [List.mem_cons, not_or] at h
    have : (c != '=') = true := by simpa using Ne.symm h.1
    simp only [List.cons_append, List.dropWhile_cons, this, if_true, ih h.2]

theorem frameKey_encode {k v : String} (h : '=' ∉ k.toList) :
    Spec.frameKey (k ++ "=" ++ v) = k := by
  simp only [Spec.frameKey, String.toList_append, List.append_assoc]
  have : "=".toList ++ v.toList = '=' :: v.toList := rfl
  rw [this, takeWhile_ne_append h, String.ofList_toList]

theorem frameValue_encode {k v : String} (h : '=' ∉ k.toList) :
    Spec.frameValue (k ++ "=" ++ v) = v := by
  simp only [Spec.frameValue, String.toList_append, List.append_assoc]
  have : "=".toList ++ v.toList = '=' :: v.toList := rfl
  rw [this, dropWhile_ne_append h, if_pos (by simp), List.tail_cons, String.ofList_toList]

/-! ## `std::map` -/

/-- Entries sorted by key, keys distinct. -/
def MMap.StrictSorted {V : Type} (m : MMap V) : Prop := m.Pairwise (fun a b => a.1 < b.1)

theorem mem_mapEmplace {V : Type} {k : String} {v : V} {m : MMap V} {e : String × V}
    (h : e ∈ mapEmplace k v m) : e = (k, v) ∨ e ∈ m := by
  induction m with
  | nil => simpa [mapEmplace] using h
  | cons a t ih =>
    obtain ⟨k', v'⟩ := a
    simp only [mapEmplace] at h
    split at h
    · exact .inr h
    · split at h
      · rcases List.mem_cons.1 h with h | h
        · exact .inl h
        · exact .inr h
      · rcases List.mem_cons.1 h with h | h
        · exact .inr (by rw [h]; simp)
        · rcases ih h with h | h
          · exact .inl h
          · exact .inr (List.mem_cons_of_mem _ h)

theorem str_lt_of_not {a b : String} (h1 : a ≠ b) (h2 : ¬ a < b) : b < a := by
  apply Classical.byContradiction
  intro h3
  exact h1 (String.le_antisymm (show ¬ b < a from h3) (show ¬ a < b from h2))

theorem mapEmplace_sorted {V : Type} {k : String} {v : V} {m : MMap V} (h : m.StrictSorted) :
    (mapEmplace k v m).StrictSorted := by
  induction m with
  | nil => simp [mapEmplace, MMap.StrictSorted]
  | cons a t ih =>
    obtain ⟨k', v'⟩ := a
    have h' := List.pairwise_cons.1 h
    simp only [mapEmplace]
    split
    · exact h
    · rename_i hne
      split
      · rename_i hlt
        refine List.pairwise_cons.2 ⟨?_, h⟩
        intro b hb
        rcases List.mem_cons.1 hb with rfl | hb
        · exact hlt
        · exact String.lt_trans hlt (h'.1 b hb)
      · rename_i hlt
        refine List.pairwise_cons.2 ⟨?_, ih h'.2⟩
        intro b hb
        rcases mem_mapEmplace hb with rfl | hb
        · exact str_lt_of_not hne hlt
        · exact h'.1 b hb

theorem mmRange_mapEmplace {V : Type} {k k' : String} {v : V} {m : MMap V} (h : m.StrictSorted) :
    mmRange k (mapEmplace k' v m)
      = if k' = k ∧ mmRange k m = [] then [v] else mmRange k m := by
  have hc : ∀ (k2 : String) (v2 : V) (l : MMap V), mmRange k ((k2, v2) :: l)
      = if k2 = k then v2 :: mmRange k l else mmRange k l := by
    intro k2 v2 l
    by_cases h2 : k2 = k <;> simp [mmRange, h2]
  induction m with
  | nil =>
    by_cases hk : k' = k <;> simp [mapEmplace, mmRange, hk]
  | cons a t ih =>
    obtain ⟨k2, v2⟩ := a
    have h' := List.pairwise_cons.1 h
    simp only [mapEmplace]
    split
    · rename_i hk
      subst hk
      by_cases hk : k' = k
      · rw [if_neg]
        rintro ⟨_, he⟩
        rw [hc, if_pos hk] at he
        cases he
      · rw [if_neg (fun h => hk h.1)]
    · rename_i hne
      split
      · rename_i hlt
        by_cases hk : k' = k
        · subst hk
          have hn : mmRange k' ((k2, v2) :: t) = [] := by
            refine mmRange_nil_of_lt ?_
            intro e he
            rcases List.mem_cons.1 he with rfl | he
            · exact hlt
            · exact String.lt_trans hlt (h'.1 e he)
          rw [if_pos ⟨rfl, hn⟩, hc, if_pos rfl, hn]
        · rw [if_neg (fun h => hk h.1), hc k', if_neg hk]
      · rw [hc, hc, ih h'.2]
        by_cases h2 : k2 = k
        · have hk : k' ≠ k := fun h => hne (h.trans h2.symm)
          rw [if_pos h2, if_pos h2, if_neg (fun h => hk h.1), if_neg (fun h => hk h.1)]
        · rw [if_neg h2, if_neg h2]

/-! ## The header loop of `eval` -/

/-- What the header loop of `eval` makes of its frames: headers by name in order of appearance,
    metadata by name, the first one only. -/
theorem evalHeaders_ranges : ∀ (l : List String) (hs : Headers) (md : Metadata) (x),
    hs.Sorted → md.StrictSorted → evalHeaders l hs md = .ok (some x) →
    x.1.Sorted ∧ x.2.1.StrictSorted ∧
    (∀ k, mmRange k x.1 = mmRange k hs
      ++ ((Spec.headerFrames l).filter (fun f => !Spec.isMeta f && Spec.frameKey f == k)).map
        Spec.frameValue) ∧
    (∀ k, mmRange k x.2.1 = (mmRange k md
      ++ ((Spec.headerFrames l).filter (fun f => Spec.frameKey f == "meta." ++ k)).map
        Spec.frameValue).take 1) := by
  intro l
  induction l with
  | nil => intro hs md x _ _ h; simp [evalHeaders] at h
  | cons f t ih =>
    intro hs md x h1 h2 h
    have hlen : ∀ (k : String) (m : Metadata), m.StrictSorted → (mmRange k m).length ≤ 1 := by
      intro k m hm
      induction m with
      | nil => simp [mmRange]
      | cons a t ih =>
        obtain ⟨k2, v2⟩ := a
        have h' := List.pairwise_cons.1 hm
        by_cases hk : k2 = k
        · subst hk
          have : mmRange k2 t = [] := mmRange_nil_of_lt h'.1
          have e : mmRange k2 ((k2, v2) :: t) = v2 :: mmRange k2 t := by simp [mmRange]
          rw [e, this]; simp
        · have e : mmRange k ((k2, v2) :: t) = mmRange k t := by simp [mmRange, hk]
          rw [e]; exact ih h'.2
    rw [evalHeaders.eq_def] at h
    simp only at h
    by_cases hf : f = ""
    · rw [if_pos hf] at h
      simp only [Except.ok.injEq, Option.some.injEq] at h
      subst h; subst hf
      refine ⟨h1, h2, ?_, ?_⟩
      · simp [Spec.headerFrames]
      · intro k
        simp only [Spec.headerFrames, List.takeWhile_cons, bne_self_eq_false, Bool.false_eq_true,
          if_false, List.filter_nil, List.map_nil, List.append_nil]
        exact (List.take_of_length_le (hlen k md h2)).symm
    · rw [if_neg hf] at h
      have hfb : (f != "") = true := by simpa using hf
      have hhf : Spec.headerFrames (f :: t) = f :: Spec.headerFrames t := by
        simp [Spec.headerFrames, List.takeWhile_cons, hfb]
      cases t with
      | nil => simp at h
      | cons f2 t2 =>
        simp only [splitHeader_eq] at h
        have hmeta : ((Spec.frameKey f).toList.take 5 = "meta.".toList) ↔ Spec.isMeta f = true := by
          simp [Spec.isMeta]
        rw [hhf]
        by_cases hm : Spec.isMeta f = true
        · rw [if_pos (hmeta.2 hm)] at h
          obtain ⟨g1, g2, g3, g4⟩ := ih _ _ _ h1 (mapEmplace_sorted h2) h
          refine ⟨g1, g2, ?_, ?_⟩
          · intro k
            rw [g3 k]
            simp [hm]
          · intro k
            rw [g4 k, mmRange_mapEmplace h2]
            have hk : (String.ofList ((Spec.frameKey f).toList.drop 5) = k) ↔
                Spec.frameKey f = "meta." ++ k := by
              constructor
              · rintro rfl
                apply String.ext
                have e : (['m', 'e', 't', 'a', '.'] : List Char)
                    = (Spec.frameKey f).toList.take 5 := (hmeta.2 hm).symm
                rw [String.toList_append]
                change _ = ['m', 'e', 't', 'a', '.'] ++ _
                rw [e, String.toList_ofList, List.take_append_drop]
              · intro h
                rw [h, String.toList_append]
                have : ("meta.".toList ++ k.toList).drop 5 = k.toList := rfl
                rw [this, String.ofList_toList]
            by_cases hkf : Spec.frameKey f = "meta." ++ k
            · have e1 := hk.2 hkf
              by_cases hn : mmRange k md = []
              · rw [if_pos ⟨e1, hn⟩, hn]
                simp [hkf]
              · rw [if_neg (fun h => hn h.2)]
                have : ∀ (l l' : List String), mmRange k md ≠ [] →
                    (mmRange k md ++ l).take 1 = (mmRange k md ++ l').take 1 := by
                  intro l l' hne
                  cases hm : mmRange k md with
                  | nil => exact absurd hm hne
                  | cons a t => simp
                exact this _ _ hn
            · rw [if_neg (fun h => hkf (hk.1 h.1))]
              simp [hkf]
        · rw [if_neg (fun h => hm (hmeta.1 h))] at h
          have hm' : Spec.isMeta f = false := by simpa using hm
          obtain ⟨g1, g2, g3, g4⟩ := ih _ _ _ (mmEmplace_sorted h1) h2 h
          refine ⟨g1, g2, ?_, ?_⟩
          · intro k
            rw [g3 k, mmRange_emplace h1]
            by_cases hk : Spec.frameKey f = k <;> simp [hk, hm']
          · intro k
            rw [g4 k]
            have : Spec.frameKey f ≠ "meta." ++ k := by
              intro h
              apply hm
              rw [← hmeta, h, String.toList_append]
              rfl
            simp [this]

/-! ## Numerals -/

theorem isCount_natStr {n : Nat} (h : n < 2 ^ 64) : Spec.IsCount (natStr n) n := by
  obtain ⟨h1, h2, h3⟩ := natStr_isDecimal n
  refine ⟨[], [], (natStr n).toList, [], by simp, by simp, .inl rfl, h1, h2, by simp, ?_, ?_⟩
  · rw [h3]; exact h
  · rw [if_neg (by simp), h3]

theorem IsCount_unique {s : String} {n m : Nat} (h : Spec.IsCount s n) (h' : Spec.IsCount s m) :
    n = m := by
  have h1 := (stoul_iff s n).2 h
  rw [(stoul_iff s m).2 h'] at h1
  exact (Except.ok.inj h1).symm

/-! ## Alternatives -/

theorem multiMatchGo_plain (v : List Char) : ∀ (a seg : List Char), '|' ∉ a →
    multiMatchGo v seg a = (seg.reverse ++ a == v) := by
  intro a
  induction a with
  | nil => intro seg _; simp [multiMatchGo]
  | cons c t ih =>
    intro seg h
    simp only [List.mem_cons, not_or] at h
    rw [multiMatchGo.eq_def]
    simp only [if_neg (Ne.symm h.1), ih (c :: seg) h.2]
    simp

theorem multiMatchGo_bar (v : List Char) (rest : List Char) : ∀ (a seg : List Char), '|' ∉ a →
    multiMatchGo v seg (a ++ '|' :: rest)
      = (seg.reverse ++ a == v || (rest != [] && multiMatchGo v [] rest)) := by
  intro a
  induction a with
  | nil =>
    intro seg _
    rw [List.nil_append, multiMatchGo.eq_def]
    cases rest with
    | nil => by_cases h : seg.reverse = v <;> simp [h]
    | cons c t =>
      simp only [if_true, List.append_nil]
      by_cases h : (seg.reverse == v) = true
      · simp [h]
      · simp [h]
  | cons c t ih =>
    intro seg h
    simp only [List.mem_cons, not_or] at h
    rw [List.cons_append, multiMatchGo.eq_def]
    simp only [if_neg (Ne.symm h.1), ih (c :: seg) h.2]
    simp

/-- Alternatives of a list written with `|`: all but an empty one at the end. -/
theorem multiMatch_join (g : String) : ∀ (alts : List String), (∀ a ∈ alts, '|' ∉ a.toList) →
    (multiMatch g ("|".intercalate alts) = true ↔
      g ∈ if alts.getLast? = some "" then alts.dropLast else alts) := by
  have hmm : ∀ v : String, multiMatch g v = (v.toList != [] && multiMatchGo g.toList [] v.toList) := by
    intro v
    unfold multiMatch
    cases v.toList <;> simp
  have hbeq : ∀ a : String, (a.toList == g.toList) = decide (g = a) := by
    intro a
    by_cases h : g = a
    · simp [h]
    · have : a.toList ≠ g.toList := fun h' => h (String.ext h'.symm)
      simp [h, this]
  intro alts
  induction alts with
  | nil => intro _; simp [hmm]
  | cons a t ih =>
    intro hall
    have ha : '|' ∉ a.toList := hall a (by simp)
    cases t with
    | nil =>
      rw [hmm]
      have : ("|".intercalate [a]) = a := by simp
      rw [this, multiMatchGo_plain _ _ _ ha]
      by_cases h0 : a = ""
      · subst h0; simp
      · have : a.toList ≠ [] := fun h => h0 (String.ext h)
        simp only [List.reverse_nil, List.nil_append, hbeq]
        simp [h0, this]
    | cons b t =>
      have ih' := ih (fun x hx => hall x (List.mem_cons_of_mem _ hx))
      rw [hmm, String.intercalate_cons_cons, String.toList_append, String.toList_append,
        List.append_assoc]
      have e : "|".toList ++ ("|".intercalate (b :: t)).toList
        = '|' :: ("|".intercalate (b :: t)).toList := rfl
      rw [e, multiMatchGo_bar _ _ _ _ ha, ← hmm]
      have e2 : (a.toList ++ '|' :: ("|".intercalate (b :: t)).toList != []) = true := by simp
      rw [e2, Bool.true_and, Bool.or_eq_true, ih', List.reverse_nil, List.nil_append, hbeq]
      simp only [decide_eq_true_eq, List.getLast?_cons_cons, List.dropLast_cons_cons]
      by_cases hl : (b :: t).getLast? = some "" <;> simp [hl]

/-! ## Totality of matching -/

/-- Without malformed numbers, matching of one header gives an answer. -/
theorem checkHeader_total (w : Worker) (k v : String)
    (hk : k = "threads" → ∃ n, Spec.IsCount v n) (hw : w.WF) :
    ∃ b, w.checkHeader k v = .ok b := by
  unfold Worker.checkHeader
  have hm : ∀ m ∈ mmRange k w.matchers, (k = "threads" ↔ ∃ n, m = .count n) :=
    fun m h => hw (k, m) (mem_mmRange.1 h)
  generalize mmRange k w.matchers = l at hm
  induction l with
  | nil => exact ⟨false, rfl⟩
  | cons a t ih =>
    obtain ⟨b, hb⟩ := ih (fun m h => hm m (List.mem_cons_of_mem _ h))
    have hrun : ∃ c, a.run v = .ok c := by
      cases a with
      | exact x => exact ⟨_, rfl⟩
      | multi x => exact ⟨_, rfl⟩
      | count n =>
        obtain ⟨m, hv⟩ := hk ((hm _ (by simp)).2 ⟨n, rfl⟩)
        exact ⟨_, by simp only [Matcher.run, (stoul_iff v m).2 hv]; rfl⟩
    obtain ⟨c, hc⟩ := hrun
    cases c with
    | true => exact ⟨true, by simp [anyMatch, hc]⟩
    | false => exact ⟨b, by simp [anyMatch, hc, hb]⟩

theorem checkHeaders_total (w : Worker) (hw : w.WF) (hs : Headers)
    (hk : ∀ e ∈ hs, e.1 = "threads" → ∃ n, Spec.IsCount e.2 n) :
    ∃ b, w.checkHeaders hs = .ok b := by
  induction hs with
  | nil => exact ⟨true, rfl⟩
  | cons a t ih =>
    obtain ⟨k, v⟩ := a
    obtain ⟨b, hb⟩ := ih (fun e he => hk e (List.mem_cons_of_mem _ he))
    obtain ⟨c, hc⟩ := checkHeader_total w k v (hk (k, v) (by simp)) hw
    cases c with
    | true => exact ⟨b, by simp [Worker.checkHeaders, hc, hb]⟩
    | false => exact ⟨false, by simp [Worker.checkHeaders, hc]⟩

end Broker
