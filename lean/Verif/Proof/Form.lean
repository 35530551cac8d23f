import Verif.Proof.Parsing
import Verif.Spec.Form

/-!
# The query string and its decoding
-/

namespace Broker

/-! ## Sorted assignment -/

theorem mem_mapAssign {V : Type} {k : String} {v : V} : ∀ {m : MMap V} {e : String × V},
    e ∈ mapAssign k v m → e = (k, v) ∨ e ∈ m := by
  intro m
  induction m with
  | nil => intro e h; simpa [mapAssign] using h
  | cons a t ih =>
    obtain ⟨k', v'⟩ := a
    intro e h
    simp only [mapAssign] at h
    split at h
    · rename_i hk
      rcases List.mem_cons.1 h with rfl | h
      · rw [hk]; exact .inl rfl
      · exact .inr (by simp [h])
    · split at h
      · rcases List.mem_cons.1 h with rfl | h
        · exact .inl rfl
        · exact .inr h
      · rcases List.mem_cons.1 h with rfl | h
        · exact .inr (by simp)
        · rcases ih h with h | h
          · exact .inl h
          · exact .inr (by simp [h])

theorem mapAssign_sorted {V : Type} {k : String} {v : V} {m : MMap V} (h : m.StrictSorted) :
    (mapAssign k v m).StrictSorted := by
  induction m with
  | nil => simp [mapAssign, MMap.StrictSorted]
  | cons a t ih =>
    obtain ⟨k', v'⟩ := a
    have h' := List.pairwise_cons.1 h
    simp only [mapAssign]
    split
    · exact List.pairwise_cons.2 ⟨h'.1, h'.2⟩
    · rename_i hne
      split
      · rename_i hlt
        refine List.pairwise_cons.2 ⟨?_, h⟩
        intro b hb
        rcases List.mem_cons.1 hb with rfl | hb
        · exact hlt
        · exact String.lt_trans hlt (h'.1 b hb)
      · rename_i hlt
        refine List.pairwise_cons.2 ⟨?_, ih h'.2⟩
        intro b hb
        rcases mem_mapAssign hb with rfl | hb
        · rcases Classical.em (k' < k) with h | h
          · exact h
          · exact absurd (String.le_antisymm h hlt) hne
        · exact h'.1 b hb

theorem lookup_mapAssign {V : Type} {k k0 : String} {v : V} : ∀ {m : MMap V}, m.StrictSorted →
    List.lookup k0 (mapAssign k v m) = if k0 = k then some v else List.lookup k0 m := by
  intro m
  induction m with
  | nil => intro _; by_cases h : k0 = k <;> simp [mapAssign, h]
  | cons a t ih =>
    obtain ⟨k', v'⟩ := a
    intro h
    have h' := List.pairwise_cons.1 h
    simp only [mapAssign]
    split
    · rename_i hk
      subst hk
      by_cases h0 : k0 = k
      · simp [h0]
      · have : (k0 == k) = false := by simpa using h0
        simp [List.lookup_cons, this, h0]
    · rename_i hk
      split
      · by_cases h0 : k0 = k
        · simp [h0]
        · have : (k0 == k) = false := by simpa using h0
          simp [List.lookup_cons, this, h0]
      · rw [List.lookup_cons, ih h'.2]
        by_cases h0 : k0 = k
        · subst h0
          have : (k0 == k') = false := by simpa using hk
          simp [this]
        · simp [List.lookup_cons, h0]

/-! ## Collecting parameters -/

theorem collect_spec : ∀ (data : List String) (n0 n : Notification),
    n0.params.StrictSorted → collectParams data n0 = .ok n →
    n.params.StrictSorted ∧ (∀ p ∈ n.params, p ∈ n0.params ∨ p ∈ Spec.pairs data) ∧
    n.type = (Spec.lastValue "type" (Spec.pairs data)).getD n0.type ∧
    n.id = (Spec.lastValue "id" (Spec.pairs data)).getD n0.id ∧
    ∀ k, List.lookup k n.params = if k = "type" ∨ k = "id" then List.lookup k n0.params
      else (Spec.lastValue k (Spec.pairs data)).or (List.lookup k n0.params)
  | [], n0, n, hs, h => by
    cases h
    exact ⟨hs, fun p hp => .inl hp, rfl, rfl, by intro k; simp [Spec.pairs, Spec.lastValue]⟩
  | [_], n0, n, hs, h => by cases h
  | key :: value :: t, n0, n, hs, h => by
    have last : ∀ k, Spec.lastValue k (Spec.pairs (key :: value :: t)) =
        (Spec.lastValue k (Spec.pairs t)).or (if key = k then some value else none) := by
      intro k
      simp only [Spec.pairs, Spec.lastValue, List.filter_cons]
      by_cases hk : key = k
      · simp only [hk, beq_self_eq_true, if_true, List.getLast?_cons, Option.map_some]
        cases (List.filter (fun p : String × String => p.1 == k) (Spec.pairs t)).getLast? <;> simp
      · simp [hk]
    rw [collectParams] at h
    by_cases h1 : key = "type"
    · rw [if_pos h1] at h
      obtain ⟨c1, c2, c3, c4, c5⟩ := collect_spec t _ n (by exact hs) h
      refine ⟨c1, ?_, ?_, ?_, ?_⟩
      · intro p hp
        rcases c2 p hp with h | h
        · exact .inl h
        · exact .inr (by simp [Spec.pairs, h])
      · rw [c3, last, if_pos h1]; cases Spec.lastValue "type" (Spec.pairs t) <;> rfl
      · rw [c4, last, if_neg (by rw [h1]; decide)]; cases Spec.lastValue "id" (Spec.pairs t) <;> rfl
      · intro k
        rw [c5 k, last]
        split
        · rfl
        · rename_i hk
          rw [if_neg (fun h => hk (.inl (by rw [← h, h1])))]
          simp
    · rw [if_neg h1] at h
      by_cases h2 : key = "id"
      · rw [if_pos h2] at h
        obtain ⟨c1, c2, c3, c4, c5⟩ := collect_spec t _ n (by exact hs) h
        refine ⟨c1, ?_, ?_, ?_, ?_⟩
        · intro p hp
          rcases c2 p hp with h | h
          · exact .inl h
          · exact .inr (by simp [Spec.pairs, h])
        · rw [c3, last, if_neg h1]; cases Spec.lastValue "type" (Spec.pairs t) <;> rfl
        · rw [c4, last, if_pos h2]; cases Spec.lastValue "id" (Spec.pairs t) <;> rfl
        · intro k
          rw [c5 k, last]
          split
          · rfl
          · rename_i hk
            rw [if_neg (fun h => hk (.inr (by rw [← h, h2])))]
            simp
      · rw [if_neg h2] at h
        obtain ⟨c1, c2, c3, c4, c5⟩ := collect_spec t { n0 with params := mapAssign key value n0.params } n
          (by exact mapAssign_sorted hs) h
        refine ⟨c1, ?_, ?_, ?_, ?_⟩
        · intro p hp
          rcases c2 p hp with h | h
          · rcases mem_mapAssign h with rfl | h
            · exact .inr (by simp [Spec.pairs])
            · exact .inl h
          · exact .inr (by simp [Spec.pairs, h])
        · rw [c3, last, if_neg h1]; cases Spec.lastValue "type" (Spec.pairs t) <;> rfl
        · rw [c4, last, if_neg h2]; cases Spec.lastValue "id" (Spec.pairs t) <;> rfl
        · intro k
          rw [c5 k, last]
          simp only [lookup_mapAssign hs]
          by_cases hk : k = "type" ∨ k = "id"
          · rw [if_pos hk, if_pos hk, if_neg]
            rintro rfl
            rcases hk with h | h
            · exact h1 h
            · exact h2 h
          · rw [if_neg hk, if_neg hk]
            by_cases hkk : k = key
            · subst hkk
              cases Spec.lastValue k (Spec.pairs t) <;> simp
            · rw [if_neg hkk, if_neg (Ne.symm hkk)]
              cases Spec.lastValue k (Spec.pairs t) <;> simp

/-! ## The query string -/

/-- One parameter of the query. -/
def part (p : String × String) : List Char := p.1.toList ++ '=' :: p.2.toList

theorem part_ne (p : String × String) : part p ≠ [] := by simp [part]

theorem httpQuery_fold : ∀ (l : MMap String) (r : String), r.toList ≠ [] →
    (l.foldl (fun result par =>
      (if result.length > 0 then result ++ "&" else result) ++ (par.1 ++ "=" ++ par.2)) r).toList =
      r.toList ++ l.flatMap (fun p => '&' :: part p) := by
  intro l
  induction l with
  | nil => intro r _; simp
  | cons p t ih =>
    intro r hr
    have hl : r.length > 0 := by
      rw [← String.length_toList]
      exact List.length_pos_iff.2 hr
    rw [List.foldl_cons, ih, if_pos hl]
    · simp [part]
    · simp [hl]

theorem httpQuery_eq (l : MMap String) : (httpQuery l).toList =
    match l with
    | [] => []
    | p :: t => part p ++ t.flatMap (fun p => '&' :: part p) := by
  cases l with
  | nil => rfl
  | cons p t =>
    unfold httpQuery
    rw [List.foldl_cons, httpQuery_fold]
    · simp [part]
    · simp

/-! ## Decoding -/

theorem fields_ne (l : List Char) : Spec.fields l ≠ [] := by
  cases l with
  | nil => simp [Spec.fields]
  | cons c t =>
    simp only [Spec.fields]
    split
    · simp
    · split <;> simp

theorem fields_plain : ∀ (a : List Char), '&' ∉ a → Spec.fields a = [a] := by
  intro a
  induction a with
  | nil => intro _; rfl
  | cons c t ih =>
    intro h
    simp only [List.mem_cons, not_or] at h
    simp [Spec.fields, Ne.symm h.1, ih h.2]

theorem fields_cons : ∀ (a rest : List Char), '&' ∉ a →
    Spec.fields (a ++ '&' :: rest) = a :: Spec.fields rest := by
  intro a
  induction a with
  | nil => intro rest _; simp [Spec.fields]
  | cons c t ih =>
    intro rest h
    simp only [List.mem_cons, not_or] at h
    rw [List.cons_append, Spec.fields, if_neg (Ne.symm h.1), ih rest h.2]

theorem fields_parts : ∀ (p : String × String) (t : MMap String),
    (∀ q ∈ p :: t, '&' ∉ part q) →
    Spec.fields (part p ++ t.flatMap (fun p => '&' :: part p)) = (p :: t).map part := by
  intro p t
  induction t generalizing p with
  | nil => intro h; simpa using fields_plain _ (h p (by simp))
  | cons q t ih =>
    intro h
    rw [List.flatMap_cons, List.cons_append, fields_cons _ _ (h p (by simp)),
      ih q (fun x hx => h x (List.mem_cons_of_mem _ hx))]
    rfl

theorem unescape_plain : ∀ (l : List Char), (∀ c ∈ l, c ≠ '+' ∧ c ≠ '%') → Spec.unescape l = l := by
  intro l
  induction l with
  | nil => intro _; rfl
  | cons c t ih =>
    intro h
    have hc := h c (by simp)
    have := ih (fun x hx => h x (by simp [hx]))
    rw [Spec.unescape.eq_def]
    split
    · rename_i heq; cases heq
    · rename_i heq; cases heq; exact absurd rfl hc.1
    · rename_i heq; cases heq; exact absurd rfl hc.2
    · rename_i heq; cases heq; rw [this]

theorem field_part {p : String × String} (h1 : Spec.PlainName p.1) (h2 : Spec.PlainValue p.2) :
    Spec.field (part p) = p := by
  have ht : ∀ (a b : List Char), (∀ c ∈ a, c ≠ '=') →
      (a ++ '=' :: b).takeWhile (· ≠ '=') = a ∧ (a ++ '=' :: b).dropWhile (· ≠ '=') = '=' :: b := by
    intro a b h
    induction a with
    | nil => simp
    | cons c t ih =>
      have hc := h c (by simp)
      obtain ⟨i1, i2⟩ := ih (fun x hx => h x (by simp [hx]))
      simp only [List.cons_append]
      constructor
      · rw [List.takeWhile_cons_of_pos (by simpa using hc), i1]
      · rw [List.dropWhile_cons_of_pos (by simpa using hc), i2]
  obtain ⟨a, b⟩ := p
  obtain ⟨h3, h4⟩ := ht a.toList b.toList (fun c hc => (h1 c hc).2)
  unfold Spec.field part
  simp only [h3, h4, List.drop_succ_cons, List.drop_zero]
  rw [unescape_plain a.toList, unescape_plain b.toList]
  · simp
  · intro c hc
    have := h2 c hc
    simp only [Spec.special, not_or] at this
    exact ⟨this.2.1, this.2.2.1⟩
  · intro c hc
    have := (h1 c hc).1
    simp only [Spec.special, not_or] at this
    exact ⟨this.2.1, this.2.2.1⟩

theorem part_special {p : String × String} (h1 : Spec.PlainName p.1) (h2 : Spec.PlainValue p.2)
    {c : Char} (hc : Spec.special c) : c ∉ part p := by
  intro h
  simp only [part, List.mem_append, List.mem_cons] at h
  rcases h with h | h | h
  · exact (h1 c h).1 hc
  · subst h; simp [Spec.special] at hc
  · exact h2 c h hc

theorem cString_plain {s : String} (h : '\x00' ∉ s.toList) : cString s = s := by
  unfold cString
  have : ∀ l : List Char, '\x00' ∉ l → l.takeWhile (· ≠ '\x00') = l := by
    intro l
    induction l with
    | nil => intro _; rfl
    | cons c t ih =>
      intro hl
      simp only [List.mem_cons, not_or] at hl
      rw [List.takeWhile_cons_of_pos (by simpa using Ne.symm hl.1), ih hl.2]
  rw [this _ h]
  simp

theorem decode_query {l : MMap String}
    (h : ∀ p ∈ l, Spec.PlainName p.1 ∧ Spec.PlainValue p.2) :
    Spec.decodeForm (cString (httpQuery l)) = l := by
  have hsp : ∀ p ∈ l, ∀ c, Spec.special c → c ∉ part p :=
    fun p hp c hc => part_special (h p hp).1 (h p hp).2 hc
  have hnul : '\x00' ∉ (httpQuery l).toList := by
    rw [httpQuery_eq]
    cases l with
    | nil => simp
    | cons p t =>
      have hz : Spec.special '\x00' := by simp [Spec.special]
      simp only [List.mem_append, List.mem_flatMap, List.mem_cons, not_or, not_exists, not_and]
      refine ⟨hsp p (by simp) _ hz, ?_⟩
      intro q hq
      exact ⟨by decide, hsp q (by simp [hq]) _ hz⟩
  rw [cString_plain hnul]
  unfold Spec.decodeForm
  rw [httpQuery_eq]
  cases l with
  | nil => rfl
  | cons p t =>
    rw [if_neg (by simp [part]), fields_parts p t (fun q hq => hsp q hq _ (by simp [Spec.special]))]
    rw [List.map_map]
    refine (List.map_congr_left (g := id) ?_).trans (List.map_id _)
    intro q hq
    exact field_part (h q hq).1 (h q hq).2

end Broker
