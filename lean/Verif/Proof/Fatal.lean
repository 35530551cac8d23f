import Verif.Props.Matching
import Verif.Spec.Fatal
/-! # Facts for C108 -/

namespace Broker

open LawfulQM

theorem startsWith_iff {v : String} {neg : Bool} {n : Nat} :
    numParse v = some (neg, n) ↔ Spec.StartsWith v (neg = true) n := by
  rw [numParse_iff]
  unfold Spec.StartsWith
  constructor
  · rintro ⟨ws, sign, ds, rest, h1, h2, h3, h4, h5, h6, h7, h8⟩
    exact ⟨ws, sign, ds, rest, h1, h2, h3, h4, h5, h6, h7.symm, by simp [h8]⟩
  · rintro ⟨ws, sign, ds, rest, h1, h2, h3, h4, h5, h6, h7, h8⟩
    refine ⟨ws, sign, ds, rest, h1, h2, h3, h4, h5, h6, h7.symm, ?_⟩
    by_cases hs : sign = ['-'] <;> simp [hs] at h8 ⊢ <;> simp [h8]

theorem startsWith_cases {v : String} {neg : Prop} {n : Nat} (h : Spec.StartsWith v neg n) :
    ∃ b : Bool, (neg ↔ b = true) ∧ numParse v = some (b, n) := by
  obtain ⟨ws, sign, ds, rest, h1, h2, h3, h4, h5, h6, h7, h8⟩ := h
  exact ⟨decide (sign = ['-']), by simp [h8],
    startsWith_iff.2 ⟨ws, sign, ds, rest, h1, h2, h3, h4, h5, h6, h7, by simp⟩⟩

theorem stoul_error_iff (v : String) (x : Exn) : stoul v = .error x ↔ Spec.BadCount v x := by
  unfold stoul
  cases hp : numParse v with
  | none =>
    simp only
    have hno : ∀ neg n, ¬ Spec.StartsWith v neg n := by
      intro neg n h
      obtain ⟨b, _, h2⟩ := startsWith_cases h
      rw [hp] at h2; cases h2
    constructor
    · intro h; cases h; exact .noNumber hno
    · intro h
      cases h with
      | noNumber _ => rfl
      | tooLarge h _ => exact absurd h (hno _ _)
  | some p =>
    obtain ⟨neg, n⟩ := p
    simp only
    have hs := startsWith_iff.1 hp
    constructor
    · intro h
      split at h
      · rename_i hle
        cases h
        exact .tooLarge hs (by simpa [SZ] using hle)
      · split at h <;> cases h
    · intro h
      cases h with
      | noNumber h => exact absurd hs (h _ _)
      | tooLarge h hn =>
        obtain ⟨b, _, h2⟩ := startsWith_cases h
        rw [hp] at h2; cases h2
        rw [if_pos (by simpa [SZ] using hn)]

theorem stoll_error_iff (v : String) (x : Exn) : stoll v = .error x ↔ Spec.BadElapsed v x := by
  unfold stoll
  cases hp : numParse v with
  | none =>
    simp only
    have hno : ∀ neg n, ¬ Spec.StartsWith v neg n := by
      intro neg n h
      obtain ⟨b, _, h2⟩ := startsWith_cases h
      rw [hp] at h2; cases h2
    constructor
    · intro h; cases h; exact .noNumber hno
    · intro h
      cases h with
      | noNumber _ => rfl
      | tooLarge h _ => exact absurd h (hno _ _)
      | tooSmall h _ => exact absurd h (hno _ _)
  | some p =>
    obtain ⟨neg, n⟩ := p
    simp only
    have hs := startsWith_iff.1 hp
    constructor
    · intro h
      cases neg with
      | true =>
        simp only [if_true] at h
        split at h
        · rename_i hle
          cases h
          exact .tooSmall (by simpa using hs) (by omega)
        · cases h
      | false =>
        simp only [Bool.false_eq_true, if_false] at h
        split at h
        · rename_i hle
          cases h
          exact .tooLarge (by simpa using hs) (by omega)
        · cases h
    · intro h
      cases h with
      | noNumber h => exact absurd hs (h _ _)
      | tooLarge h hn =>
        obtain ⟨b, h1, h2⟩ := startsWith_cases h
        rw [hp] at h2; cases h2
        simp at h1
        subst h1
        simp only [Bool.false_eq_true, if_false]
        rw [if_pos (by omega)]
      | tooSmall h hn =>
        obtain ⟨b, h1, h2⟩ := startsWith_cases h
        rw [hp] at h2; cases h2
        simp at h1
        subst h1
        simp only [if_true]
        rw [if_pos (by omega)]

/-- A value is a number or not. -/
theorem count_or_bad (v : String) : (∃ n, Spec.IsCount v n) ∨ ∃ x, Spec.BadCount v x := by
  cases h : stoul v with
  | ok n => exact .inl ⟨n, (stoul_iff v n).1 h⟩
  | error x => exact .inr ⟨x, (stoul_error_iff v x).1 h⟩

theorem not_count_of_bad {v : String} {x : Exn} {n : Nat} (h : Spec.BadCount v x)
    (h' : Spec.IsCount v n) : False := by
  have h1 := (stoul_error_iff v x).2 h
  rw [(stoul_iff v n).2 h'] at h1
  cases h1

theorem bad_unique {v : String} {x y : Exn} (h : Spec.BadCount v x) (h' : Spec.BadCount v y) :
    x = y := by
  have h1 := (stoul_error_iff v x).2 h
  rw [(stoul_error_iff v y).2 h'] at h1
  cases h1; rfl

theorem firstBad_unique {vs : List String} {x y : Exn} (h : Spec.FirstBad vs x)
    (h' : Spec.FirstBad vs y) : x = y := by
  obtain ⟨a, v, b, rfl, h1, h2⟩ := h
  obtain ⟨a', v', b', h3, h4, h5⟩ := h'
  induction a generalizing a' with
  | nil =>
    cases a' with
    | nil => simp at h3; rw [h3.1] at h2; exact bad_unique h2 h5
    | cons u t =>
      simp at h3
      obtain ⟨n, hn⟩ := h4 u (by simp)
      rw [h3.1] at h2
      exact (not_count_of_bad h2 hn).elim
  | cons u t ih =>
    cases a' with
    | nil =>
      simp at h3
      obtain ⟨n, hn⟩ := h1 u (by simp)
      rw [h3.1] at hn
      exact (not_count_of_bad h5 hn).elim
    | cons u' t' =>
      simp at h3
      exact ih (fun z hz => h1 z (by simp [hz])) t' h3.2 (fun z hz => h4 z (by simp [hz]))

/-- The constructor of a worker throws at the first `threads` header that is not a number. -/
theorem addMatchers_error_iff {x : Exn} : ∀ (hs : Headers) (m : MMap Matcher),
    addMatchers hs m = .error x ↔ Spec.FirstBad (mmRange "threads" hs) x := by
  intro hs
  induction hs with
  | nil =>
    intro m
    simp only [addMatchers, mmRange, List.filter_nil, List.map_nil]
    constructor
    · intro h; cases h
    · rintro ⟨a, v, b, h, _⟩; simp at h
  | cons e t ih =>
    obtain ⟨k, v⟩ := e
    intro m
    rw [addMatchers.eq_def]
    simp only
    by_cases hk : k = "threads"
    · subst hk
      have hr : mmRange "threads" (("threads", v) :: t) = v :: mmRange "threads" t := by
        simp [mmRange]
      rw [if_pos rfl, hr]
      cases hv : stoul v with
      | ok n =>
        simp only
        rw [ih]
        constructor
        · rintro ⟨a, u, b, h1, h2, h3⟩
          refine ⟨v :: a, u, b, by simp [h1], ?_, h3⟩
          intro z hz
          rcases List.mem_cons.1 hz with rfl | hz
          · exact ⟨n, (stoul_iff _ _).1 hv⟩
          · exact h2 z hz
        · rintro ⟨a, u, b, h1, h2, h3⟩
          cases a with
          | nil =>
            simp at h1
            rw [← h1.1] at h3
            exact (not_count_of_bad h3 ((stoul_iff _ _).1 hv)).elim
          | cons z a' =>
            simp at h1
            exact ⟨a', u, b, h1.2, fun y hy => h2 y (by simp [hy]), h3⟩
      | error y =>
        simp only
        have hb := (stoul_error_iff v y).1 hv
        constructor
        · intro h; cases h; exact ⟨[], v, _, rfl, by simp, hb⟩
        · intro h
          rw [firstBad_unique h ⟨[], v, _, rfl, by simp, hb⟩]
    · rw [if_neg hk, ih]
      have hr : mmRange "threads" ((k, v) :: t) = mmRange "threads" t := by simp [mmRange, hk]
      rw [hr]

theorem create_error_iff {a : Nat} {i g d : String} {fs : List String} {x : Exn} :
    Worker.create a i g (initHeaders fs []).1 d = .error x ↔
      Spec.FirstBad (Spec.declared "threads" fs) x := by
  have h := addMatchers_error_iff (x := x) (initHeaders fs []).1
    (mmEmplace "hwgroup" (.multi g) [])
  rw [mmRange_initHeaders _ _ _ List.Pairwise.nil] at h
  simp only [mmRange, List.filter_nil, List.map_nil, List.nil_append] at h
  rw [← h]
  simp only [Worker.create]
  cases addMatchers (initHeaders fs []).1 (mmEmplace "hwgroup" (.multi g) []) with
  | ok m => simp
  | error y => simp

/-! ## Matching that throws -/

theorem checkHeader_threads_error {w : Worker} (hw : w.WF) (v : String) (x : Exn) :
    w.checkHeader "threads" v = .error x ↔
      stoul v = .error x ∧ mmRange "threads" w.matchers ≠ [] := by
  unfold Worker.checkHeader
  have hm : ∀ m ∈ mmRange "threads" w.matchers, ∃ n, m = .count n :=
    fun m h => (hw ("threads", m) (mem_mmRange.1 h)).1 rfl
  cases hv : stoul v with
  | ok n =>
    obtain ⟨b, hb⟩ := anyMatch_total (ms := mmRange "threads" w.matchers) (v := v)
      (.inr ⟨n, hv⟩)
    rw [hb]; simp
  | error y =>
    cases hl : mmRange "threads" w.matchers with
    | nil => simp [anyMatch]
    | cons z t =>
      obtain ⟨n, rfl⟩ := hm z (by rw [hl]; simp)
      simp [anyMatch, Matcher.run, hv]

theorem checkHeader_other_total {w : Worker} (hw : w.WF) {k : String} (hk : k ≠ "threads") (v : String) :
    ∃ b, w.checkHeader k v = .ok b := by
  refine anyMatch_total (.inl ?_)
  intro m hm n he
  exact hk ((hw (k, m) (mem_mmRange.1 hm)).2 ⟨n, he⟩)

/-- When a comparison of headers throws. -/
theorem checkHeaders_error_iff {w : Worker} (hw : w.WF) {x : Exn} : ∀ (hs : Headers), hs.Sorted →
    (w.checkHeaders hs = .error x ↔
      (∀ e ∈ hs, e.1 < "threads" → w.checkHeader e.1 e.2 = .ok true) ∧
      (∃ a v b, mmRange "threads" hs = a ++ v :: b ∧
        (∀ u ∈ a, w.checkHeader "threads" u = .ok true) ∧ stoul v = .error x) ∧
      mmRange "threads" w.matchers ≠ []) := by
  intro hs
  induction hs with
  | nil => intro _; simp [Worker.checkHeaders, mmRange]
  | cons e t ih =>
    obtain ⟨k, v⟩ := e
    intro hsort
    have hsort' := List.pairwise_cons.1 hsort
    specialize ih hsort'.2
    by_cases hk : k = "threads"
    · subst hk
      have hr : mmRange "threads" (("threads", v) :: t) = v :: mmRange "threads" t := by
        simp [mmRange]
      rw [hr]
      have hnone : ∀ e ∈ ("threads", v) :: t, ¬ e.1 < "threads" := by
        intro e he
        rcases List.mem_cons.1 he with rfl | he
        · exact String.lt_irrefl _
        · exact hsort'.1 e he
      have hfst : ∀ e ∈ ("threads", v) :: t, e.1 < "threads" → w.checkHeader e.1 e.2 = .ok true :=
        fun e he h => absurd h (hnone e he)
      have hfst' : ∀ e ∈ t, e.1 < "threads" → w.checkHeader e.1 e.2 = .ok true :=
        fun e he h => absurd h (hnone e (List.mem_cons_of_mem _ he))
      simp only [Worker.checkHeaders]
      cases hc : w.checkHeader "threads" v with
      | error y =>
        obtain ⟨h1, h2⟩ := (checkHeader_threads_error hw v y).1 hc
        simp only [Except.bind_error]
        constructor
        · intro h; cases h; exact ⟨hfst, ⟨[], v, _, rfl, by simp, h1⟩, h2⟩
        · rintro ⟨_, ⟨a, u, b, h3, h4, h5⟩, _⟩
          cases a with
          | nil => simp at h3; rw [← h3.1, h1] at h5; cases h5; rfl
          | cons z a' =>
            simp at h3
            have := h4 z (by simp)
            rw [← h3.1, hc] at this; cases this
      | ok b =>
        have hne : mmRange "threads" w.matchers ≠ [] → ∀ y, stoul v ≠ .error y := by
          intro hne y hy
          rw [(checkHeader_threads_error hw v y).2 ⟨hy, hne⟩] at hc
          cases hc
        cases b with
        | true =>
          simp only [Except.bind_ok, if_true]
          rw [ih]
          constructor
          · rintro ⟨_, ⟨a, u, b, h3, h4, h5⟩, h6⟩
            refine ⟨hfst, ⟨v :: a, u, b, by simp [h3], ?_, h5⟩, h6⟩
            intro z hz
            rcases List.mem_cons.1 hz with rfl | hz
            · exact hc
            · exact h4 z hz
          · rintro ⟨_, ⟨a, u, b, h3, h4, h5⟩, h6⟩
            cases a with
            | nil => simp at h3; rw [← h3.1] at h5; exact absurd h5 (hne h6 _)
            | cons z a' =>
              simp at h3
              exact ⟨hfst', ⟨a', u, b, h3.2, fun y hy => h4 y (by simp [hy]), h5⟩, h6⟩
        | false =>
          simp only [Except.bind_ok, Bool.false_eq_true, if_false, Except.pure_eq_ok]
          constructor
          · intro h; cases h
          · rintro ⟨_, ⟨a, u, b, h3, h4, h5⟩, h6⟩
            cases a with
            | nil => simp at h3; rw [← h3.1] at h5; exact absurd h5 (hne h6 _)
            | cons z a' =>
              simp at h3
              have := h4 z (by simp)
              rw [← h3.1, hc] at this; cases this
    · have hr : mmRange "threads" ((k, v) :: t) = mmRange "threads" t := by simp [mmRange, hk]
      rw [hr]
      obtain ⟨b, hb⟩ := checkHeader_other_total hw hk v
      simp only [Worker.checkHeaders, hb, Except.bind_ok]
      by_cases hlt : k < "threads"
      · cases b with
        | true =>
          simp only [if_true]
          rw [ih]
          constructor
          · rintro ⟨h1, h2⟩
            refine ⟨?_, h2⟩
            intro e he hl
            rcases List.mem_cons.1 he with rfl | he
            · exact hb
            · exact h1 e he hl
          · rintro ⟨h1, h2⟩
            exact ⟨fun e he hl => h1 e (List.mem_cons_of_mem _ he) hl, h2⟩
        | false =>
          simp only [Bool.false_eq_true, if_false, Except.pure_eq_ok]
          constructor
          · intro h; cases h
          · rintro ⟨h1, _⟩
            have := h1 (k, v) (by simp) hlt
            rw [hb] at this; cases this
      · have hgt : "threads" < k := by
          rcases Classical.em ("threads" < k) with h | h
          · exact h
          · exact absurd (String.le_antisymm h hlt) hk
        have hnil : mmRange "threads" t = [] :=
          mmRange_nil_of_lt fun e he => str_lt_of_lt_of_le hgt (hsort'.1 e he)
        have hno : ¬ ∃ a v b, mmRange "threads" t = a ++ v :: b ∧
            (∀ u ∈ a, w.checkHeader "threads" u = .ok true) ∧ stoul v = .error x := by
          rintro ⟨a, u, c, h1, _⟩
          rw [hnil] at h1; simp at h1
        constructor
        · intro h
          cases b with
          | true => simp only [if_true] at h; exact absurd (ih.1 h).2.1 hno
          | false => simp at h
        · rintro ⟨_, h, _⟩; exact absurd h hno

/-- Declared `threads` values as matchers. -/
theorem matchers_threads {a : Nat} {i g d : String} {rest : List String} {w : Worker}
    (h : Worker.create a i g (initHeaders rest []).1 d = .ok w) :
    mmRange "threads" w.matchers ≠ [] ↔ ∃ v, ("threads", v) ∈ w.headers := by
  have hh := (Worker.create_fields h).2.2.2.1
  rw [hh]
  have hwf := Worker.create_wf h
  simp only [Worker.create, Except.bind_eq_ok] at h
  obtain ⟨ms, h1, h2⟩ := h
  simp only [Except.pure_eq_ok, Except.ok.injEq] at h2
  subst h2
  constructor
  · intro hne
    obtain ⟨m, hm⟩ := List.exists_mem_of_ne_nil _ hne
    rcases (mem_addMatchers h1 ("threads", m)).1 (mem_mmRange.1 hm) with h3 | ⟨v, hv, _⟩
    · rw [mem_mmEmplace] at h3; simp at h3
    · exact ⟨v, hv⟩
  · rintro ⟨v, hv⟩ hnil
    obtain ⟨n, hn⟩ := addMatchers_numeric _ _ _ h1 _ hv rfl
    have : Matcher.count n ∈ mmRange "threads" ms :=
      mem_mmRange.2 ((mem_addMatchers h1 ("threads", .count n)).2
        (.inr ⟨v, hv, .inl ⟨rfl, n, hn, rfl⟩⟩))
    simp only at hnil
    rw [hnil] at this
    cases this

/-- What a worker satisfies, by its hardware group and headers. -/
theorem offers_iff {a : Nat} {i g d : String} {rest : List String} {w : Worker}
    (h : Worker.create a i g (initHeaders rest []).1 d = .ok w) (k v : String) :
    w.checkHeader k v = .ok true ↔ Spec.Offers w k v := by
  rw [checkHeader_iff h]
  obtain ⟨_, _, hg, hh, _⟩ := Worker.create_fields h
  have hmem : ∀ e, e ∈ w.headers ↔
      ∃ f ∈ Spec.headerFrames rest, e = (Spec.frameKey f, Spec.frameValue f) := by
    intro e; rw [hh, mem_initHeaders]; simp
  unfold Spec.Satisfies Spec.Offers
  rw [hg]
  simp only [hmem, Prod.mk.injEq]
  constructor
  · rintro (h1 | ⟨h1, f, h2, h3, h4⟩ | ⟨h1, f, h2, h3, h4⟩)
    · exact .inl h1
    · exact .inr (.inl ⟨h1, _, ⟨f, h2, h3.symm, rfl⟩, h4⟩)
    · exact .inr (.inr ⟨h1, f, h2, h3.symm, h4.symm⟩)
  · rintro (h1 | ⟨h1, _, ⟨f, h2, h3, rfl⟩, h4⟩ | ⟨h1, f, h2, h3, h4⟩)
    · exact .inl h1
    · exact .inr (.inl ⟨h1, f, h2, h3.symm, h4⟩)
    · exact .inr (.inr ⟨h1, f, h2, h3.symm, h4.symm⟩)

theorem wanted_threads (fs : List String) :
    Spec.wanted "threads" fs = Spec.declared "threads" fs := by
  unfold Spec.wanted Spec.declared
  congr 1
  refine List.filter_congr ?_
  intro f _
  by_cases hk : Spec.frameKey f = "threads"
  · simp [Spec.isMeta, hk]
  · simp [hk]

theorem stumbles_iff {a : Nat} {i g d : String} {rest : List String} {w : Worker}
    (h : Worker.create a i g (initHeaders rest []).1 d = .ok w) {fs : List String}
    {y : Headers × Metadata × List String} (he : evalHeaders fs [] [] = .ok (some y)) (x : Exn) :
    w.checkHeaders y.1 = .error x ↔ Spec.Stumbles w fs x := by
  obtain ⟨h1, _, h3⟩ := evalHeaders_wanted he
  rw [checkHeaders_error_iff (Worker.create_wf h) _ h3, h1, wanted_threads, matchers_threads h]
  simp only [offers_iff h, stoul_error_iff]
  obtain ⟨_, _, hm⟩ := evalHeaders_some _ _ _ _ he
  simp only [List.not_mem_nil, false_or] at hm
  constructor
  · rintro ⟨h4, h5, h6⟩
    exact ⟨h6, fun f hf hmeta hl => h4 _ ((hm _).2 ⟨f, hf, hmeta, rfl⟩) hl, h5⟩
  · rintro ⟨h6, h4, h5⟩
    refine ⟨?_, h5, h6⟩
    intro e hemem hl
    obtain ⟨f, hf, hmeta, rfl⟩ := (hm e).1 hemem
    exact h4 f hf hmeta hl

theorem Spec.Stumbles.firstBad {w : Worker} {fs : List String} {x : Exn}
    (h : Spec.Stumbles w fs x) : Spec.FirstBad (Spec.declared "threads" fs) x := by
  obtain ⟨a, v, b, h1, h2, h3⟩ := h.first
  refine ⟨a, v, b, h1, ?_, h3⟩
  intro u hu
  rcases h2 u hu with ⟨h, _⟩ | ⟨_, _, _, n, _, hn, _⟩ | ⟨h, _⟩
  · exact absurd h (by decide)
  · exact ⟨n, hn⟩
  · exact absurd rfl h

end Broker
