import Verif.Spec.Capability
import Verif.Proof.Frames
import Verif.Proof.Matching

/-! # The matchers of the code and the specification of capability -/

set_option linter.unusedSimpArgs false

namespace Broker

/-! ## Alternatives -/

theorem multiMatchGo_iff (v : List Char) : ∀ (rest seg : List Char), '|' ∉ seg →
    (rest ≠ [] ∨ seg ≠ []) →
    (multiMatchGo v seg rest = true ↔ '|' ∉ v ∧
      ∃ pre post, seg.reverse ++ rest = pre ++ v ++ post ∧ (pre = [] ∨ ∃ p, pre = p ++ ['|']) ∧
        (post = [] ∨ ∃ p, post = '|' :: p) ∧ (v ≠ [] ∨ post ≠ [])) := by
  intro rest
  induction rest with
  | nil =>
    intro seg hseg hne
    have hsne : seg ≠ [] := by rcases hne with h | h; exact absurd rfl h; exact h
    simp only [multiMatchGo, beq_iff_eq, List.append_nil]
    constructor
    · rintro rfl
      refine ⟨by simpa using hseg, [], [], by simp, Or.inl rfl, Or.inl rfl, Or.inl (by simpa using hsne)⟩
    · rintro ⟨hv, pre, post, he, hp, hq, _⟩
      have hpre : pre = [] := by
        rcases hp with h | ⟨p, h⟩
        · exact h
        · exfalso; apply hseg
          have : '|' ∈ seg.reverse := by rw [he, h]; simp
          simpa using this
      have hpost : post = [] := by
        rcases hq with h | ⟨p, h⟩
        · exact h
        · exfalso; apply hseg
          have : '|' ∈ seg.reverse := by rw [he, h]; simp
          simpa using this
      rw [he, hpre, hpost]; simp
  | cons c t ih =>
    intro seg hseg _
    by_cases hc : c = '|'
    · subst hc
      rw [multiMatchGo.eq_def]
      simp only [if_pos]
      by_cases hs : seg.reverse = v
      · have : (seg.reverse == v) = true := by simpa using hs
        rw [if_pos this]
        simp only [true_iff]
        subst hs
        refine ⟨by simpa using hseg, [], '|' :: t, by simp, Or.inl rfl, Or.inr ⟨t, rfl⟩, Or.inr (by simp)⟩
      · have hb : ¬ ((seg.reverse == v) = true) := by simpa using hs
        rw [if_neg hb]
        -- occurrences in `seg | t` other than the first segment are occurrences in `t`
        have key : (∃ pre post, seg.reverse ++ '|' :: t = pre ++ v ++ post ∧
              (pre = [] ∨ ∃ p, pre = p ++ ['|']) ∧ (post = [] ∨ ∃ p, post = '|' :: p) ∧
              (v ≠ [] ∨ post ≠ [])) ∧ '|' ∉ v ↔
            (∃ pre post, t = pre ++ v ++ post ∧
              (pre = [] ∨ ∃ p, pre = p ++ ['|']) ∧ (post = [] ∨ ∃ p, post = '|' :: p) ∧
              (v ≠ [] ∨ post ≠ [])) ∧ '|' ∉ v := by
          constructor
          · rintro ⟨⟨pre, post, he, hp, hq, hn⟩, hv⟩
            refine ⟨?_, hv⟩
            rcases hp with rfl | ⟨p, rfl⟩
            · exfalso
              simp only [List.nil_append] at he
              have hq' : ∃ p, post = '|' :: p := by
                rcases hq with rfl | h
                · exfalso; apply hv
                  rw [List.append_nil] at he
                  rw [← he]; simp
                · exact h
              obtain ⟨p, rfl⟩ := hq'
              have h1 : (seg.reverse ++ '|' :: t).takeWhile (· != '|') = seg.reverse := by
                rw [List.takeWhile_append_of_pos]
                · simp
                · intro a ha; simp only [bne_iff_ne]; rintro rfl; exact hseg (by simpa using ha)
              have h2 : (v ++ '|' :: p).takeWhile (· != '|') = v := by
                rw [List.takeWhile_append_of_pos]
                · simp
                · intro a ha; simp only [bne_iff_ne]; rintro rfl; exact hv ha
              rw [he, h2] at h1
              exact hs h1.symm
            · -- `p ++ ['|']` covers at least the first segment
              have hlen : seg.length ≤ p.length := by
                refine Nat.le_of_not_lt (fun hlt => ?_)
                have : (seg.reverse ++ '|' :: t)[p.length]? = some '|' := by
                  rw [he]; simp
                rw [List.getElem?_append_left (by simpa using hlt)] at this
                have := List.mem_of_getElem? this
                exact hseg (by simpa using this)
              have hd := congrArg (List.drop (seg.length + 1)) he
              have hd1 : (seg.reverse ++ '|' :: t).drop (seg.length + 1) = t := by
                rw [List.drop_append]; simp
              rw [hd1] at hd
              rcases Nat.lt_or_ge seg.length p.length with hl | hl
              · refine ⟨(p ++ ['|']).drop (seg.length + 1), post, ?_, ?_, hq, hn⟩
                · rw [hd, List.append_assoc, List.append_assoc, List.append_assoc,
                    List.drop_append_of_le_length (by omega : seg.length + 1 ≤ p.length),
                    List.drop_append_of_le_length (by omega : seg.length + 1 ≤ p.length)]
                  simp
                · refine Or.inr ⟨p.drop (seg.length + 1), ?_⟩
                  rw [List.drop_append_of_le_length (by omega)]
              · refine ⟨[], post, ?_, Or.inl rfl, hq, hn⟩
                have : seg.length + 1 = (p ++ ['|']).length := by simp; omega
                rw [hd, this, List.append_assoc (p ++ ['|']), List.drop_left]
                simp
          · rintro ⟨⟨pre, post, he, hp, hq, hn⟩, hv⟩
            refine ⟨⟨seg.reverse ++ '|' :: pre, post, by rw [he]; simp, Or.inr ?_, hq, hn⟩, hv⟩
            rcases hp with rfl | ⟨p, rfl⟩
            · exact ⟨seg.reverse, rfl⟩
            · exact ⟨seg.reverse ++ '|' :: p, by simp⟩
        rw [and_comm, key]
        cases t with
        | nil =>
          simp only [Bool.false_eq_true, false_iff]
          rintro ⟨⟨pre, post, he, _, _, hn⟩, _⟩
          have : pre ++ v ++ post = [] := he.symm
          simp at this
          rcases hn with h | h
          · exact h this.2.1
          · exact h this.2.2
        | cons c' t' =>
          rw [ih [] (by simp) (Or.inl (by simp))]
          simp only [List.reverse_nil, List.nil_append]
          rw [and_comm]
    · rw [multiMatchGo.eq_def]
      simp only [if_neg hc]
      rw [ih (c :: seg) (by simp [hseg, Ne.symm hc]) (Or.inr (by simp))]
      simp

theorem multiMatch_iff (v value : String) :
    multiMatch v value = true ↔ Spec.IsAlternative v value := by
  unfold multiMatch Spec.IsAlternative
  cases hv : value.toList with
  | nil =>
    simp only [Bool.false_eq_true, false_iff]
    rintro ⟨_, pre, post, he, _, _, hn⟩
    have : pre ++ v.toList ++ post = [] := he.symm
    simp only [List.append_eq_nil_iff] at this
    rcases hn with h | h
    · exact h this.1.2
    · exact h this.2
  | cons c t =>
    rw [multiMatchGo_iff v.toList (c :: t) [] (by simp) (Or.inl (by simp))]
    simp

/-! ## Numbers -/

theorem isSpace_iff (c : Char) : isSpace c = true ↔ Spec.blank c := by
  simp [isSpace, Spec.blank, or_assoc]

theorem decimal_eq (ds : List Char) : Nat.ofDigitChars 10 ds 0 = Spec.decimal ds := by
  rfl

theorem not_digit_space {c : Char} (h : c.isDigit = true) : isSpace c = false := by
  rcases Bool.eq_false_or_eq_true (isSpace c) with hs | hs
  · have := (isSpace_iff c).1 hs
    simp only [Spec.blank, List.mem_cons, List.not_mem_nil, or_false] at this
    rcases this with rfl | rfl | rfl | rfl | rfl | rfl <;> simp at h
  · exact hs

theorem dropWhile_append_head {p : Char → Bool} {ws t : List Char} (h1 : ∀ c ∈ ws, p c = true)
    (h2 : ∀ c, t.head? = some c → p c = false) : (ws ++ t).dropWhile p = t := by
  rw [List.dropWhile_append_of_pos h1]
  cases t with
  | nil => rfl
  | cons c t => simp [List.dropWhile_cons, h2 c rfl]

theorem takeWhile_append_head {p : Char → Bool} {ws t : List Char} (h1 : ∀ c ∈ ws, p c = true)
    (h2 : ∀ c, t.head? = some c → p c = false) : (ws ++ t).takeWhile p = ws := by
  rw [List.takeWhile_append_of_pos h1]
  cases t with
  | nil => simp
  | cons c t => simp [List.takeWhile_cons, h2 c rfl]

theorem head_dropWhile {p : Char → Bool} {l : List Char} {c : Char}
    (h : (l.dropWhile p).head? = some c) : p c = false := by
  induction l with
  | nil => simp at h
  | cons a t ih =>
    rw [List.dropWhile_cons] at h
    split at h
    · exact ih h
    · simp at h; subst h; simpa using ‹¬ p a = true›

theorem mem_takeWhile_pos {p : Char → Bool} {l : List Char} {c : Char}
    (h : c ∈ l.takeWhile p) : p c = true := by
  induction l with
  | nil => simp at h
  | cons a t ih =>
    rw [List.takeWhile_cons] at h
    split at h
    · rcases List.mem_cons.1 h with rfl | h
      · assumption
      · exact ih h
    · simp at h

theorem numSign_spec (l : List Char) : ∃ sign, l = sign ++ (numSign l).2 ∧
    (sign = [] ∨ sign = ['+'] ∨ sign = ['-']) ∧ (numSign l).1 = decide (sign = ['-']) := by
  unfold numSign
  match l with
  | [] => exact ⟨[], rfl, Or.inl rfl, by simp⟩
  | c :: t =>
    by_cases h1 : c = '-'
    · subst h1; exact ⟨['-'], rfl, Or.inr (Or.inr rfl), by simp⟩
    · by_cases h2 : c = '+'
      · subst h2; exact ⟨['+'], rfl, Or.inr (Or.inl rfl), by simp⟩
      · refine ⟨[], ?_, Or.inl rfl, ?_⟩ <;> split <;> simp_all

/-- The sign and digits found by the conversion. -/
theorem numParse_iff (s : String) (neg : Bool) (n : Nat) :
    numParse s = some (neg, n) ↔
    ∃ ws sign ds rest : List Char, s.toList = ws ++ sign ++ ds ++ rest ∧
      (∀ c ∈ ws, Spec.blank c) ∧ (sign = [] ∨ sign = ['+'] ∨ sign = ['-']) ∧
      ds ≠ [] ∧ (∀ c ∈ ds, c.isDigit = true) ∧ (∀ c, rest.head? = some c → c.isDigit = false) ∧
      n = Spec.decimal ds ∧ neg = decide (sign = ['-']) := by
  constructor
  · intro h
    unfold numParse at h
    simp only at h
    split at h
    · cases h
    · rename_i hne
      simp only [Option.some.injEq, Prod.mk.injEq] at h
      obtain ⟨h1, h2⟩ := h
      let l0 := s.toList.dropWhile isSpace
      have hs0 : s.toList = s.toList.takeWhile isSpace ++ l0 :=
        (List.takeWhile_append_dropWhile).symm
      have hsign : ∃ sign, l0 = sign ++ (numSign l0).2 ∧
          (sign = [] ∨ sign = ['+'] ∨ sign = ['-']) ∧ (numSign l0).1 = decide (sign = ['-']) := by
        exact numSign_spec l0
      obtain ⟨sign, e1, e2, e3⟩ := hsign
      refine ⟨s.toList.takeWhile isSpace, sign, (numSign l0).2.takeWhile Char.isDigit,
        (numSign l0).2.dropWhile Char.isDigit, ?_, ?_, e2, ?_, ?_, ?_, ?_, ?_⟩
      · rw [List.append_assoc, List.append_assoc, List.takeWhile_append_dropWhile, ← e1]
        exact hs0
      · intro c hc
        exact (isSpace_iff c).1 (mem_takeWhile_pos hc)
      · intro he
        exact hne (by rw [List.isEmpty_iff]; exact he)
      · intro c hc; exact mem_takeWhile_pos hc
      · intro c hc; exact head_dropWhile hc
      · exact h2.symm
      · rw [← e3]; exact h1.symm
  · rintro ⟨ws, sign, ds, rest, hs, hws, hsign, hne, hds, hrest, rfl, rfl⟩
    obtain ⟨d, ds', rfl⟩ := List.exists_cons_of_ne_nil hne
    have hd := hds d (by simp)
    have h1 : s.toList.dropWhile isSpace = sign ++ (d :: ds') ++ rest := by
      rw [hs, List.append_assoc, List.append_assoc]
      rw [List.append_assoc]
      refine dropWhile_append_head (fun c hc => (isSpace_iff c).2 (hws c hc)) ?_
      intro c hc
      rcases hsign with rfl | rfl | rfl
      · simp at hc; subst hc; exact not_digit_space hd
      · simp at hc; subst hc; decide
      · simp at hc; subst hc; decide
    have h2 : numSign (sign ++ (d :: ds') ++ rest) = (decide (sign = ['-']), (d :: ds') ++ rest) := by
      rcases hsign with rfl | rfl | rfl
      · unfold numSign
        simp only [List.nil_append, List.cons_append]
        split
        · rename_i heq; simp at heq; rw [heq.1] at hd; simp at hd
        · rename_i heq; simp at heq; rw [heq.1] at hd; simp at hd
        · simp
      · simp [numSign]
      · simp [numSign]
    have h3 : ((d :: ds') ++ rest).takeWhile Char.isDigit = d :: ds' :=
      takeWhile_append_head hds hrest
    unfold numParse
    simp only [h1, h2, h3]
    simp [decimal_eq]

theorem stoul_iff (s : String) (n : Nat) : stoul s = .ok n ↔ Spec.IsCount s n := by
  unfold Spec.IsCount stoul
  constructor
  · intro h
    cases hp : numParse s with
    | none => rw [hp] at h; cases h
    | some x =>
      obtain ⟨neg, m⟩ := x
      rw [hp] at h
      simp only at h
      obtain ⟨ws, sign, ds, rest, h1, h2, h3, h4, h5, h6, h7, h8⟩ := (numParse_iff s neg m).1 hp
      split at h
      · cases h
      · rename_i hlt
        refine ⟨ws, sign, ds, rest, h1, h2, h3, h4, h5, h6, ?_, ?_⟩
        · rw [← h7]; simp only [SZ] at hlt; omega
        · subst h7
          by_cases hs : sign = ['-']
          · rw [h8] at h; simp [hs] at h; simp only [SZ] at h; rw [if_pos hs, ← h]
          · rw [h8] at h; simp [hs] at h; rw [if_neg hs, h]
  · rintro ⟨ws, sign, ds, rest, h1, h2, h3, h4, h5, h6, h7, h8⟩
    rw [(numParse_iff s (decide (sign = ['-'])) (Spec.decimal ds)).2
      ⟨ws, sign, ds, rest, h1, h2, h3, h4, h5, h6, rfl, rfl⟩]
    have hlt : ¬ SZ ≤ Spec.decimal ds := by simp only [SZ]; omega
    simp only [if_neg hlt]
    by_cases hs : sign = ['-']
    · simp only [hs, decide_true, if_true] at h8 ⊢
      rw [h8]; simp [SZ]
    · simp only [hs, if_false, decide_false] at h8 ⊢
      rw [h8]; simp

/-! ## Matching of one header -/

theorem mem_addMatchers {hs : Headers} : ∀ {m m' : MMap Matcher}, addMatchers hs m = .ok m' →
    ∀ e : String × Matcher, e ∈ m' ↔ e ∈ m ∨ ∃ v, (e.1, v) ∈ hs ∧
      ((e.1 = "threads" ∧ ∃ n, stoul v = .ok n ∧ e.2 = .count n) ∨
       (e.1 ≠ "threads" ∧ e.2 = .exact v)) := by
  induction hs with
  | nil => intro m m' h e; simp [addMatchers] at h; subst h; simp
  | cons a t ih =>
    intro m m' h e
    obtain ⟨k, v⟩ := a
    simp only [addMatchers] at h
    split at h
    · rename_i hk
      split at h
      · rename_i n hn
        rw [ih h e, mem_mmEmplace]
        constructor
        · rintro ((rfl | h1) | ⟨v', h1, h2⟩)
          · exact Or.inr ⟨v, by simp, Or.inl ⟨hk, n, hn, rfl⟩⟩
          · exact Or.inl h1
          · exact Or.inr ⟨v', by simp [h1], h2⟩
        · rintro (h1 | ⟨v', h1, h2⟩)
          · exact Or.inl (Or.inr h1)
          · rcases List.mem_cons.1 h1 with h1 | h1
            · obtain ⟨e1, e2⟩ := e
              simp only [Prod.mk.injEq] at h1
              obtain ⟨rfl, rfl⟩ := h1
              rcases h2 with ⟨_, n', hn', h2⟩ | ⟨h2, _⟩
              · rw [hn] at hn'; cases hn'
                simp only at h2; subst h2
                exact Or.inl (Or.inl rfl)
              · exact absurd hk h2
            · exact Or.inr ⟨v', h1, h2⟩
      · cases h
    · rename_i hk
      rw [ih h e, mem_mmEmplace]
      constructor
      · rintro ((rfl | h1) | ⟨v', h1, h2⟩)
        · exact Or.inr ⟨v, by simp, Or.inr ⟨hk, rfl⟩⟩
        · exact Or.inl h1
        · exact Or.inr ⟨v', by simp [h1], h2⟩
      · rintro (h1 | ⟨v', h1, h2⟩)
        · exact Or.inl (Or.inr h1)
        · rcases List.mem_cons.1 h1 with h1 | h1
          · obtain ⟨e1, e2⟩ := e
            simp only [Prod.mk.injEq] at h1
            obtain ⟨rfl, rfl⟩ := h1
            rcases h2 with ⟨h2, _⟩ | ⟨_, h2⟩
            · exact absurd h2 hk
            · simp only at h2; subst h2; exact Or.inl (Or.inl rfl)
          · exact Or.inr ⟨v', h1, h2⟩

/-- Matchers of a worker under a name are all numeric or all textual, so the search cannot stop with
    an exception before finding a match. -/
theorem checkHeader_true_iff {w : Worker} (hw : w.WF) (k v : String) :
    w.checkHeader k v = .ok true ↔ ∃ m, (k, m) ∈ w.matchers ∧ m.run v = .ok true := by
  unfold Worker.checkHeader
  have hr : ∀ m, m ∈ mmRange k w.matchers ↔ (k, m) ∈ w.matchers := fun m => mem_mmRange
  have hm : ∀ m ∈ mmRange k w.matchers, (k = "threads" ↔ ∃ n, m = .count n) :=
    fun m h => hw (k, m) ((hr m).1 h)
  have : anyMatch (mmRange k w.matchers) v = .ok true ↔
      ∃ m ∈ mmRange k w.matchers, m.run v = .ok true := by
    generalize mmRange k w.matchers = l at hm
    clear hr
    induction l with
    | nil => simp [anyMatch]
    | cons a t ih =>
      have iht := ih (fun m h => hm m (List.mem_cons_of_mem _ h))
      have ha := hm a (by simp)
      simp only [anyMatch]
      cases hrun : a.run v with
      | ok b =>
        cases b with
        | true => simp [hrun]
        | false => simp [hrun, iht]
      | error e =>
        simp only [Except.bind_error, reduceCtorEq, List.mem_cons, false_iff, not_exists, not_and]
        intro m hmem hmr
        have hex : ∃ n, a = .count n ∧ stoul v = .error e := by
          cases a with
          | exact x => simp [Matcher.run] at hrun
          | multi x => simp [Matcher.run] at hrun
          | count n =>
            refine ⟨n, rfl, ?_⟩
            simp only [Matcher.run, Except.bind_eq_error] at hrun
            rcases hrun with h | ⟨_, _, h⟩
            · exact h
            · cases h
        obtain ⟨n, ha', hst⟩ := hex
        have hk : k = "threads" := ha.2 ⟨n, ha'⟩
        obtain ⟨n', rfl⟩ := (hm m (List.mem_cons.2 hmem)).1 hk
        simp [Matcher.run, hst] at hmr
  rw [this]
  simp only [hr]

theorem checkHeaders_true_iff {w : Worker} (hs : Headers) :
    w.Can hs ↔ ∀ e ∈ hs, w.checkHeader e.1 e.2 = .ok true := by
  unfold Worker.Can
  induction hs with
  | nil => simp [Worker.checkHeaders]
  | cons a t ih =>
    obtain ⟨k, v⟩ := a
    simp only [Worker.checkHeaders, Except.bind_eq_ok, List.forall_mem_cons, ← ih]
    constructor
    · rintro ⟨b, h1, h2⟩
      cases b with
      | true => exact ⟨h1, by simpa using h2⟩
      | false => simp at h2
    · rintro ⟨h1, h2⟩
      exact ⟨true, h1, by simpa using h2⟩

theorem mem_initHeaders : ∀ (l : List String) (hs : Headers) (e : String × String),
    e ∈ (initHeaders l hs).1 ↔ e ∈ hs ∨
      ∃ f ∈ Spec.headerFrames l, e = (Spec.frameKey f, Spec.frameValue f) := by
  intro l
  induction l with
  | nil => intro hs e; simp [initHeaders, Spec.headerFrames]
  | cons f t ih =>
    intro hs e
    simp only [initHeaders, Spec.headerFrames]
    by_cases hf : f = ""
    · simp [hf]
    · simp only [if_neg hf, splitHeader_eq]
      rw [ih, mem_mmEmplace]
      have : (f != "") = true := by simpa using hf
      simp only [Spec.headerFrames, List.takeWhile_cons, this, if_true, List.mem_cons]
      constructor
      · rintro ((rfl | h) | ⟨g, hg, rfl⟩)
        · exact Or.inr ⟨f, Or.inl rfl, rfl⟩
        · exact Or.inl h
        · exact Or.inr ⟨g, Or.inr hg, rfl⟩
      · rintro (h | ⟨g, rfl | hg, rfl⟩)
        · exact Or.inl (Or.inr h)
        · exact Or.inl (Or.inl rfl)
        · exact Or.inr ⟨g, hg, rfl⟩

/-- Matching of one header against a worker created from an `init` message. -/
theorem checkHeader_iff {a : Nat} {i g d : String} {rest : List String} {w : Worker}
    (h : Worker.create a i g (initHeaders rest []).1 d = .ok w) (k v : String) :
    w.checkHeader k v = .ok true ↔ Spec.Satisfies g (Spec.headerFrames rest) k v := by
  rw [checkHeader_true_iff (Worker.create_wf h)]
  simp only [Worker.create, Except.bind_eq_ok] at h
  obtain ⟨ms, h1, h2⟩ := h
  simp only [Except.pure_eq_ok, Except.ok.injEq] at h2
  subst h2
  simp only [mem_addMatchers h1, mem_mmEmplace, mem_initHeaders]
  simp only [List.not_mem_nil, or_false, false_or, Prod.mk.injEq]
  unfold Spec.Satisfies
  constructor
  · rintro ⟨m, ⟨rfl, rfl⟩ | ⟨v', ⟨f, hf, hk, rfl⟩, hm⟩, hrun⟩
    · left
      simp only [Matcher.run, Except.ok.injEq] at hrun
      exact ⟨rfl, (multiMatch_iff _ _).1 hrun⟩
    · right
      rcases hm with ⟨rfl, n, hn, rfl⟩ | ⟨hne, rfl⟩
      · left
        simp only [Matcher.run, Except.bind_eq_ok] at hrun
        obtain ⟨m, hm1, hm2⟩ := hrun
        simp only [Except.pure_eq_ok, Except.ok.injEq, decide_eq_true_eq] at hm2
        exact ⟨rfl, f, hf, hk.symm, m, n, (stoul_iff _ _).1 hm1, (stoul_iff _ _).1 hn, hm2⟩
      · right
        simp only [Matcher.run, Except.ok.injEq, beq_iff_eq] at hrun
        exact ⟨hne, f, hf, hk.symm, hrun.symm⟩
  · rintro (⟨rfl, ha⟩ | ⟨rfl, f, hf, hk, m, n, hm, hn, hle⟩ | ⟨hne, f, hf, hk, hv⟩)
    · exact ⟨.multi g, Or.inl ⟨rfl, rfl⟩, by simp [Matcher.run, (multiMatch_iff _ _).2 ha]⟩
    · refine ⟨.count n, Or.inr ⟨Spec.frameValue f, ⟨f, hf, hk.symm, rfl⟩,
        Or.inl ⟨rfl, n, (stoul_iff _ _).2 hn, rfl⟩⟩, ?_⟩
      simp [Matcher.run, (stoul_iff _ _).2 hm, hle]
    · refine ⟨.exact v, Or.inr ⟨v, ⟨f, hf, hk.symm, hv.symm⟩, Or.inr ⟨hne, rfl⟩⟩, ?_⟩
      simp [Matcher.run]

/-! ## Parsing of `eval` -/

/-- Result of the header loop on frames with an empty one. -/
theorem evalHeaders_some : ∀ (l : List String) (hs : Headers) (md : Metadata) (x),
    evalHeaders l hs md = .ok (some x) → "" ∈ l ∧ x.2.2 = Spec.payloadFrames l ∧
      ∀ e : String × String, e ∈ x.1 ↔ e ∈ hs ∨ ∃ f ∈ Spec.headerFrames l, Spec.isMeta f = false ∧
        e = (Spec.frameKey f, Spec.frameValue f) := by
  intro l
  induction l with
  | nil => intro hs md x h; simp [evalHeaders] at h
  | cons f t ih =>
    intro hs md x h
    rw [evalHeaders.eq_def] at h
    simp only at h
    by_cases hf : f = ""
    · rw [if_pos hf] at h
      simp only [Except.ok.injEq, Option.some.injEq] at h
      subst h; subst hf
      simp [Spec.payloadFrames, Spec.headerFrames]
    · rw [if_neg hf] at h
      have hfb : (f != "") = true := by simpa using hf
      cases t with
      | nil => simp at h
      | cons f2 t2 =>
        simp only [splitHeader_eq] at h
        have hmeta : ((Spec.frameKey f).toList.take 5 = "meta.".toList) ↔ Spec.isMeta f = true := by
          simp [Spec.isMeta]
        by_cases hm : Spec.isMeta f = true
        · rw [if_pos (hmeta.2 hm)] at h
          obtain ⟨h1, h2, h3⟩ := ih _ _ _ h
          refine ⟨List.mem_cons_of_mem _ h1, ?_, ?_⟩
          · rw [h2]; simp [Spec.payloadFrames, List.dropWhile_cons, hfb]
          · intro e
            rw [h3 e]
            simp only [Spec.headerFrames, List.takeWhile_cons (a := f), hfb, if_true, List.mem_cons]
            constructor
            · rintro (h | ⟨g, hg, h⟩)
              · exact Or.inl h
              · exact Or.inr ⟨g, Or.inr hg, h⟩
            · rintro (h | ⟨g, rfl | hg, hg1, hg2⟩)
              · exact Or.inl h
              · rw [hm] at hg1; cases hg1
              · exact Or.inr ⟨g, hg, hg1, hg2⟩
        · rw [if_neg (fun h => hm (hmeta.1 h))] at h
          obtain ⟨h1, h2, h3⟩ := ih _ _ _ h
          have hm' : Spec.isMeta f = false := by simpa using hm
          refine ⟨List.mem_cons_of_mem _ h1, ?_, ?_⟩
          · rw [h2]; simp [Spec.payloadFrames, List.dropWhile_cons, hfb]
          · intro e
            rw [h3 e, mem_mmEmplace]
            simp only [Spec.headerFrames, List.takeWhile_cons (a := f), hfb, if_true, List.mem_cons]
            constructor
            · rintro ((rfl | h) | ⟨g, hg, h⟩)
              · exact Or.inr ⟨f, Or.inl rfl, hm', rfl⟩
              · exact Or.inl h
              · exact Or.inr ⟨g, Or.inr hg, h⟩
            · rintro (h | ⟨g, rfl | hg, hg1, hg2⟩)
              · exact Or.inl (Or.inr h)
              · exact Or.inl (Or.inl hg2)
              · exact Or.inr ⟨g, hg, hg1, hg2⟩

theorem evalHeaders_none : ∀ (l : List String) (hs : Headers) (md : Metadata),
    evalHeaders l hs md = .ok none ↔ l ≠ [] ∧ "" ∉ l := by
  intro l
  induction l with
  | nil => intro hs md; simp [evalHeaders]
  | cons f t ih =>
    intro hs md
    rw [evalHeaders.eq_def]
    simp only
    by_cases hf : f = ""
    · simp [hf]
    · rw [if_neg hf]
      cases t with
      | nil => simp [Ne.symm hf]
      | cons f2 t2 =>
        simp only
        split
        · rw [ih]; simp [Ne.symm hf]
        · rw [ih]; simp [Ne.symm hf]

theorem evalHeaders_exists {l : List String} (hs : Headers) (md : Metadata) (h : "" ∈ l) :
    ∃ x, evalHeaders l hs md = .ok (some x) := by
  cases he : evalHeaders l hs md with
  | error u =>
    cases l with
    | nil => simp at h
    | cons f t =>
      exfalso
      revert he
      have : ∀ (l : List String) (hs : Headers) (md : Metadata), l ≠ [] →
          ∀ u, evalHeaders l hs md ≠ .error u := by
        intro l
        induction l with
        | nil => intro _ _ h; exact absurd rfl h
        | cons f t ih =>
          intro hs md _ u h
          rw [evalHeaders.eq_def] at h
          simp only at h
          by_cases hf : f = ""
          · simp [hf] at h
          · rw [if_neg hf] at h
            cases t with
            | nil => simp at h
            | cons f2 t2 =>
              simp only at h
              split at h
              · exact ih _ _ (by simp) u h
              · exact ih _ _ (by simp) u h
      exact this _ hs md (by simp) u
  | ok o =>
    cases o with
    | none => exact absurd h ((evalHeaders_none l hs md).1 he).2
    | some x => exact ⟨x, rfl⟩

/-- A worker created from an `init` message can process a request parsed from an `eval` message
    exactly if it is capable in the sense of the specification. -/
theorem can_iff {a : Nat} {i g d : String} {rest : List String} {w : Worker}
    (h : Worker.create a i g (initHeaders rest []).1 d = .ok w) {l : List String} {hs : Headers}
    {md : Metadata} {extra : List String} (he : evalHeaders l [] [] = .ok (some (hs, md, extra))) :
    w.Can hs ↔ Spec.Capable g (Spec.headerFrames rest) (Spec.headerFrames l) := by
  rw [checkHeaders_true_iff]
  obtain ⟨_, _, h3⟩ := evalHeaders_some _ _ _ _ he
  simp only [List.not_mem_nil, false_or] at h3
  unfold Spec.Capable
  constructor
  · intro hall f hf hm
    exact (checkHeader_iff h _ _).1 (hall _ ((h3 _).2 ⟨f, hf, hm, rfl⟩))
  · intro hall e hemem
    obtain ⟨f, hf, hm, rfl⟩ := (h3 e).1 hemem
    exact (checkHeader_iff h _ _).2 (hall f hf hm)

theorem split_frames {fs : List String} (h : "" ∈ fs) :
    fs = Spec.headerFrames fs ++ "" :: Spec.payloadFrames fs := by
  induction fs with
  | nil => simp at h
  | cons a t ih =>
    by_cases ha : a = ""
    · subst ha; simp [Spec.headerFrames, Spec.payloadFrames]
    · have h' := ih ((List.mem_cons.1 h).resolve_left (Ne.symm ha))
      have hb : (a != "") = true := by simp [ha]
      have e1 : Spec.headerFrames (a :: t) = a :: Spec.headerFrames t := by
        simp [Spec.headerFrames, List.takeWhile_cons, hb]
      have e2 : Spec.payloadFrames (a :: t) = Spec.payloadFrames t := by
        simp [Spec.payloadFrames, List.dropWhile_cons, hb]
      rw [e1, e2, List.cons_append, ← h']

theorem not_mem_headerFrames (fs : List String) : "" ∉ Spec.headerFrames fs := by
  induction fs with
  | nil => simp [Spec.headerFrames]
  | cons a t ih =>
    by_cases ha : a = ""
    · subst ha; simp [Spec.headerFrames]
    · have hb : (a != "") = true := by simp [ha]
      have e1 : Spec.headerFrames (a :: t) = a :: Spec.headerFrames t := by
        simp [Spec.headerFrames, List.takeWhile_cons, hb]
      rw [e1, List.mem_cons]
      rintro (h | h)
      · exact ha h.symm
      · exact ih h

end Broker
