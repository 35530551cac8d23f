import Verif.Model.Queue

/-! # Facts about header matching -/

namespace Broker

theorem Except.bind_eq_ok {ε α β : Type} {x : Except ε α} {f : α → Except ε β} {b : β} :
    (x >>= f) = .ok b ↔ ∃ a, x = .ok a ∧ f a = .ok b := by
  cases x <;> simp [bind, Except.bind]

theorem Except.bind_eq_error {ε α β : Type} {x : Except ε α} {f : α → Except ε β} {e : ε} :
    (x >>= f) = .error e ↔ x = .error e ∨ ∃ a, x = .ok a ∧ f a = .error e := by
  cases x <;> simp [bind, Except.bind]

@[simp] theorem Except.pure_eq_ok {ε α : Type} (a : α) : (pure a : Except ε α) = .ok a := rfl

@[simp] theorem Except.bind_ok {ε α β : Type} (a : α) (f : α → Except ε β) :
    ((Except.ok a : Except ε α) >>= f) = f a := rfl

@[simp] theorem Except.bind_error {ε α β : Type} (e : ε) (f : α → Except ε β) :
    ((Except.error e : Except ε α) >>= f) = .error e := rfl

/-- The worker can process a request with these headers. -/
def Worker.Can (w : Worker) (hs : Headers) : Prop := w.checkHeaders hs = .ok true

/-- A worker whose `count` matchers are exactly the ones stored under "threads". -/
def Worker.WF (w : Worker) : Prop :=
  ∀ e ∈ w.matchers, (e.1 = "threads" ↔ ∃ n, e.2 = .count n)

/-- Matching these headers against a well-formed worker never throws. -/
def SafeHeaders (hs : Headers) : Prop :=
  ∀ w : Worker, w.WF → ∃ b, w.checkHeaders hs = .ok b

theorem mem_mmEmplace {V : Type} {k : String} {v : V} {m : MMap V} {e : String × V} :
    e ∈ mmEmplace k v m ↔ e = (k, v) ∨ e ∈ m := by
  induction m with
  | nil => simp [mmEmplace]
  | cons a t ih =>
    obtain ⟨k', v'⟩ := a
    simp only [mmEmplace]
    split
    · simp
    · simp only [List.mem_cons, ih]
      constructor
      · rintro (h | h | h) <;> simp [h]
      · rintro (h | h | h) <;> simp [h]

theorem addMatchers_wf {hs : Headers} : ∀ {m m' : MMap Matcher},
    (∀ e ∈ m, (e.1 = "threads" ↔ ∃ n, e.2 = .count n)) → addMatchers hs m = .ok m' →
    ∀ e ∈ m', (e.1 = "threads" ↔ ∃ n, e.2 = .count n) := by
  induction hs with
  | nil => intro m m' h heq; simp [addMatchers] at heq; subst heq; exact h
  | cons a t ih =>
    intro m m' h heq
    obtain ⟨k, v⟩ := a
    simp only [addMatchers] at heq
    split at heq
    · split at heq
      · refine ih ?_ heq
        intro e he
        rcases mem_mmEmplace.1 he with rfl | he
        · simp [*]
        · exact h e he
      · cases heq
    · refine ih ?_ heq
      intro e he
      rcases mem_mmEmplace.1 he with rfl | he
      · simp [*]
      · exact h e he

theorem Worker.create_wf {a : Nat} {i g d : String} {hs : Headers} {w : Worker}
    (h : Worker.create a i g hs d = .ok w) : w.WF := by
  simp only [Worker.create, Except.bind_eq_ok] at h
  obtain ⟨ms, h1, h2⟩ := h
  simp at h2
  subst h2
  refine addMatchers_wf ?_ h1
  simp [mmEmplace]

theorem Worker.create_fields {a : Nat} {i g d : String} {hs : Headers} {w : Worker}
    (h : Worker.create a i g hs d = .ok w) :
    w.addr = a ∧ w.identity = i ∧ w.hwgroup = g ∧ w.headers = hs ∧ w.description = d := by
  simp only [Worker.create, Except.bind_eq_ok] at h
  obtain ⟨ms, h1, h2⟩ := h
  simp at h2
  subst h2
  simp

theorem mem_mmRange {V : Type} {k : String} {v : V} {m : MMap V} :
    v ∈ mmRange k m ↔ (k, v) ∈ m := by
  simp only [mmRange, List.mem_map, List.mem_filter, beq_iff_eq]
  constructor
  · rintro ⟨⟨a, b⟩, ⟨h1, h2⟩, h3⟩
    simp at h2 h3; subst h2; subst h3; exact h1
  · intro h; exact ⟨(k, v), ⟨h, rfl⟩, rfl⟩

/-- A range of matchers that all are counts, or none. -/
theorem anyMatch_total {ms : List Matcher} {v : String}
    (h : (∀ m ∈ ms, ∀ n, m ≠ .count n) ∨ ∃ n, stoul v = .ok n) :
    ∃ b, anyMatch ms v = .ok b := by
  induction ms with
  | nil => exact ⟨false, rfl⟩
  | cons m t ih =>
    have iht := ih (h.imp (fun h m hm => h m (List.mem_cons_of_mem _ hm)) id)
    have hm : ∃ b, m.run v = .ok b := by
      cases m with
      | exact x => exact ⟨_, rfl⟩
      | multi x => exact ⟨_, rfl⟩
      | count n =>
        rcases h with h | ⟨k, hk⟩
        · exact absurd rfl (h (.count n) (by simp) n)
        · exact ⟨decide (k ≤ n), by simp [Matcher.run, hk]⟩
    obtain ⟨b, hb⟩ := hm
    obtain ⟨c, hc⟩ := iht
    cases b with
    | true => exact ⟨true, by simp [anyMatch, hb]⟩
    | false => exact ⟨c, by simp [anyMatch, hb, hc]⟩

/-- If a well-formed worker matches a `threads` value, the value is a number. -/
theorem stoul_of_anyMatch {ms : List Matcher} {v : String}
    (hms : ∀ m ∈ ms, ∃ n, m = .count n) (h : anyMatch ms v = .ok true) :
    ∃ n, stoul v = .ok n := by
  cases ms with
  | nil => simp [anyMatch] at h
  | cons m t =>
    obtain ⟨n, rfl⟩ := hms m (by simp)
    simp only [anyMatch, Except.bind_eq_ok, Matcher.run] at h
    obtain ⟨b, ⟨k, hk, _⟩, _⟩ := h
    exact ⟨k, hk⟩

theorem checkHeader_total_of_can {w w' : Worker} {k v : String} (hw : w.WF) (hw' : w'.WF)
    (h : w.checkHeader k v = .ok true) : ∃ b, w'.checkHeader k v = .ok b := by
  refine anyMatch_total ?_
  by_cases hk : k = "threads"
  · right
    refine stoul_of_anyMatch ?_ h
    intro m hm
    exact (hw (k, m) (mem_mmRange.1 hm)).1 hk
  · left
    intro m hm n he
    exact hk ((hw' (k, m) (mem_mmRange.1 hm)).2 ⟨n, he⟩)

/-- Headers that some well-formed worker satisfies never make matching throw. -/
theorem safe_of_can {w : Worker} {hs : Headers} (hw : w.WF) (h : w.Can hs) : SafeHeaders hs := by
  intro w' hw'
  unfold Worker.Can at h
  induction hs with
  | nil => exact ⟨true, rfl⟩
  | cons a t ih =>
    obtain ⟨k, v⟩ := a
    simp only [Worker.checkHeaders, Except.bind_eq_ok] at h
    obtain ⟨b, hb, h⟩ := h
    cases b with
    | false => simp at h
    | true =>
      simp at h
      obtain ⟨b', hb'⟩ := checkHeader_total_of_can hw hw' hb
      obtain ⟨c, hc⟩ := ih h
      cases b' with
      | true => exact ⟨c, by simp [Worker.checkHeaders, hb', hc]⟩
      | false => exact ⟨false, by simp [Worker.checkHeaders, hb']⟩

theorem can_nil (w : Worker) : w.Can [] := rfl

end Broker
