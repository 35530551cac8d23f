import Verif.Proof.Form
import Verif.Props.Reactor

/-!
# The status notifier (C34, C35)
-/

set_option linter.unusedSectionVars false

namespace Broker

variable {Q : Type} [QueueManager Q] [LawfulQM Q]

/-! ## C34 -/

/-- **C34 (partial).** If no name or value in the notification contains a character with a meaning in
    the body of the request, the frontend decodes from the body exactly the last value of each name
    other than `type` and `id`, and these two are in the address.  Missing: the code escapes nothing,
    see `C34_refuted`. -/
theorem C34_partial (cfg : NotifierConfig) (outcome : Nat → Bool) (m : Msg) (acts : List NAct)
    (h : notifierOnRequest cfg outcome m = .ok acts)
    (hp : ∀ p ∈ Spec.pairs m.data, Spec.PlainName p.1 ∧ Spec.PlainValue p.2) :
    ∀ r ∈ (Spec.posts acts).map (·.1),
      (Spec.decodeForm r.body).Pairwise (fun a b => a.1 ≠ b.1) ∧
      ∀ k v, (k, v) ∈ Spec.decodeForm r.body ↔
        k ≠ "type" ∧ k ≠ "id" ∧ Spec.lastValue k (Spec.pairs m.data) = some v := by
  unfold notifierOnRequest at h
  cases hn : parseNotification m.data with
  | error u => rw [hn] at h; cases h
  | ok n =>
    rw [hn] at h
    cases h
    have hall : ∀ (R : HttpPost) (n d i : Nat), ∀ x ∈ (Spec.posts (retryLoop R outcome n d i)).map (·.1),
        x = R := by
      intro R n
      induction n with
      | zero => intro d i x hx; simp [retryLoop, Spec.posts] at hx
      | succ n ih =>
        intro d i x hx
        rw [retryLoop] at hx
        split at hx
        · simpa [Spec.posts] using hx
        · simp only [Spec.posts, List.filterMap_cons, List.map_cons, List.mem_cons] at hx
          rcases hx with rfl | hx
          · rfl
          · exact ih _ _ x hx
    intro r hr
    have hr := hall _ _ _ _ r hr
    subst hr
    obtain ⟨c1, c2, c3, c4, c5⟩ := collect_spec m.data ⟨"", "", []⟩ n (by simp [MMap.StrictSorted]) hn
    have hplain : ∀ p ∈ n.params, Spec.PlainName p.1 ∧ Spec.PlainValue p.2 := by
      intro p hp'
      rcases c2 p hp' with h | h
      · simp at h
      · exact hp p h
    have hbody : Spec.decodeForm (httpPost cfg n).body = n.params := decode_query hplain
    have hpw : n.params.Pairwise (fun a b => a.1 ≠ b.1) := by
      refine List.Pairwise.imp ?_ c1
      intro a b hab heq
      rw [heq] at hab
      exact String.lt_irrefl _ hab
    rw [hbody]
    refine ⟨hpw, ?_⟩
    intro k v
    have hlook : (k, v) ∈ n.params ↔ List.lookup k n.params = some v := by
      clear hplain hbody c5 c2 c1 hn
      generalize n.params = l at hpw
      induction l with
      | nil => simp
      | cons a t ih =>
        obtain ⟨k', v'⟩ := a
        obtain ⟨h1, h2⟩ := List.pairwise_cons.1 hpw
        rw [List.lookup_cons, List.mem_cons]
        by_cases hk : k = k'
        · subst hk
          simp only [beq_self_eq_true, Prod.mk.injEq, true_and, Option.some.injEq]
          constructor
          · rintro (h | h)
            · exact h.symm
            · exact absurd rfl (h1 (k, v) h)
          · intro h; exact .inl h.symm
        · have : (k == k') = false := by simpa using hk
          simp only [this, Prod.mk.injEq, hk, false_and, false_or]
          exact ih h2
    rw [hlook, c5 k]
    by_cases hk : k = "type" ∨ k = "id"
    · rw [if_pos hk]
      simp only [List.lookup_nil]
      constructor
      · intro h; cases h
      · rintro ⟨h1, h2, _⟩
        rcases hk with h | h
        · exact absurd h h1
        · exact absurd h h2
    · rw [if_neg hk]
      simp only [not_or] at hk
      simp [hk.1, hk.2]

/-- **C34, address (partial).** The request goes to the configured address, followed by the type and
    the id of the notification, if none of them contains a NUL (other characters are not escaped
    either). -/
theorem C34_address_partial (cfg : NotifierConfig) (outcome : Nat → Bool) (m : Msg) (acts : List NAct)
    (h : notifierOnRequest cfg outcome m = .ok acts) {ty id : String}
    (hty : Spec.lastValue "type" (Spec.pairs m.data) = some ty)
    (hid : Spec.lastValue "id" (Spec.pairs m.data) = some id) (h1 : ty ≠ "") (h2 : id ≠ "")
    (hn : '\x00' ∉ (cfg.address ++ "/" ++ ty ++ "/" ++ id).toList) :
    ∀ r ∈ (Spec.posts acts).map (·.1), r.url = cfg.address ++ "/" ++ ty ++ "/" ++ id ∧
      r.port = cfg.port := by
  unfold notifierOnRequest at h
  cases hp : parseNotification m.data with
  | error u => rw [hp] at h; cases h
  | ok n =>
    rw [hp] at h
    cases h
    obtain ⟨c1, c2, c3, c4, c5⟩ := collect_spec m.data ⟨"", "", []⟩ n (by simp [MMap.StrictSorted]) hp
    rw [hty] at c3
    rw [hid] at c4
    have e3 : n.type = ty := c3
    have e4 : n.id = id := c4
    have hurl : notificationUrl cfg n = cfg.address ++ "/" ++ ty ++ "/" ++ id := by
      unfold notificationUrl
      rw [e3, e4, if_pos h1, if_pos h2]
      simp [String.append_assoc]
    have hR : (httpPost cfg n).url = cfg.address ++ "/" ++ ty ++ "/" ++ id ∧
        (httpPost cfg n).port = cfg.port := by
      refine ⟨?_, rfl⟩
      show cString (notificationUrl cfg n) = _
      rw [hurl, cString_plain hn]
    have hall : ∀ (R : HttpPost) (n d i : Nat), ∀ x ∈ (Spec.posts (retryLoop R outcome n d i)).map (·.1),
        x = R := by
      intro R n
      induction n with
      | zero => intro d i x hx; simp [retryLoop, Spec.posts] at hx
      | succ n ih =>
        intro d i x hx
        rw [retryLoop] at hx
        split at hx
        · simpa [Spec.posts] using hx
        · simp only [Spec.posts, List.filterMap_cons, List.map_cons, List.mem_cons] at hx
          rcases hx with rfl | hx
          · rfl
          · exact ih _ _ x hx
    intro r hr
    rw [hall _ _ _ _ r hr]
    exact hR

/-- A notification as the broker emits it, and what is posted for it. -/
example : (notifierOnRequest senv0.ncfg (fun _ => true) ⟨"status_notifier", "",
      ["type", "job-status", "id", "J1", "status", "FAILED", "message", "out of memory"]⟩) =
    .ok [.post ⟨"http://localhost/job-status/J1", 8080, "message=out of memory&status=FAILED", none⟩ true] ∧
    Spec.decodeForm "message=out of memory&status=FAILED" =
      [("message", "out of memory"), ("status", "FAILED")] := by decide +kernel

/-- A worker reports a failure with a text that contains separators. -/
def injectEvs : List SysEv :=
  [.connect, .arrive "workers" "w1" ["init", "group", "env=c"], .poll 0 0, .main, .main,
   .arrive "clients" "c1" ["eval", "J1", "env=c", "", "x"], .poll 0 0,
   .main, .main, .main, .main, .main,
   .arrive "workers" "w1" ["done", "J1", "FAILED", "a&status=OK"], .poll 0 0, .main, .main,
   .take (fun _ => true)]

/-- **C34 is false**: from the notification of a failed job the frontend decodes the text given by the
    worker as further parameters, even a second status. -/
theorem C34_refuted : ¬ ∀ (evs : List SysEv) (s : Sys Multi), SRun cfg0 env0 senv0 evs s →
    ∀ x ∈ s.notified, ∀ r ∈ (Spec.posts x.2).map (·.1), ∀ k v,
      (k, v) ∈ Spec.decodeForm r.body →
        k ≠ "type" ∧ k ≠ "id" ∧ Spec.lastValue k (Spec.pairs x.1.data) = some v := by
  intro H
  obtain ⟨s, hr, hp⟩ := exists_srun (Q := Multi) (cfg := cfg0) (env := env0) (e := senv0) injectEvs
    (fun s => s.notified.any fun x => (Spec.posts x.2).any fun r =>
      (Spec.decodeForm r.1.body).contains ("status", "OK") &&
        (Spec.lastValue "status" (Spec.pairs x.1.data) == some "FAILED"))
    (by decide +kernel)
  simp only [List.any_eq_true, Bool.and_eq_true, List.contains_iff_mem, beq_iff_eq] at hp
  obtain ⟨x, hx, r, hr', h1, h2⟩ := hp
  obtain ⟨-, -, h3⟩ := H _ _ hr x hx r.1 (List.mem_map.2 ⟨r, hr', rfl⟩) _ _ h1
  rw [h2] at h3
  exact absurd h3 (by decide)

/-- **C34, what the broker emits.** Every notification the broker emits can be processed by the
    notifier: its frames come in pairs, so nothing is read past their end. -/
theorem C34_wellformed {cfg : HConfig} {env : Env} {e : SysEnv} {evs : List SysEv} {s : Sys Q}
    (hr : SRun cfg env e evs s) {m : Msg} (hm : m ∈ Spec.notifications s.emitted)
    (ncfg : NotifierConfig) (outcome : Nat → Bool) :
    ∃ acts, notifierOnRequest ncfg outcome m = .ok acts ∧ m.data.length % 2 = 0 ∧
      (∃ ty, Spec.lastValue "type" (Spec.pairs m.data) = some ty ∧ (ty = "error" ∨ ty = "job-status")) := by
  obtain ⟨h1, h2⟩ := List.mem_filter.1 hm
  have h2 : m.key = "status_notifier" := by simpa using h2
  rcases hr.inv.shapes m h1 with h | h | h | ⟨-, -, h⟩
  · exact absurd (h2.symm.trans h) (by decide)
  · exact absurd (h2.symm.trans h.1) (by decide)
  · exact absurd (h2.symm.trans h.1) (by decide)
  · obtain ⟨n, hn⟩ := h.collects
    refine ⟨retryLoop (httpPost ncfg n) outcome 4 1 0, by simp only [notifierOnRequest, hn], ?_, ?_⟩
    · generalize m.data = d at h
      cases h <;> simp
    · generalize m.data = d at h
      cases h
      · exact ⟨"error", rfl, .inl rfl⟩
      · exact ⟨"job-status", rfl, .inr rfl⟩
      · exact ⟨"job-status", rfl, .inr rfl⟩

/-- An odd number of frames would be undefined behaviour. -/
example : notifierOnRequest senv0.ncfg (fun _ => true) ⟨"status_notifier", "", ["type"]⟩ =
    .error .pastEnd := by decide

/-! ## C35 -/

/-- What is done for a notification when the first `n` attempts fail. -/
def failures (r : HttpPost) (n : Nat) : List NAct :=
  (List.range n).flatMap fun i => [.post r false, .sleep (2 ^ i)]

theorem retry_success {r : HttpPost} {outcome : Nat → Bool} : ∀ (i n d k : Nat), i < n →
    (∀ j < i, outcome (k + j) = false) → outcome (k + i) = true →
    retryLoop r outcome n d k =
      ((List.range i).flatMap fun j => [.post r false, .sleep (d * 2 ^ j)]) ++ [.post r true] := by
  intro i
  induction i with
  | zero =>
    intro n d k hn _ ho
    cases n with
    | zero => omega
    | succ n => simpa [retryLoop] using ho
  | succ i ih =>
    intro n d k hn hf ho
    cases n with
    | zero => omega
    | succ n =>
      have h0 := hf 0 (by omega)
      simp only [Nat.add_zero] at h0
      rw [retryLoop, h0]
      simp only [Bool.false_eq_true, if_false]
      rw [ih n (d * 2) (k + 1) (by omega)
        (fun j hj => by have := hf (j + 1) (by omega); rwa [show k + (j + 1) = k + 1 + j by omega] at this)
        (by rwa [show k + 1 + i = k + (i + 1) by omega]), List.range_succ_eq_map]
      simp only [List.flatMap_cons, List.flatMap_map, List.cons_append, List.nil_append, Nat.pow_zero,
        Nat.mul_one]
      congr 4
      funext j
      rw [Nat.pow_succ, Nat.mul_assoc, Nat.mul_comm (2 ^ j) 2]

theorem retry_failure {r : HttpPost} {outcome : Nat → Bool} : ∀ (n d k : Nat),
    (∀ j < n, outcome (k + j) = false) → retryLoop r outcome n d k =
      (List.range n).flatMap fun j => [.post r false, .sleep (d * 2 ^ j)] := by
  intro n
  induction n with
  | zero => intro d k _; rfl
  | succ n ih =>
    intro d k hf
    have h0 := hf 0 (by omega)
    simp only [Nat.add_zero] at h0
    rw [retryLoop, h0]
    simp only [Bool.false_eq_true, if_false]
    rw [ih (d * 2) (k + 1)
      (fun j hj => by have := hf (j + 1) (by omega); rwa [show k + (j + 1) = k + 1 + j by omega] at this),
      List.range_succ_eq_map]
    simp only [List.flatMap_cons, List.flatMap_map, List.cons_append, List.nil_append, Nat.pow_zero,
      Nat.mul_one]
    congr 3
    funext j
    rw [Nat.pow_succ, Nat.mul_assoc, Nat.mul_comm (2 ^ j) 2]

/-- **C35.** For a notification the notifier makes one and the same request again and again: until the
    first success, at most four times, with waits of 1, 2, 4 and 8 seconds after failed attempts;
    attempt `i` has the outcome the outside world gives it. -/
theorem C35_policy (cfg : NotifierConfig) (outcome : Nat → Bool) (m : Msg) (acts : List NAct)
    (h : notifierOnRequest cfg outcome m = .ok acts) :
    ∃ r : HttpPost,
      (∀ i < 4, (∀ j < i, outcome j = false) → outcome i = true →
        acts = failures r i ++ [.post r true]) ∧
      ((∀ j < 4, outcome j = false) → acts = failures r 4) := by
  unfold notifierOnRequest at h
  cases hn : parseNotification m.data with
  | error u => rw [hn] at h; cases h
  | ok n =>
    rw [hn] at h
    cases h
    refine ⟨httpPost cfg n, ?_, ?_⟩
    · intro i hi hf ho
      rw [retry_success i 4 1 0 hi (by simpa using hf) (by simpa using ho)]
      simp [failures]
    · intro hf
      rw [retry_failure 4 1 0 (by simpa using hf)]
      simp [failures]

/-- **C35, counting.** At most four requests; the waits are the beginning of 1, 2, 4, 8, one after each
    failed attempt; the notification is delivered iff one of the first four attempts would succeed. -/
theorem C35_counts (cfg : NotifierConfig) (outcome : Nat → Bool) (m : Msg) (acts : List NAct)
    (h : notifierOnRequest cfg outcome m = .ok acts) :
    (Spec.posts acts).length ≤ 4 ∧
    (∃ i, Spec.waits acts = [1, 2, 4, 8].take i ∧ i = ((Spec.posts acts).filter (fun p => !p.2)).length) ∧
    ((∃ p ∈ Spec.posts acts, p.2 = true) ↔ ∃ i < 4, outcome i = true) := by
  obtain ⟨r, h1, h2⟩ := C35_policy cfg outcome m acts h
  by_cases hex : ∃ i < 4, outcome i = true
  · obtain ⟨i, hi, ho⟩ := hex
    have hmin : ∃ i < 4, (∀ j < i, outcome j = false) ∧ outcome i = true := by
      by_cases a0 : outcome 0 = true
      · exact ⟨0, by omega, by omega, a0⟩
      by_cases a1 : outcome 1 = true
      · refine ⟨1, by omega, ?_, a1⟩
        intro j hj
        have : j = 0 := by omega
        subst this; simpa using a0
      by_cases a2 : outcome 2 = true
      · refine ⟨2, by omega, ?_, a2⟩
        intro j hj
        have : j = 0 ∨ j = 1 := by omega
        rcases this with rfl | rfl
        · simpa using a0
        · simpa using a1
      have a3 : outcome 3 = true := by
        have : i = 0 ∨ i = 1 ∨ i = 2 ∨ i = 3 := by omega
        rcases this with rfl | rfl | rfl | rfl
        · exact absurd ho a0
        · exact absurd ho a1
        · exact absurd ho a2
        · exact ho
      refine ⟨3, by omega, ?_, a3⟩
      intro j hj
      have : j = 0 ∨ j = 1 ∨ j = 2 := by omega
      rcases this with rfl | rfl | rfl
      · simpa using a0
      · simpa using a1
      · simpa using a2
    obtain ⟨i', hi', hf', ho'⟩ := hmin
    have hacts := h1 i' hi' hf' ho'
    subst hacts
    have : i' = 0 ∨ i' = 1 ∨ i' = 2 ∨ i' = 3 := by omega
    have hr : (∃ i < 4, outcome i = true) := ⟨i, hi, ho⟩
    rcases this with rfl | rfl | rfl | rfl
    · exact ⟨by simp [failures, Spec.posts], ⟨0, by simp [failures, Spec.waits], by simp [failures, Spec.posts]⟩,
        by simp only [hr, iff_true]; exact ⟨(r, true), by simp [failures, Spec.posts], rfl⟩⟩
    · exact ⟨by simp [failures, Spec.posts, List.range, List.range.loop],
        ⟨1, by simp [failures, Spec.waits, List.range, List.range.loop],
          by simp [failures, Spec.posts, List.range, List.range.loop]⟩,
        by simp only [hr, iff_true]; exact ⟨(r, true), by simp [failures, Spec.posts], rfl⟩⟩
    · exact ⟨by simp [failures, Spec.posts, List.range, List.range.loop],
        ⟨2, by simp [failures, Spec.waits, List.range, List.range.loop],
          by simp [failures, Spec.posts, List.range, List.range.loop]⟩,
        by simp only [hr, iff_true]; exact ⟨(r, true), by simp [failures, Spec.posts], rfl⟩⟩
    · exact ⟨by simp [failures, Spec.posts, List.range, List.range.loop],
        ⟨3, by simp [failures, Spec.waits, List.range, List.range.loop],
          by simp [failures, Spec.posts, List.range, List.range.loop]⟩,
        by simp only [hr, iff_true]; exact ⟨(r, true), by simp [failures, Spec.posts], rfl⟩⟩
  · have hf : ∀ j < 4, outcome j = false := by
      intro j hj
      cases ho : outcome j with
      | false => rfl
      | true => exact absurd ⟨j, hj, ho⟩ hex
    have hacts := h2 hf
    subst hacts
    exact ⟨by simp [failures, Spec.posts, List.range, List.range.loop],
      ⟨4, by simp [failures, Spec.waits, List.range, List.range.loop],
        by simp [failures, Spec.posts, List.range, List.range.loop]⟩,
      by simp only [hex, iff_false]
         simp [failures, Spec.posts, List.range, List.range.loop]⟩

/-- **C35, a notification that cannot be delivered does not stop the notifier.** Whatever happens with a
    notification, the thread goes on with the rest. -/
theorem C35_continues {cfg : HConfig} {env : Env} {e : SysEnv} {evs : List SysEv} {s : Sys Q}
    (hr : SRun cfg env e evs s) (ht : s.thread = .running) {fs : List String}
    {rest : List (List String)} (hp : s.pipe = fs :: rest) (outcome : Nat → Bool) :
    ∃ s' m acts, s.next cfg env e (.take outcome) = some s' ∧ s'.thread = .running ∧
      s'.pipe = rest ∧ fs = m.key :: m.identity :: m.data ∧
      notifierOnRequest e.ncfg outcome m = .ok acts ∧ s'.notified = s.notified ++ [(m, acts)] := by
  obtain ⟨ms, hms, hall⟩ := hr.inv.pipe
  rw [hp] at hms
  cases ms with
  | nil => cases hms
  | cons m t =>
    simp only [List.map_cons, List.cons.injEq] at hms
    obtain ⟨h1, h2⟩ := hms
    obtain ⟨hk, hn⟩ := hall m (by simp)
    obtain ⟨n, hn⟩ := hn.collects
    have htt := threadTurn_frames (m := m) (by rw [hk]; decide) []
    rw [List.append_nil, ← h1] at htt
    have hno : notifierOnRequest e.ncfg outcome m =
        .ok (retryLoop (httpPost e.ncfg n) outcome 4 1 0) := by
      simp only [notifierOnRequest, hn]
    refine ⟨{ s with pipe := rest, notified := s.notified ++ [(m, _)] }, m, _, ?_, ht, rfl, h1, hno, rfl⟩
    simp only [Sys.next, Sys.take, ht, hp, htt, hno]

/-- A notification that fails three times and then succeeds, and one that never does. -/
example : (notifierOnRequest senv0.ncfg (fun i => decide (3 ≤ i)) ⟨"status_notifier", "",
      ["type", "error", "message", "x"]⟩) =
    .ok [.post ⟨"http://localhost/error", 8080, "message=x", none⟩ false, .sleep 1,
      .post ⟨"http://localhost/error", 8080, "message=x", none⟩ false, .sleep 2,
      .post ⟨"http://localhost/error", 8080, "message=x", none⟩ false, .sleep 4,
      .post ⟨"http://localhost/error", 8080, "message=x", none⟩ true] := by decide +kernel

end Broker
