import Verif.Props.Notifier
import Verif.Spec.Credentials

/-!
# Credentials of the notifier (C77)
-/

namespace Broker

/-- Every post made for a notification is the same request. -/
theorem posts_same {cfg : NotifierConfig} {outcome : Nat → Bool} {m : Msg} {acts : List NAct}
    (h : notifierOnRequest cfg outcome m = .ok acts) :
    ∃ n, ∀ r ∈ (Spec.posts acts).map (·.1), r = httpPost cfg n := by
  unfold notifierOnRequest at h
  cases hp : parseNotification m.data with
  | error u => rw [hp] at h; cases h
  | ok n =>
    rw [hp] at h
    cases h
    refine ⟨n, ?_⟩
    have hall : ∀ (R : HttpPost) (n d i : Nat),
        ∀ x ∈ (Spec.posts (retryLoop R outcome n d i)).map (·.1), x = R := by
      intro R n
      induction n with
      | zero => intro d i x hx; simp [retryLoop, Spec.posts] at hx
      | succ n ih =>
        intro d i x hx
        rw [retryLoop] at hx
        split at hx
        · simpa [Spec.posts] using hx
        · simp only [Spec.posts, List.filterMap_cons, List.map_cons, List.mem_cons] at hx
          rcases hx with rfl | hx
          · rfl
          · exact ih _ _ x hx
    intro r hr
    exact hall _ _ _ _ r hr

/-- **C77.** Without user name and password in the configuration no request carries credentials;
    otherwise every request does. -/
theorem C77_present (cfg : NotifierConfig) (outcome : Nat → Bool) (m : Msg) (acts : List NAct)
    (h : notifierOnRequest cfg outcome m = .ok acts) :
    ∀ r ∈ (Spec.posts acts).map (·.1),
      r.auth = none ↔ cfg.username = "" ∧ cfg.password = "" := by
  obtain ⟨n, hn⟩ := posts_same h
  intro r hr
  rw [hn r hr]
  have e : ∀ s : String, s.length = 0 ↔ s = "" := fun s => by
    rw [← String.length_toList]; simp
  simp only [httpPost]
  split
  · rename_i hc
    constructor
    · intro h; cases h
    · rintro ⟨h1, h2⟩
      rw [h1, h2] at hc
      rcases hc with hc | hc <;> exact absurd rfl hc
  · rename_i hc
    simp only [not_or, Decidable.not_not, ne_eq] at hc
    exact ⟨fun _ => ⟨(e _).1 hc.1, (e _).1 hc.2⟩, fun _ => rfl⟩

/-- **C77 (partial).** The credentials of a request are the configured ones, if the user name contains
    no colon and neither contains a NUL. -/
theorem C77_credentials_partial (cfg : NotifierConfig) (outcome : Nat → Bool) (m : Msg)
    (acts : List NAct) (h : notifierOnRequest cfg outcome m = .ok acts)
    (hc : ':' ∉ cfg.username.toList) (hu : '\x00' ∉ cfg.username.toList)
    (hp : '\x00' ∉ cfg.password.toList) :
    ∀ r ∈ (Spec.posts acts).map (·.1), ∀ a, r.auth = some a →
      Spec.login a = (cfg.username, cfg.password) := by
  obtain ⟨n, hn⟩ := posts_same h
  intro r hr a ha
  rw [hn r hr] at ha
  simp only [httpPost] at ha
  split at ha
  · cases ha
    rw [cString_plain (by
      simp only [String.toList_append, List.mem_append, not_or]
      exact ⟨⟨hu, by decide⟩, hp⟩)]
    have h1 : ∀ l t : List Char, ':' ∉ l → (l ++ ':' :: t).takeWhile (· ≠ ':') = l ∧
        ((l ++ ':' :: t).dropWhile (· ≠ ':')).drop 1 = t := by
      intro l t hl
      induction l with
      | nil => simp
      | cons c l ih =>
        have hne : c ≠ ':' := fun e => hl (by simp [e])
        have := ih (fun e => hl (by simp [e]))
        simpa [hne] using this
    have h2 : (cfg.username ++ ":" ++ cfg.password).toList =
        cfg.username.toList ++ ':' :: cfg.password.toList := by
      simp [String.toList_append]
    obtain ⟨e1, e2⟩ := h1 _ cfg.password.toList hc
    simp only [Spec.login]
    rw [h2, e1, e2]
    simp
  · cases ha

/-- A configuration with credentials. -/
def ncfgAuth : NotifierConfig := ⟨"http://f/v1", 80, "broker", "a:b"⟩

/-- A request with credentials; the password contains a colon. -/
example : ∃ acts, notifierOnRequest ncfgAuth (fun _ => true)
      ⟨"status_notifier", "", ["type", "error", "message", "x"]⟩ = .ok acts ∧
    (∃ r ∈ (Spec.posts acts).map (·.1), ∃ a, r.auth = some a) ∧ ':' ∉ ncfgAuth.username.toList :=
  ⟨[.post ⟨"http://f/v1/error", 80, "message=x", some "broker:a:b"⟩ true], by decide +kernel,
    ⟨_, by simp [Spec.posts]; rfl, _, rfl⟩, by decide⟩

/-- **C77 is false in general:** the code does not escape a colon in the user name. -/
theorem C77_refuted : ∃ (cfg : NotifierConfig) (m : Msg) (acts : List NAct),
    notifierOnRequest cfg (fun _ => true) m = .ok acts ∧
    ∃ r ∈ (Spec.posts acts).map (·.1), ∃ a, r.auth = some a ∧
      Spec.login a ≠ (cfg.username, cfg.password) :=
  ⟨⟨"http://f/v1", 80, "a:b", "c"⟩, ⟨"status_notifier", "", ["type", "error", "message", "x"]⟩,
    [.post ⟨"http://f/v1/error", 80, "message=x", some "a:b:c"⟩ true], by decide +kernel,
    ⟨"http://f/v1/error", 80, "message=x", some "a:b:c"⟩, by simp [Spec.posts], "a:b:c", rfl,
    by decide +kernel⟩

end Broker
