import Verif.Spec.Run
import Verif.Proof.Matching

/-! # Header frames -/

namespace Broker

theorem findIdx_split {l : List Char} :
    (match l.findIdx? (· == '=') with
      | some i => some (l.take i, l.drop (i + 1))
      | none => none)
    = if '=' ∈ l then some (l.takeWhile (· != '='), (l.dropWhile (· != '=')).tail) else none := by
  induction l with
  | nil => simp
  | cons c t ih =>
    by_cases hc : c = '='
    · subst hc; simp [List.findIdx?_cons]
    · have hne : ('=' == c) = false := by simpa using Ne.symm hc
      simp only [List.findIdx?_cons, List.mem_cons]
      have hcf : (c == '=') = false := by simpa using hc
      have hcb : (c != '=') = true := by simpa using hc
      simp only [hcf, Bool.false_eq_true, if_false, List.takeWhile_cons, hcb, if_true,
        List.dropWhile_cons, Ne.symm hc, false_or]
      cases hf : t.findIdx? (· == '=') with
      | none =>
        rw [hf] at ih
        simp only [Option.map_none] at ih ⊢
        by_cases hm : '=' ∈ t
        · rw [if_pos hm] at ih; cases ih
        · rw [if_neg hm]
      | some i =>
        rw [hf] at ih
        by_cases hm : '=' ∈ t
        · rw [if_pos hm] at ih ⊢
          simp only [Option.some.injEq, Prod.mk.injEq] at ih
          simp only [Option.map_some, List.take_succ_cons, List.drop_succ_cons, ih]
        · rw [if_neg hm] at ih; cases ih

theorem splitHeader_eq (f : String) : splitHeader f = (Spec.frameKey f, Spec.frameValue f) := by
  have h := findIdx_split (l := f.toList)
  unfold splitHeader Spec.frameKey Spec.frameValue
  simp only
  cases hf : f.toList.findIdx? (· == '=') with
  | none =>
    rw [hf] at h
    by_cases hm : '=' ∈ f.toList
    · rw [if_pos hm] at h; cases h
    · rw [if_neg hm]
      have : f.toList.takeWhile (· != '=') = f.toList := by
        have hall : ∀ l : List Char, '=' ∉ l → l.takeWhile (· != '=') = l := by
          intro l
          induction l with
          | nil => simp
          | cons c t ih =>
            intro h
            simp only [List.mem_cons, not_or] at h
            have : (c != '=') = true := by simpa using Ne.symm h.1
            simp [this, ih h.2]
        exact hall _ hm
      simp [this]
  | some i =>
    rw [hf] at h
    by_cases hm : '=' ∈ f.toList
    · rw [if_pos hm] at h ⊢
      simp only [Option.some.injEq, Prod.mk.injEq] at h
      simp [h]
    · rw [if_neg hm] at h; cases h

/-- The frames of an `init` message from the first empty one on. -/
theorem initHeaders_snd : ∀ (l : List String) (hs : Headers),
    (initHeaders l hs).2 = l.dropWhile (· != "") := by
  intro l
  induction l with
  | nil => intro hs; rfl
  | cons f t ih =>
    intro hs
    simp only [initHeaders, List.dropWhile_cons]
    by_cases hf : f = ""
    · simp [hf]
    · simp [hf, ih]

theorem initExtra_job : ∀ (l : List String) (d : String) (j : Option String),
    (initExtra l d j).2
      = ((l.filter (fun f => Spec.frameKey f == "current_job")).getLast?.map Spec.frameValue).or j := by
  intro l
  induction l with
  | nil => intro d j; simp [initExtra]
  | cons f t ih =>
    intro d j
    simp only [initExtra, splitHeader_eq, List.filter_cons]
    by_cases hd : Spec.frameKey f = "description"
    · simp [hd, ih]
    · by_cases hj : Spec.frameKey f = "current_job"
      · simp only [hj, beq_self_eq_true, if_true, List.getLast?_cons,
          show ("current_job" = "description") = False by simp, if_false]
        rw [ih]
        cases (t.filter (fun f => Spec.frameKey f == "current_job")).getLast? <;> simp
      · simp [hd, hj, ih]

theorem initExtra_desc : ∀ (l : List String) (d : String) (j : Option String),
    (initExtra l d j).1
      = ((l.filter (fun f => Spec.frameKey f == "description")).getLast?.map Spec.frameValue).getD d := by
  intro l
  induction l with
  | nil => intro d j; simp [initExtra]
  | cons f t ih =>
    intro d j
    simp only [initExtra, splitHeader_eq, List.filter_cons]
    by_cases hd : Spec.frameKey f = "description"
    · simp only [hd, ih, if_true, beq_self_eq_true, List.getLast?_cons]
      cases (t.filter (fun f => Spec.frameKey f == "description")).getLast? <;> simp
    · by_cases hj : Spec.frameKey f = "current_job"
      · simp [hj, ih]
      · simp [hd, hj, ih]

theorem currentJob_eq (c g : String) (rest : List String) :
    Spec.currentJob (c :: g :: rest) = (initExtra (initHeaders rest []).2 "" none).2 := by
  rw [initExtra_job, initHeaders_snd]
  simp [Spec.currentJob]

end Broker
