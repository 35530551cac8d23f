import Verif.Proof.LogRun
import Verif.Proof.Numbers
import Verif.Proof.Matching

/-!
# The characters in log entries
-/

namespace Broker

/-- All characters of a text satisfy a predicate. -/
def AllC (p : Char → Prop) (s : String) : Prop := ∀ c ∈ s.toList, p c

/-- Printable characters of ASCII. -/
def Printable (c : Char) : Prop := 32 ≤ c.toNat ∧ c.toNat ≤ 126

instance : DecidablePred Printable := fun c => inferInstanceAs (Decidable (_ ∧ _))

variable {p : Char → Prop}

theorem AllC.append {a b : String} (ha : AllC p a) (hb : AllC p b) : AllC p (a ++ b) := by
  intro c hc
  rw [String.toList_append, List.mem_append] at hc
  rcases hc with hc | hc
  · exact ha c hc
  · exact hb c hc

theorem AllC.of_lit (hp : ∀ c, Printable c → p c) {s : String} (h : ∀ c ∈ s.toList, Printable c) :
    AllC p s := fun c hc => hp c (h c hc)

theorem AllC.split {f : String} (h : AllC p f) :
    AllC p (splitHeader f).1 ∧ AllC p (splitHeader f).2 := by
  unfold splitHeader
  dsimp only
  split
  · refine ⟨fun c hc => h c ?_, fun c hc => h c ?_⟩
    · rw [String.toList_ofList] at hc; exact List.mem_of_mem_take hc
    · rw [String.toList_ofList] at hc; exact List.mem_of_mem_drop hc
  · exact ⟨h, h⟩

theorem AllC.nat (hp : ∀ c, Printable c → p c) (n : Nat) : AllC p (natStr n) := by
  intro c hc
  rw [natStr_toList] at hc
  have := Nat.isDigit_of_mem_toDigits (by decide) (by decide) hc
  simp only [Char.isDigit, Bool.and_eq_true, decide_eq_true_eq] at this
  refine hp c ?_
  have h1 := UInt32.le_iff_toNat_le.1 this.1
  have h2 := UInt32.le_iff_toNat_le.1 this.2
  change 48 ≤ c.toNat at h1
  change c.toNat ≤ 57 at h2
  exact ⟨by omega, by omega⟩

theorem printable_digitChar (n : Nat) : Printable (Nat.digitChar n) := by
  by_cases h : n < 16
  · have : ∀ n < 16, Printable (Nat.digitChar n) := by decide
    exact this n h
  · rw [Nat.digitChar_eq_star.2 (by omega)]
    decide

theorem AllC.hex (hp : ∀ c, Printable c → p c) (s : String) : AllC p (stringToHex s) := by
  intro c hc
  unfold stringToHex at hc
  rw [String.toList_ofList, List.mem_flatMap] at hc
  obtain ⟨x, _, hc⟩ := hc
  refine hp c ?_
  simp only [hexByte] at hc
  split at hc
  · simp only [List.mem_cons, List.not_mem_nil, or_false] at hc
    rcases hc with rfl | rfl <;> exact printable_digitChar _
  · simp only [List.mem_cons, List.not_mem_nil, or_false] at hc
    rcases hc with rfl | rfl | rfl | rfl | rfl | rfl | rfl | rfl <;>
      first | exact printable_digitChar _ | decide

theorem AllC.desc (hp : ∀ c, Printable c → p c) {w : Worker} (h : AllC p w.description) :
    AllC p w.getDescription := by
  unfold Worker.getDescription
  split
  · exact AllC.hex hp _
  · exact (((AllC.hex hp _).append (.of_lit hp (by decide))).append h).append (.of_lit hp (by decide))

theorem allC_frames (hp : ∀ c, Printable c → p c) : ∀ {fs : List String}, (∀ f ∈ fs, AllC p f) →
    AllC p (framesText fs)
  | [], _ => fun c hc => (by cases hc)
  | f :: t, h => ((h f (List.mem_cons_self ..)).append (.of_lit hp (by decide))).append
    (allC_frames hp fun x hx => h x (List.mem_cons_of_mem _ hx))

theorem allC_evalHeaders : ∀ {fs : List String} {hs : Headers} {md : Metadata} {hd : Headers}
    {md' : Metadata} {ad : List String}, evalHeaders fs hs md = .ok (some (hd, md', ad)) →
    (∀ f ∈ fs, AllC p f) → (∀ x ∈ hs, AllC p x.1 ∧ AllC p x.2) → ∀ x ∈ hd, AllC p x.1 ∧ AllC p x.2
  | [], _, _, _, _, _, h, _, _ => by cases h
  | f :: rest, hs, md, hd, md', ad, h, hf, hh => by
    unfold evalHeaders at h
    split at h
    · cases h
      exact hh
    · cases rest with
      | nil => cases h
      | cons g t =>
        have hf' : ∀ x ∈ g :: t, AllC p x := fun x hx => hf x (List.mem_cons_of_mem _ hx)
        dsimp only at h
        split at h
        · exact allC_evalHeaders h hf' hh
        · refine allC_evalHeaders h hf' fun x hx => ?_
          rcases mem_mmEmplace.1 hx with rfl | hx
          · exact (hf f (List.mem_cons_self ..)).split
          · exact hh x hx

theorem initHeaders_sub : ∀ {fs : List String} {hs : Headers} {f : String},
    f ∈ (initHeaders fs hs).2 → f ∈ fs
  | [], _, _, h => by cases h
  | g :: t, hs, f, h => by
    unfold initHeaders at h
    split at h
    · exact h
    · exact List.mem_cons_of_mem _ (initHeaders_sub h)

theorem allC_initExtra : ∀ {fs : List String} {d : String} {j : Option String},
    (∀ f ∈ fs, AllC p f) → AllC p d → (∀ x, j = some x → AllC p x) →
    AllC p (initExtra fs d j).1 ∧ ∀ x, (initExtra fs d j).2 = some x → AllC p x
  | [], _, _, _, hd, hj => ⟨hd, hj⟩
  | f :: t, d, j, hf, hd, hj => by
    have hs := (hf f (List.mem_cons_self ..)).split
    have ht : ∀ x ∈ t, AllC p x := fun x hx => hf x (List.mem_cons_of_mem _ hx)
    unfold initExtra
    dsimp only
    split
    · exact allC_initExtra ht hs.2 hj
    split
    · exact allC_initExtra ht hd fun x hx => by cases hx; exact hs.2
    · exact allC_initExtra ht hd hj

theorem create_description {addr : Nat} {i g d : String} {hd : Headers} {w : Worker}
    (h : Worker.create addr i g hd d = .ok w) : w.description = d := by
  unfold Worker.create at h
  cases hm : addMatchers hd (mmEmplace "hwgroup" (.multi g) []) with
  | error e => rw [hm] at h; cases h
  | ok ms => rw [hm] at h; cases h; rfl

/-- Messages whose frames have only such characters. -/
theorem okMsg_chars (hp : ∀ c, Printable c → p c) {m : Msg} (h : ∀ f ∈ m.data, AllC p f) :
    OkMsg (AllC p) m where
  frames := h
  headers := fun hd md ad he => allC_evalHeaders he
    (fun f hf => h f (List.mem_of_mem_drop hf)) (fun x hx => (by cases hx))
  new := by
    intro c g rest hd
    have hr : ∀ f ∈ g :: rest, AllC p f := fun f hf => h f (hd ▸ List.mem_cons_of_mem _ hf)
    have hx := allC_initExtra (p := p) (fs := (initHeaders rest []).2) (d := "") (j := none)
      (fun f hf => hr f (List.mem_cons_of_mem _ (initHeaders_sub hf)))
      (fun c hc => (by cases hc)) (fun x hx => (by cases hx))
    refine ⟨fun addr w hw => AllC.desc hp ?_, hx.2, allC_frames hp hr⟩
    rw [create_description hw]
    exact hx.1

/-- The text of an entry made of such texts. -/
theorem allC_text (hp : ∀ c, Printable c → p c) {e : LogEntry} (h : ∀ a ∈ e.args, AllC p a) :
    AllC p e.text := by
  have l : ∀ {s : String}, (∀ c ∈ s.toList, Printable c) → AllC p s := AllC.of_lit hp
  cases e with
  | rejectedFrozen a => exact ((l (by decide)).append (h a (by simp [LogEntry.args]))).append (l (by decide))
  | incoming a => exact (l (by decide)).append (h a (by simp [LogEntry.args]))
  | rejectedHeaders a => exact ((l (by decide)).append (h a (by simp [LogEntry.args]))).append (l (by decide))
  | rejectedHeader a b =>
    exact (((l (by decide)).append (h a (by simp [LogEntry.args]))).append (l (by decide))).append
      (h b (by simp [LogEntry.args]))
  | added a b =>
    exact (((l (by decide)).append (h a (by simp [LogEntry.args]))).append (l (by decide))).append
      (h b (by simp [LogEntry.args]))
  | doneShort a => exact (l (by decide)).append (h a (by simp [LogEntry.args]))
  | doneMismatch a b c =>
    exact ((((((l (by decide)).append (h a (by simp [LogEntry.args]))).append (l (by decide))).append
      (h b (by simp [LogEntry.args]))).append (l (by decide))).append
      (h c (by simp [LogEntry.args]))).append (l (by decide))
  | internalArgs a => exact (l (by decide)).append (h a (by simp [LogEntry.args]))
  | failedArgs a => exact (l (by decide)).append (h a (by simp [LogEntry.args]))
  | unexpectedStatus a b =>
    exact (((l (by decide)).append (h a (by simp [LogEntry.args]))).append (l (by decide))).append
      (h b (by simp [LogEntry.args]))
  | free a => exact ((l (by decide)).append (h a (by simp [LogEntry.args]))).append (l (by decide))
  | expired a => exact ((l (by decide)).append (h a (by simp [LogEntry.args]))).append (l (by decide))
  | reassigning a n =>
    exact ((((l (by decide)).append (h a (by simp [LogEntry.args]))).append (l (by decide))).append
      (AllC.nat hp n)).append (l (by decide))
  | notEnqueued a => exact (l (by decide)).append (h a (by simp [LogEntry.args]))
  | waiting a => exact ((l (by decide)).append (h a (by simp [LogEntry.args]))).append (l (by decide))
  | sent a b =>
    exact (((l (by decide)).append (h a (by simp [LogEntry.args]))).append (l (by decide))).append
      (h b (by simp [LogEntry.args]))
  | _ => exact l (by decide)

variable {Q : Type} [QueueManager Q] [LawfulQM Q] [Carries Q] [Refers Q]

/-- Whatever is written in a history whose messages have only such characters. -/
theorem LRun.args {lv : Level} {cfg : HConfig} {env : Env} {h : List (Tr Q)} {log : List LogEntry}
    {s : HState Q} (hr : LRun lv cfg env h log s) (hp : ∀ c, Printable c → p c)
    (hf : ∀ t ∈ h, ∀ f ∈ t.msg.data, AllC p f) :
    (∀ e ∈ log, ∀ a ∈ e.args, AllC p a) ∧ HS (AllC p) s := by
  induction hr with
  | nil => exact ⟨fun _ h => (by cases h), HS.init _⟩
  | @snoc h log es s s' m hr hst ih =>
    obtain ⟨i1, i2⟩ := ih fun t ht => hf t (List.mem_append_left _ ht)
    obtain ⟨full, rfl, _, ht, hs⟩ := hr.step_trail hst i2 trail_args
      (okMsg_chars hp (hf ⟨s, m, s'⟩ (by simp))) (fun _ _ _ _ => trivial) (fun _ _ => trivial)
      (fun _ _ => trivial) (fun _ => trivial)
    refine ⟨fun e he => ?_, hs⟩
    rcases List.mem_append.1 he with he | he
    · exact i1 e he
    · exact ht e (List.mem_of_mem_filter he)

/-! ## Lines -/

theorem lines_ne {l t : List Char} (h : '\n' ∉ l) : Spec.lines (l ++ '\n' :: t) = l :: Spec.lines t := by
  induction l with
  | nil => simp [Spec.lines]
  | cons c l ih =>
    have hc : c ≠ '\n' := fun hc => h (by simp [hc])
    have hl : '\n' ∉ l := fun hl => h (by simp [hl])
    simp only [List.cons_append, Spec.lines, if_neg hc, ih hl]

theorem lines_logFile : ∀ {l : List (String × LogEntry)},
    (∀ x ∈ l, '\n' ∉ x.1.toList ∧ '\n' ∉ x.2.text.toList) →
    Spec.lines (Spec.logFile l) = l.map fun x => x.1.toList ++ x.2.text.toList
  | [], _ => rfl
  | (q, e) :: t, h => by
    have h1 := h _ (List.mem_cons_self ..)
    have ih := lines_logFile fun x hx => h x (List.mem_cons_of_mem _ hx)
    simp only [Spec.logFile, List.map_cons]
    rw [lines_ne, ih]
    rw [List.mem_append]
    exact fun hh => hh.elim h1.1 h1.2

end Broker
