import Verif.Proof.Sent
import Verif.Proof.Liveness

/-! # The texts of failure notifications -/

set_option linter.unusedSectionVars false
set_option linter.unusedSimpArgs false

namespace Broker

open QueueManager LawfulQM

variable {Q : Type} [QueueManager Q] [LawfulQM Q]

/-- Failure counts after some events of a timer message. -/
def fcAfter (fc : Nat → Nat) (es : List Ev) : Nat → Nat := es.foldl (fun fc e => bumpOpt fc e.counts) fc

theorem fcAfter_append (fc : Nat → Nat) (a b : List Ev) : fcAfter fc (a ++ b) = fcAfter (fcAfter fc a) b := by
  simp [fcAfter, List.foldl_append]

theorem fcAfter_none {fc : Nat → Nat} {es : List Ev} (h : ∀ e ∈ es, e.counts = none) : fcAfter fc es = fc := by
  induction es generalizing fc with
  | nil => rfl
  | cons e t ih =>
    show fcAfter (bumpOpt fc e.counts) t = fc
    rw [h e (by simp)]
    exact ih (fun e he => h e (by simp [he]))

theorem LSteps.fc_after {M : Nat} {L L' : LS} {es : List Ev} (h : LSteps M L es L')
    (ht : ∀ e ∈ es, TimerEv e) : L'.fc = fcAfter L.fc es := by
  induction h with
  | nil => rfl
  | cons h _ ih =>
    rw [ih (fun e he => ht e (List.mem_cons_of_mem _ he))]
    have := ht _ List.mem_cons_self
    show _ = fcAfter (bumpOpt _ _) _
    congr 1
    cases h with
    | expire => rfl
    | say => rfl
    | send => rfl
    | park => rfl
    | giveUp => rfl
    | _ => exact this.elim

/-- The reasons for giving up while the requests of an expired worker are settled. -/
def SettleText (M : Nat) (fc : Nat → Nat) (r : Req) (text : String) : Prop :=
  (r.complete = false ∧ text = timeoutMsg) ∨
  (r.complete = true ∧ M ≤ fc r.rid ∧ text = tooManyMsg (fc r.rid) timeoutMsg)

theorem SettleScript.text {M : Nat} {fc : Nat → Nat} {reg : Multiset Worker} {rs un : List Req}
    {evs : List Ev} (h : SettleScript M fc reg rs evs un) {r : Req} {text : String}
    (hg : .giveUp r text ∈ evs) : SettleText M fc r text := by
  induction h with
  | nil => simp at hg
  | adopted hc h ih =>
    simp only [List.mem_cons, Ev.giveUp.injEq, reduceCtorEq, false_or] at hg
    rcases hg with ⟨rfl, rfl⟩ | hg
    · exact .inl ⟨hc, rfl⟩
    · exact ih hg
  | exhausted hc hfc h ih =>
    simp only [List.mem_cons, Ev.giveUp.injEq, reduceCtorEq, false_or] at hg
    rcases hg with ⟨rfl, rfl⟩ | hg
    · exact .inr ⟨hc, hfc, rfl⟩
    · exact ih hg
  | _ =>
    rename_i ih
    simp only [List.mem_cons, reduceCtorEq, false_or] at hg
    exact ih hg

theorem SettleScript.counts {M : Nat} {fc : Nat → Nat} {reg : Multiset Worker} {rs un : List Req}
    {evs : List Ev} (h : SettleScript M fc reg rs evs un) : ∀ e ∈ evs, e.counts = none := by
  induction h with
  | nil => simp
  | _ => simp_all [Ev.counts]

theorem ExpireAll.text {M : Nat} {fc : Nat → Nat} {xs : List Worker} {evs : List Ev}
    (h : ExpireAll M fc xs evs) {a b : List Ev} {r : Req} {text : String}
    (he : evs = a ++ .giveUp r text :: b) :
    SettleText M (fcAfter fc a) r text ∨ ∃ w ∈ xs, text = diededMsg w := by
  induction h generalizing a with
  | nil => simp at he
  | @cons w ws fc fc' g c d h _ ih =>
    have hc : fcAfter fc c = fc' := by
      cases h with
      | mk h hfc =>
        rw [hfc]
        show fcAfter (bumpOpt fc _) _ = _
        refine fcAfter_none ?_
        intro e he
        rcases List.mem_append.1 he with he | he
        · exact h.counts e he
        · obtain ⟨r, _, rfl⟩ := List.mem_map.1 he; rfl
    rcases List.append_eq_append_iff.1 he with ⟨x, h1, h2⟩ | ⟨x, h1, h2⟩
    · subst h1
      rw [fcAfter_append, hc]
      rcases ih h2 with h | ⟨w, hw, h⟩
      · exact .inl h
      · exact .inr ⟨w, by simp [hw], h⟩
    · cases x with
      | nil =>
        simp only [List.append_nil] at h1
        subst h1
        rw [hc]
        rcases ih (a := []) (by simpa using h2.symm) with h | ⟨w, hw, h⟩
        · exact .inl h
        · exact .inr ⟨w, by simp [hw], h⟩
      | cons y x =>
        simp only [List.cons_append, List.cons.injEq] at h2
        obtain ⟨rfl, -⟩ := h2
        cases h with
        | @mk cur qs evs un h hfc =>
          cases a with
          | nil => simp at h1
          | cons y a =>
            simp only [List.cons_append, List.cons.injEq] at h1
            obtain ⟨rfl, h1⟩ := h1
            show SettleText M (fcAfter (bumpOpt fc cur) a) r text ∨ _
            have ha : fcAfter (bumpOpt fc cur) a = bumpOpt fc cur := by
              refine fcAfter_none ?_
              intro e he
              have : e ∈ evs ++ un.map (fun r => Ev.giveUp r (diededMsg w)) := by rw [h1]; simp [he]
              rcases List.mem_append.1 this with he | he
              · exact h.counts e he
              · obtain ⟨r, _, rfl⟩ := List.mem_map.1 he; rfl
            rw [ha]
            have : Ev.giveUp r text ∈ evs ++ un.map (fun r => Ev.giveUp r (diededMsg w)) := by
              rw [h1]; simp
            rcases List.mem_append.1 this with he | he
            · exact .inl (h.text he)
            · obtain ⟨r', _, hr'⟩ := List.mem_map.1 he
              cases hr'
              exact .inr ⟨w, by simp, rfl⟩

/-- The text of a notification about a request that is given up; `L1` is the state of the machine at
    that point. -/
theorem StepInfo.giveUp_text {cfg : HConfig} {env : Env} {m : Msg} {s s' : HState Q} {evs : List Ev}
    (h : HInv s) (hi : StepInfo cfg env m s s' evs) {a b : List Ev} {r : Req} {text : String}
    (he : evs = a ++ .giveUp r text :: b) {L1 : LS} (h1 : LSteps cfg.maxFailures (ls s 0) a L1) :
    (m.key = keyWorkers ∧ ∃ last, m.data = ["done", r.jobId, "INTERNAL_ERROR", last] ∧
      ((r.complete = false ∧ text = adoptedMsg last) ∨
       (r.complete = true ∧ cfg.maxFailures ≤ L1.fc r.rid ∧ text = tooManyMsg (L1.fc r.rid) last))) ∨
    (m.key = keyTimer ∧ (SettleText cfg.maxFailures L1.fc r text ∨
      ∃ w ∈ s.workers, w ∉ s'.workers ∧ text = diededMsg w)) := by
  have hg : Ev.giveUp r text ∈ evs := by rw [he]; simp
  have hsc := hi.script
  cases hsc with
  | init hk hd h =>
    exfalso
    cases h with
    | short => simp at hg
    | same => simp at hg
    | fresh hm hw hn hf hr => cases hr <;> simp at hg
    | again hm hw hne hn hf hr => cases hr <;> simp at hg
  | done hk hd hcase =>
    refine .inl ⟨hk, ?_⟩
    cases hcase with
    | unknown => simp at hg
    | short => simp at hg
    | stale => simp at hg
    | report hw hm hb hj hf hds =>
      rename_i w r' c j st rest
      have hfce : (HState.heard cfg m.identity { s with outs := [] }).fc = s.fc := by rw [heard_frame]
      rw [hd] at hm
      simp only [List.cons.injEq] at hm
      obtain ⟨hc1, hm⟩ := hm
      subst hc1
      cases hds with
      | ok _ ht => cases ht <;> simp at hg
      | failed _ _ ht => cases ht <;> simp at hg
      | adopted hst hr' hc =>
        simp only [List.mem_cons, Ev.giveUp.injEq, reduceCtorEq, false_or, List.not_mem_nil, or_false] at hg
        obtain ⟨rfl, rfl⟩ := hg
        subst hst hr' hj
        exact ⟨_, by rw [hd, hm], .inl ⟨hc, rfl⟩⟩
      | @exhausted t' last hst hr' hc hfc ht =>
        have hg' : r = r' ∧ text = tooManyMsg (szInc ((HState.heard cfg m.identity
            { s with outs := [] }).fc r'.rid)) last := by
          simp only [List.mem_cons, Ev.giveUp.injEq, reduceCtorEq, false_or] at hg
          rcases hg with hg | hg
          · exact hg
          · cases ht <;> simp at hg
        obtain ⟨rfl, rfl⟩ := hg'
        subst hst hr' hj
        rw [hfce] at hfc ⊢
        have ha : a = [.cancel w r] := by
          cases a with
          | nil => simp at he
          | cons e a =>
            simp only [List.cons_append, List.cons.injEq] at he
            obtain ⟨rfl, he⟩ := he
            cases a with
            | nil => rfl
            | cons e a =>
              exfalso
              simp only [List.cons_append, List.cons.injEq] at he
              obtain ⟨rfl, he⟩ := he
              have : Ev.giveUp r (tooManyMsg (szInc (s.fc r.rid)) last) ∈
                  Ev.say (monMsg r.jobId "FAILED") :: t' := by rw [he, hfce]; simp
              cases ht <;> simp at this
        subst ha
        have hfc1 : L1.fc r.rid = szInc (s.fc r.rid) := by
          cases h1 with
          | cons h2 h3 =>
            cases h3
            cases h2 with
            | cancel _ _ b hb => simp [bump, upd, ls]
        rw [hfc1]
        exact ⟨_, by rw [hd, hm], .inr ⟨hc, hfc, rfl⟩⟩
      | _ => simp at hg
  | timer hk hd ht hcase =>
    refine .inr ⟨hk, ?_⟩
    have hfc := h1.fc_after (fun e hea => hcase.script.shape e (by rw [he]; simp [hea]))
    rw [hfc]
    rcases hcase.script.text he with h2 | ⟨w, hw, h2⟩
    · exact .inl h2
    · have hsub := hcase.sub
      have hws : (s.workers.map (·.addr)).Nodup := h.addr_nodup
      have hm := mem_removeAll hws (hsub.nodup (List.Nodup.of_map _ hws)) (fun x hx => hsub.subset hx) w
      refine .inr ⟨w, hsub.subset hw, ?_, h2⟩
      intro hin
      have hwk : s'.workers = _ := hcase.workers
      rw [hwk] at hin
      exact (hm.1 hin).2 hw
  | eval hk hd hf h =>
    exfalso
    cases h with
    | malformed => simp at hg
    | frozen => simp at hg
    | submit _ _ _ h => cases h <;> simp at hg
  | _ => simp at hg

end Broker
