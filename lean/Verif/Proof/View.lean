import Verif.Proof.Dispatch

/-!
# What a step does to one worker

The view of the broker on the worker with a given identity: whether it is registered, and which job
it is processing.  Every step changes the view in one of a few ways and sends the worker messages
that fit.
-/

set_option linter.unusedSectionVars false
set_option linter.unusedSimpArgs false

namespace Broker

open QueueManager LawfulQM

/-- `none`: not registered; `some none`: idle; `some (some j)`: processing `j`. -/
abbrev View := Option (Option String)

/-- The view of the life-cycle machine on the identity `i`. -/
def LView (L : LS) (i : String) : View → Prop
  | none => L.reg.filter (fun w => w.identity = i) = 0
  | some c => ∃ w, L.reg.filter (fun w => w.identity = i) = {w} ∧
    match c with
    | none => L.busy.filter (fun p => p.1.identity = i) = 0
    | some j => ∃ r, r.jobId = j ∧ L.busy.filter (fun p => p.1.identity = i) = {(w, r)}

/-- Frames sent to the worker `i` among some messages. -/
def toWorker (i : String) (ms : List Msg) : List (List String) :=
  (ms.filter (fun m => m.key == "workers" && m.identity == i)).map (·.data)

theorem toWorker_append (i : String) (a b : List Msg) :
    toWorker i (a ++ b) = toWorker i a ++ toWorker i b := by
  simp [toWorker]

/-- How an event changes the view. -/
def viewEv (i : String) : Ev → View → View
  | .register w cur, v => if w.identity = i then some (cur.map (·.jobId)) else v
  | .send w r, v => if w.identity = i then some (some r.jobId) else v
  | .pull w r, v => if w.identity = i then some (some r.jobId) else v
  | .done w _, v => if w.identity = i then some none else v
  | .failed w _ _, v => if w.identity = i then some none else v
  | .cancel w _, v => if w.identity = i then some none else v
  | .expire w _ _, v => if w.identity = i then none else v
  | _, v => v

/-- When an event may happen, given the view. -/
def viewPre (i : String) : Ev → View → Prop
  | .register w _, v => w.identity = i → v = none
  | .send w _, v => w.identity = i → v = some none
  | .pull w _, v => w.identity = i → v = some none
  | .done w r, v => w.identity = i → v = some (some r.jobId)
  | .failed w r _, v => w.identity = i → v = some (some r.jobId)
  | .cancel w r, v => w.identity = i → v = some (some r.jobId)
  | .expire w _ _, v => w.identity = i → ∃ c, v = some c
  | _, _ => True

/-- The event is not a registration of `i` and not a report by an unregistered worker. -/
def viewOk (i : String) : Ev → View → Prop
  | .register w _, v => w.identity = i → v = none
  | .done w _, v => w.identity = i → v ≠ none
  | .failed w _ _, v => w.identity = i → v ≠ none
  | .cancel w _, v => w.identity = i → v ≠ none
  | _, _ => True

theorem filter_cons_eq {α : Type} {p : α → Prop} [DecidablePred p] {a : α} {s : Multiset α} :
    (a ::ₘ s).filter p = if p a then a ::ₘ s.filter p else s.filter p := by
  split
  · rw [Multiset.filter_cons_of_pos _ (by assumption)]
  · rw [Multiset.filter_cons_of_neg _ (by assumption)]

theorem cons_eq_single {α : Type} {a x : α} {s : Multiset α} (h : a ::ₘ s = {x}) :
    a = x ∧ s = 0 := by
  have h1 : a ∈ ({x} : Multiset α) := by rw [← h]; simp
  have h2 := Multiset.mem_singleton.1 h1
  subst h2
  refine ⟨rfl, ?_⟩
  exact (Multiset.cons_inj_right a).1 h

/-- Reports of the only busy worker with the identity. -/
theorem LView.report {L : LS} {i : String} {v : View} (h : LView L i v) {w : Worker} {r : Req}
    {b : Multiset (Worker × Req)} (hb : L.busy = (w, r) ::ₘ b) (hv : w.identity = i → v ≠ none)
    (fc : Nat → Nat) (hand : Multiset Req) :
    (w.identity = i → v = some (some r.jobId)) ∧
    LView { L with busy := b, hand := hand, fc := fc } i (if w.identity = i then some none else v) := by
  by_cases hw : w.identity = i
  · cases v with
    | none => exact absurd rfl (hv hw)
    | some c =>
      obtain ⟨x, hx, hc⟩ := h
      rw [hb, filter_cons_eq, if_pos hw] at hc
      cases c with
      | none => exact absurd hc (by simp)
      | some j =>
        obtain ⟨r', hj, hc⟩ := hc
        obtain ⟨h1, h2⟩ := cons_eq_single hc
        cases h1
        rw [if_pos hw]
        exact ⟨fun _ => by rw [hj], w, hx, h2⟩
  · rw [if_neg hw]
    refine ⟨fun e => absurd e hw, ?_⟩
    cases v with
    | none => exact h
    | some c =>
      obtain ⟨x, hx, hc⟩ := h
      rw [hb, filter_cons_eq, if_neg (by exact hw)] at hc
      exact ⟨x, hx, hc⟩

/-- A worker that is given a request. -/
theorem LView.give {L : LS} {i : String} {v : View} (h : LView L i v) {w : Worker} {r : Req}
    (hw : w ∈ L.reg) (hidle : ∀ r', (w, r') ∉ L.busy) (hand que : Multiset Req) :
    (w.identity = i → v = some none) ∧
    LView { L with busy := (w, r) ::ₘ L.busy, hand := hand, que := que } i
      (if w.identity = i then some (some r.jobId) else v) := by
  by_cases hi : w.identity = i
  · have hm : w ∈ L.reg.filter (fun w => w.identity = i) := Multiset.mem_filter.2 ⟨hw, hi⟩
    cases v with
    | none => rw [show L.reg.filter _ = 0 from h] at hm; simp at hm
    | some c =>
      obtain ⟨x, hx, hc⟩ := h
      rw [hx] at hm
      have hwx := Multiset.mem_singleton.1 hm
      subst hwx
      cases c with
      | some j =>
        obtain ⟨r', hj, hc⟩ := hc
        have : (w, r') ∈ L.busy.filter (fun p => p.1.identity = i) := by rw [hc]; simp
        exact absurd (Multiset.mem_filter.1 this).1 (hidle r')
      | none =>
        rw [if_pos hi]
        refine ⟨fun _ => rfl, w, hx, r, rfl, ?_⟩
        show ((w, r) ::ₘ L.busy).filter _ = _
        rw [filter_cons_eq, if_pos (by exact hi), show L.busy.filter _ = 0 from hc]; rfl
  · rw [if_neg hi]
    refine ⟨fun e => absurd e hi, ?_⟩
    cases v with
    | none => exact h
    | some c =>
      obtain ⟨x, hx, hc⟩ := h
      refine ⟨x, hx, ?_⟩
      have e : ((w, r) ::ₘ L.busy).filter (fun p => p.1.identity = i) =
          L.busy.filter (fun p => p.1.identity = i) := by
        rw [filter_cons_eq, if_neg (by exact hi)]
      cases c with
      | none => exact e.trans hc
      | some j =>
        obtain ⟨r', hj, hc⟩ := hc
        exact ⟨r', hj, e.trans hc⟩

theorem LStep.view {M : Nat} {L L' : LS} {e : Ev} (h : LStep M L e L') {i : String} {v : View}
    (hv : LView L i v) (hok : viewOk i e v)
    (hbr : ∀ w cur, e = .register w cur → w.identity = i → ∀ p ∈ L.busy, p.1 ∈ L.reg) :
    viewPre i e v ∧ LView L' i (viewEv i e v) := by
  cases h with
  | say m => exact ⟨trivial, hv⟩
  | drop => exact ⟨trivial, hv⟩
  | accept r hid hc hcan => exact ⟨trivial, hv⟩
  | register w cur hw hf hcur =>
    refine ⟨hok, ?_⟩
    by_cases hi : w.identity = i
    · have := hok hi
      subst this
      have hb : L.busy.filter (fun p => p.1.identity = i) = 0 := by
        rw [Multiset.filter_eq_nil]
        intro p hp hpi
        have : p.1 ∈ L.reg.filter (fun w => w.identity = i) :=
          Multiset.mem_filter.2 ⟨hbr w cur rfl hi p hp, hpi⟩
        rw [show L.reg.filter _ = 0 from hv] at this
        simp at this
      show LView _ i (if w.identity = i then _ else _)
      rw [if_pos hi]
      refine ⟨w, ?_, ?_⟩
      · show (w ::ₘ L.reg).filter _ = _
        rw [filter_cons_eq, if_pos hi, show L.reg.filter _ = 0 from hv]; rfl
      · cases cur with
        | none => simpa using hb
        | some r =>
          refine ⟨r, rfl, ?_⟩
          show (({(w, r)} : Multiset _) + L.busy).filter _ = _
          rw [Multiset.filter_add, hb]
          simp [Multiset.filter_singleton, hi]
    · show LView _ i (if w.identity = i then _ else _)
      rw [if_neg hi]
      cases v with
      | none =>
        show (w ::ₘ L.reg).filter _ = 0
        rw [filter_cons_eq, if_neg hi]; exact hv
      | some c =>
        obtain ⟨x, hx, hc⟩ := hv
        refine ⟨x, ?_, ?_⟩
        · show (w ::ₘ L.reg).filter _ = _
          rw [filter_cons_eq, if_neg hi]; exact hx
        · have : (((cur.map (fun r => (w, r))).toList : Multiset (Worker × Req)) + L.busy).filter
              (fun p => p.1.identity = i) = L.busy.filter (fun p => p.1.identity = i) := by
            rw [Multiset.filter_add]
            cases cur with
            | none => simp
            | some r => simp [Multiset.filter_singleton, hi]
          cases c with
          | none => exact this.trans hc
          | some j =>
            obtain ⟨r', hj, hc⟩ := hc
            exact ⟨r', hj, this.trans hc⟩
  | send w r hnd hh hw hidle hcan hcomp hfc => exact hv.give hw hidle hnd L.que
  | park r hnd hh hcan hcomp hfc => exact ⟨trivial, hv⟩
  | pull w r q hq hw hidle hcan => exact hv.give hw hidle L.hand q
  | resend w r hb hc hf => exact ⟨trivial, hv⟩
  | done w r b hb => exact hv.report hb hok L.fc L.hand
  | failed w r text b hb => exact hv.report hb hok _ L.hand
  | cancel w r b hb => exact hv.report hb hok _ _
  | expire w cur qs g b q hg hb hq =>
    by_cases hi : w.identity = i
    · cases v with
      | none =>
        have : w ∈ L.reg.filter (fun w => w.identity = i) :=
          Multiset.mem_filter.2 ⟨by rw [hg]; simp, hi⟩
        rw [show L.reg.filter _ = 0 from hv] at this
        simp at this
      | some c =>
        obtain ⟨x, hx, hc⟩ := hv
        refine ⟨fun _ => ⟨c, rfl⟩, ?_⟩
        show LView _ i (if w.identity = i then _ else _)
        rw [if_pos hi]
        rw [hg, filter_cons_eq, if_pos hi] at hx
        exact (cons_eq_single hx).2
    · refine ⟨fun e => absurd e hi, ?_⟩
      show LView _ i (if w.identity = i then _ else _)
      rw [if_neg hi]
      have e1 : L.reg.filter (fun w => w.identity = i) = g.filter (fun w => w.identity = i) := by
        rw [hg, filter_cons_eq, if_neg hi]
      have e2 : L.busy.filter (fun p => p.1.identity = i) = b.filter (fun p => p.1.identity = i) := by
        rw [hb, Multiset.filter_add]
        cases cur with
        | none => simp
        | some r => simp [Multiset.filter_singleton, hi]
      cases v with
      | none => rw [show LView L i none = (L.reg.filter _ = 0) from rfl, e1] at hv; exact hv
      | some c =>
        obtain ⟨x, hx, hc⟩ := hv
        rw [e1] at hx
        rw [e2] at hc
        exact ⟨x, hx, hc⟩
  | giveUp r text hnd hh hwhy => exact ⟨trivial, hv⟩

/-! ## Steps that are not about the worker -/

/-- The event is no registration and no report of `i`, and no answer to `i`. -/
def Tame (i : String) : Ev → Prop
  | .say m => ¬ (m.key = keyWorkers ∧ m.identity = i)
  | .register w _ => w.identity ≠ i
  | .resend w _ => w.identity ≠ i
  | .done w _ => w.identity ≠ i
  | .failed w _ _ => w.identity ≠ i
  | .cancel w _ => w.identity ≠ i
  | _ => True

/-- Effect of tame events: what was sent to the worker, and the view before and after. -/
def Tamed (v : View) (sent : List (List String)) (v' : View) : Prop :=
  (sent = [] ∧ (v' = v ∨ v' = none)) ∨
    (v = some none ∧ ∃ j x, sent = ["eval" :: j :: x] ∧ (v' = some (some j) ∨ v' = none))

theorem Tamed.trans {v v1 v2 : View} {a b : List (List String)} (h1 : Tamed v a v1)
    (h2 : Tamed v1 b v2) : Tamed v (a ++ b) v2 := by
  rcases h1 with ⟨rfl, h1⟩ | ⟨rfl, j, x, rfl, h1⟩
  · rcases h1 with rfl | rfl
    · exact h2
    · rcases h2 with ⟨rfl, h2⟩ | ⟨h, _⟩
      · exact .inl ⟨rfl, .inr (by rcases h2 with rfl | rfl <;> rfl)⟩
      · cases h
  · rcases h2 with ⟨rfl, h2⟩ | ⟨h, _⟩
    · refine .inr ⟨rfl, j, x, rfl, ?_⟩
      rcases h2 with rfl | rfl
      · exact h1
      · exact .inr rfl
    · subst h
      rcases h1 with h1 | h1 <;> cases h1

theorem toWorker_key {i : String} {m : Msg} (h : ¬ (m.key = keyWorkers ∧ m.identity = i)) :
    toWorker i [m] = [] := by
  simp only [toWorker, List.map_eq_nil_iff, List.filter_eq_nil_iff, List.mem_singleton]
  rintro _ rfl hc
  simp only [Bool.and_eq_true, beq_iff_eq] at hc
  exact h hc

theorem toWorker_send {i : String} (w : Worker) (r : Req) :
    toWorker i [sendMsg w r] = if w.identity = i then [r.frames] else [] := by
  by_cases h : w.identity = i <;> simp [toWorker, sendMsg, keyWorkers, h]

theorem LStep.tamed {M : Nat} {L L' : LS} {e : Ev} (h : LStep M L e L') {i : String} {v : View}
    (hv : LView L i v) (ht : Tame i e)
    (hf : ∀ w r, e.gives = some (w, r) → ∃ x, r.frames = "eval" :: r.jobId :: x) :
    ∃ v', LView L' i v' ∧ Tamed v (toWorker i e.msgs) v' := by
  have hok : viewOk i e v := by
    cases e <;> first | exact trivial | exact fun h => absurd h ht
  obtain ⟨hp, hv'⟩ := h.view hv hok (by rintro w cur rfl h; exact absurd h ht)
  refine ⟨_, hv', ?_⟩
  have give : ∀ w r, e.msgs = [sendMsg w r] → e.gives = some (w, r) →
      (w.identity = i → v = some none) →
      Tamed v (toWorker i e.msgs) (if w.identity = i then some (some r.jobId) else v) := by
    intro w r hm hg hpre
    rw [hm, toWorker_send]
    by_cases hi : w.identity = i
    · obtain ⟨x, hx⟩ := hf w r hg
      rw [if_pos hi, if_pos hi, hx]
      exact .inr ⟨hpre hi, _, x, rfl, .inl rfl⟩
    · rw [if_neg hi, if_neg hi]
      exact .inl ⟨rfl, .inl rfl⟩
  cases e with
  | say m => exact .inl ⟨toWorker_key ht, .inl rfl⟩
  | drop => exact .inl ⟨rfl, .inl rfl⟩
  | accept r => exact .inl ⟨rfl, .inl rfl⟩
  | register w cur => exact .inl ⟨rfl, .inl (if_neg ht)⟩
  | send w r => exact give w r rfl rfl hp
  | park r => exact .inl ⟨rfl, .inl rfl⟩
  | pull w r => exact give w r rfl rfl hp
  | resend w r => exact .inl ⟨by rw [Ev.msgs, toWorker_send, if_neg ht], .inl rfl⟩
  | done w r =>
    exact .inl ⟨toWorker_key (by simp [okMsg, keyNotifier, keyWorkers]), .inl (if_neg ht)⟩
  | failed w r t =>
    exact .inl ⟨toWorker_key (by simp [failMsg, keyNotifier, keyWorkers]), .inl (if_neg ht)⟩
  | cancel w r => exact .inl ⟨rfl, .inl (if_neg ht)⟩
  | expire w cur qs =>
    refine .inl ⟨rfl, ?_⟩
    show (if w.identity = i then none else v) = v ∨ (if w.identity = i then none else v) = none
    split
    · exact .inr rfl
    · exact .inl rfl
  | giveUp r t => exact .inl ⟨toWorker_key (by simp [failMsg, keyNotifier, keyWorkers]), .inl rfl⟩

theorem LSteps.tamed {M : Nat} {L L' : LS} {evs : List Ev} (h : LSteps M L evs L') {i : String}
    {v : View} (hv : LView L i v) (ht : ∀ e ∈ evs, Tame i e)
    (hf : ∀ e ∈ evs, ∀ w r, e.gives = some (w, r) → ∃ x, r.frames = "eval" :: r.jobId :: x) :
    ∃ v', LView L' i v' ∧ Tamed v (toWorker i (msgsOf evs)) v' := by
  induction h generalizing v with
  | nil => exact ⟨v, hv, .inl ⟨rfl, .inl rfl⟩⟩
  | cons h1 _ ih =>
    obtain ⟨v1, hv1, t1⟩ := h1.tamed hv (ht _ (by simp)) (hf _ (by simp))
    obtain ⟨v2, hv2, t2⟩ := ih hv1 (fun e he => ht e (by simp [he])) (fun e he => hf e (by simp [he]))
    refine ⟨v2, hv2, ?_⟩
    rw [msgsOf_cons, toWorker_append]
    exact t1.trans t2

end Broker
