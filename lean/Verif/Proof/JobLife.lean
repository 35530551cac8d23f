import Verif.Spec.JobLife
import Verif.Proof.Dispatch
import Verif.Props.Accounting

/-! # The life of a job in the life-cycle machine -/

set_option linter.unusedSectionVars false
set_option linter.unusedSimpArgs false

namespace Broker

open QueueManager LawfulQM Spec

variable {Q : Type} [QueueManager Q] [LawfulQM Q]

/-- Positions of a request in the machine. -/
inductive Pos where
  | at (i : String)
  | wait
  | hand

/-- Positions of the requests for job `j`. -/
def poss (j : String) (L : LS) : Multiset Pos :=
  (L.busy.filter (fun p => p.2.jobId = j)).map (fun p => Pos.at p.1.identity)
    + (L.que.filter (fun r => r.jobId = j)).map (fun _ => Pos.wait)
    + (L.hand.filter (fun r => r.jobId = j)).map (fun _ => Pos.hand)

theorem card_poss (j : String) (L : LS) :
    (poss j L).card = L.held.countP (fun r => r.jobId = j) := by
  simp [poss, LS.held, Multiset.countP_map, ← Multiset.countP_eq_card_filter]

/-- The job an event is about. -/
def Ev.job : Ev → Option String
  | .accept r => some r.jobId
  | .register _ (some r) => some r.jobId
  | .send _ r => some r.jobId
  | .park r => some r.jobId
  | .pull _ r => some r.jobId
  | .done _ r => some r.jobId
  | .failed _ r _ => some r.jobId
  | .cancel _ r => some r.jobId
  | .giveUp r _ => some r.jobId
  | _ => none

/-- Moves of the request for job `j` with an event. -/
inductive PStep (j : String) : Ev → Option Pos → Option Pos → Prop
  | skip {e : Ev} {p : Option Pos} (h : e.job ≠ some j) : PStep j e p p
  | accept {r : Req} (h : r.jobId = j) : PStep j (.accept r) none (some .hand)
  | register {w : Worker} {r : Req} (h : r.jobId = j) :
    PStep j (.register w (some r)) none (some (.at w.identity))
  | send {w : Worker} {r : Req} (h : r.jobId = j) :
    PStep j (.send w r) (some .hand) (some (.at w.identity))
  | park {r : Req} (h : r.jobId = j) : PStep j (.park r) (some .hand) (some .wait)
  | pull {w : Worker} {r : Req} (h : r.jobId = j) :
    PStep j (.pull w r) (some .wait) (some (.at w.identity))
  | done {w : Worker} {r : Req} (h : r.jobId = j) :
    PStep j (.done w r) (some (.at w.identity)) none
  | failed {w : Worker} {r : Req} {text : String} (h : r.jobId = j) :
    PStep j (.failed w r text) (some (.at w.identity)) none
  | cancel {w : Worker} {r : Req} (h : r.jobId = j) :
    PStep j (.cancel w r) (some (.at w.identity)) (some .hand)
  | expire {w : Worker} {cur : Option Req} {qs : List Req} {p : Pos} (h : p ≠ .hand) :
    PStep j (.expire w cur qs) (some p) (some .hand)
  | giveUp {r : Req} {text : String} (h : r.jobId = j) :
    PStep j (.giveUp r text) (some .hand) none

theorem opt_of_card {α : Type} {s : Multiset α} (h : s.card ≤ 1) :
    ∃ p : Option α, s = (p.toList : Multiset α) := by
  rcases Nat.le_one_iff_eq_zero_or_eq_one.1 h with h | h
  · exact ⟨none, by simpa using Multiset.card_eq_zero.1 h⟩
  · obtain ⟨a, ha⟩ := Multiset.card_eq_one.1 h
    exact ⟨some a, by simp [ha]⟩

theorem opt_cons {α : Type} {p : Option α} {a : α} {X : Multiset α}
    (h : (p.toList : Multiset α) = a ::ₘ X) : p = some a ∧ X = 0 := by
  cases p with
  | none => simp at h
  | some b =>
    have h2 : ({b} : Multiset α) = a ::ₘ X := by simpa using h
    have hc := congrArg Multiset.card h2
    simp only [Multiset.card_singleton, Multiset.card_cons] at hc
    have hX : X = 0 := Multiset.card_eq_zero.1 (by omega)
    subst hX
    have : b = a := by simpa using h2
    exact ⟨by rw [this], rfl⟩

theorem LStep.pos {M : Nat} {L L' : LS} {e : Ev} (h : LStep M L e L') {j : String}
    {p : Option Pos} (hp : poss j L = (p.toList : Multiset Pos)) (hc : (poss j L').card ≤ 1) :
    ∃ p' : Option Pos, poss j L' = (p'.toList : Multiset Pos) ∧ PStep j e p p' := by
  cases h with
  | say m => exact ⟨p, hp, .skip (by simp [Ev.job])⟩
  | drop => exact ⟨p, hp, .skip (by simp [Ev.job])⟩
  | resend w r hb hc hf => exact ⟨p, hp, .skip (by simp [Ev.job])⟩
  | accept r hid hcomp hcan =>
    by_cases hj : r.jobId = j
    · have h1 : poss j { L with
          hand := r ::ₘ L.hand, nextRid := L.nextRid + 1, fc := upd L.fc L.nextRid 0 }
          = Pos.hand ::ₘ poss j L := by
        simp [poss, hj, Multiset.filter_cons]
      rw [h1, Multiset.card_cons] at hc
      have h0 : poss j L = 0 := Multiset.card_eq_zero.1 (by omega)
      have : p = none := by
        cases p with
        | none => rfl
        | some a => rw [h0] at hp; simp at hp
      subst this
      exact ⟨some .hand, by rw [h1, h0]; rfl, .accept hj⟩
    · exact ⟨p, by rw [← hp]; simp [poss, hj, Multiset.filter_cons], .skip (by simp [Ev.job, hj])⟩
  | register w cur hw hf hcur =>
    cases cur with
    | none => exact ⟨p, by rw [← hp]; simp [poss], .skip (by simp [Ev.job])⟩
    | some r =>
      by_cases hj : r.jobId = j
      · have h1 : poss j { L with
            reg := w ::ₘ L.reg, busy := ((some r).map (fun r => (w, r))).toList + L.busy,
            nextRid := L.nextRid + 1, fc := upd L.fc L.nextRid 0 }
            = Pos.at w.identity ::ₘ poss j L := by
          simp [poss, hj, Multiset.filter_cons, Multiset.filter_singleton]
        rw [h1, Multiset.card_cons] at hc
        have h0 : poss j L = 0 := Multiset.card_eq_zero.1 (by omega)
        have : p = none := by
          cases p with
          | none => rfl
          | some a => rw [h0] at hp; simp at hp
        subst this
        exact ⟨some (.at w.identity), by rw [h1, h0]; rfl, .register hj⟩
      · exact ⟨p, by rw [← hp]; simp [poss, hj, Multiset.filter_singleton],
          .skip (by simp [Ev.job, hj])⟩
  | send w r hnd hh hw hidle hcan hcomp hfc =>
    by_cases hj : r.jobId = j
    · have h1 : poss j L = Pos.hand ::ₘ poss j { L with hand := hnd } := by
        simp [poss, hh, hj, Multiset.filter_cons]
      have h2 : poss j { L with hand := hnd, busy := (w, r) ::ₘ L.busy }
          = Pos.at w.identity ::ₘ poss j { L with hand := hnd } := by
        simp [poss, hj, Multiset.filter_cons]
      obtain ⟨rfl, h3⟩ := opt_cons (hp.symm.trans h1)
      exact ⟨some (.at w.identity), by rw [h2, h3]; rfl, .send hj⟩
    · exact ⟨p, by rw [← hp]; simp [poss, hh, hj, Multiset.filter_cons],
        .skip (by simp [Ev.job, hj])⟩
  | park r hnd hh hcan hcomp hfc =>
    by_cases hj : r.jobId = j
    · have h1 : poss j L = Pos.hand ::ₘ poss j { L with hand := hnd } := by
        simp [poss, hh, hj, Multiset.filter_cons]
      have h2 : poss j { L with hand := hnd, que := r ::ₘ L.que }
          = Pos.wait ::ₘ poss j { L with hand := hnd } := by
        simp [poss, hj, Multiset.filter_cons]
      obtain ⟨rfl, h3⟩ := opt_cons (hp.symm.trans h1)
      exact ⟨some .wait, by rw [h2, h3]; rfl, .park hj⟩
    · exact ⟨p, by rw [← hp]; simp [poss, hh, hj, Multiset.filter_cons],
        .skip (by simp [Ev.job, hj])⟩
  | pull w r q hq hw hidle hcan =>
    by_cases hj : r.jobId = j
    · have h1 : poss j L = Pos.wait ::ₘ poss j { L with que := q } := by
        simp [poss, hq, hj, Multiset.filter_cons]
      have h2 : poss j { L with que := q, busy := (w, r) ::ₘ L.busy }
          = Pos.at w.identity ::ₘ poss j { L with que := q } := by
        simp [poss, hj, Multiset.filter_cons]
      obtain ⟨rfl, h3⟩ := opt_cons (hp.symm.trans h1)
      exact ⟨some (.at w.identity), by rw [h2, h3]; rfl, .pull hj⟩
    · exact ⟨p, by rw [← hp]; simp [poss, hq, hj, Multiset.filter_cons],
        .skip (by simp [Ev.job, hj])⟩
  | done w r b hb =>
    by_cases hj : r.jobId = j
    · have h1 : poss j L = Pos.at w.identity ::ₘ poss j { L with busy := b } := by
        simp [poss, hb, hj, Multiset.filter_cons]
      obtain ⟨rfl, h3⟩ := opt_cons (hp.symm.trans h1)
      exact ⟨none, by rw [h3]; rfl, .done hj⟩
    · exact ⟨p, by rw [← hp]; simp [poss, hb, hj, Multiset.filter_cons],
        .skip (by simp [Ev.job, hj])⟩
  | failed w r text b hb =>
    by_cases hj : r.jobId = j
    · have h1 : poss j L = Pos.at w.identity ::ₘ poss j { L with busy := b, fc := bump L.fc r } := by
        simp [poss, hb, hj, Multiset.filter_cons]
      obtain ⟨rfl, h3⟩ := opt_cons (hp.symm.trans h1)
      exact ⟨none, by rw [h3]; rfl, .failed hj⟩
    · exact ⟨p, by rw [← hp]; simp [poss, hb, hj, Multiset.filter_cons],
        .skip (by simp [Ev.job, hj])⟩
  | cancel w r b hb =>
    by_cases hj : r.jobId = j
    · have h1 : poss j L = Pos.at w.identity ::ₘ poss j { L with busy := b } := by
        simp [poss, hb, hj, Multiset.filter_cons]
      have h2 : poss j { L with busy := b, hand := r ::ₘ L.hand, fc := bump L.fc r }
          = Pos.hand ::ₘ poss j { L with busy := b } := by
        simp [poss, hj, Multiset.filter_cons]
      obtain ⟨rfl, h3⟩ := opt_cons (hp.symm.trans h1)
      exact ⟨some .hand, by rw [h2, h3]; rfl, .cancel hj⟩
    · exact ⟨p, by rw [← hp]; simp [poss, hb, hj, Multiset.filter_cons],
        .skip (by simp [Ev.job, hj])⟩
  | giveUp r text hnd hh hwhy =>
    by_cases hj : r.jobId = j
    · have h1 : poss j L = Pos.hand ::ₘ poss j { L with hand := hnd } := by
        simp [poss, hh, hj, Multiset.filter_cons]
      obtain ⟨rfl, h3⟩ := opt_cons (hp.symm.trans h1)
      exact ⟨none, by rw [h3]; rfl, .giveUp hj⟩
    · exact ⟨p, by rw [← hp]; simp [poss, hh, hj, Multiset.filter_cons],
        .skip (by simp [Ev.job, hj])⟩
  | expire w cur qs g b q hg hb hq =>
    -- the requests of the worker and the other ones
    generalize hA : ((cur.map (fun r => (w, r))).toList : Multiset (Worker × Req)) = A at hb
    generalize hX : poss j { L with busy := b, que := q } = X
    have hcur : ((A.filter (fun p => p.2.jobId = j)).map (fun p => Pos.hand))
        = (((cur.toList : List Req) : Multiset Req).filter (fun r => r.jobId = j)).map
            (fun _ => Pos.hand) := by
      subst hA
      cases cur with
      | none => simp
      | some r => by_cases hj : r.jobId = j <;> simp [Multiset.filter_singleton, hj]
    have h1 : poss j L = (A.filter (fun p => p.2.jobId = j)).map (fun p => Pos.at p.1.identity)
        + ((qs : Multiset Req).filter (fun r => r.jobId = j)).map (fun _ => Pos.wait) + X := by
      rw [← hX]
      simp only [poss, hb, hq, Multiset.filter_add, Multiset.map_add]
      abel
    have h2 : poss j { L with
          reg := g, busy := b, que := q,
          hand := (cur.toList ++ qs : List Req) + L.hand, fc := bumpOpt L.fc cur }
        = (A.filter (fun p => p.2.jobId = j)).map (fun p => Pos.hand)
        + ((qs : Multiset Req).filter (fun r => r.jobId = j)).map (fun _ => Pos.hand) + X := by
      rw [← hX, hcur]
      simp only [poss, Multiset.filter_add, Multiset.map_add, ← Multiset.coe_add]
      abel
    rw [h2]
    rw [h2] at hc
    rw [h1] at hp
    generalize (A.filter (fun p => p.2.jobId = j)) = A' at hp hc
    generalize ((qs : Multiset Req).filter (fun r => r.jobId = j)) = B' at hp hc
    by_cases hA0 : A' = 0
    · by_cases hB0 : B' = 0
      · subst hA0 hB0
        exact ⟨p, by simpa using hp, .skip (by simp [Ev.job])⟩
      · obtain ⟨r, hr⟩ := Multiset.exists_mem_of_ne_zero hB0
        obtain ⟨B2, rfl⟩ := Multiset.exists_cons_of_mem hr
        subst hA0
        simp only [Multiset.map_zero, Multiset.map_cons, zero_add, Multiset.cons_add] at hp
        obtain ⟨rfl, h3⟩ := opt_cons hp.symm
        have h4 := congrArg Multiset.card h3
        simp only [Multiset.card_add, Multiset.card_map, Multiset.card_zero] at h4
        have h5 : B2 = 0 := Multiset.card_eq_zero.1 (by omega)
        have h6 : X = 0 := Multiset.card_eq_zero.1 (by omega)
        exact ⟨some .hand, by simp [h5, h6], .expire (by simp)⟩
    · obtain ⟨r, hr⟩ := Multiset.exists_mem_of_ne_zero hA0
      obtain ⟨A2, rfl⟩ := Multiset.exists_cons_of_mem hr
      simp only [Multiset.map_cons, Multiset.cons_add] at hp
      obtain ⟨rfl, h3⟩ := opt_cons hp.symm
      have h4 := congrArg Multiset.card h3
      simp only [Multiset.card_add, Multiset.card_map, Multiset.card_zero] at h4
      have h5 : A2 = 0 := Multiset.card_eq_zero.1 (by omega)
      have h6 : B' = 0 := Multiset.card_eq_zero.1 (by omega)
      have h7 : X = 0 := Multiset.card_eq_zero.1 (by omega)
      exact ⟨some .hand, by simp [h5, h6, h7], .expire (by simp)⟩

/-- Moves with a sequence of events. -/
inductive PSteps (j : String) : List Ev → Option Pos → Option Pos → Prop
  | nil {p : Option Pos} : PSteps j [] p p
  | cons {e : Ev} {es : List Ev} {p p' p'' : Option Pos} (h : PStep j e p p')
      (ht : PSteps j es p' p'') : PSteps j (e :: es) p p''

theorem LSteps.pos {M : Nat} {L L' : LS} {evs : List Ev} (h : LSteps M L evs L') {j : String}
    {p : Option Pos} (hp : poss j L = (p.toList : Multiset Pos))
    (hc : (poss j L).card + entering j evs ≤ 1) :
    ∃ p' : Option Pos, poss j L' = (p'.toList : Multiset Pos) ∧ PSteps j evs p p' := by
  induction h generalizing p with
  | nil => exact ⟨p, hp, .nil⟩
  | @cons L L1 L2 e es h ht ih =>
    have h1 := congrArg (Multiset.countP (fun r => r.jobId = j)) h.held_eq
    simp only [Multiset.countP_add, ← card_poss] at h1
    have h2 : entering j (e :: es) = e.enters.countP (fun r => r.jobId = j) + entering j es := by
      simp [entering]
    obtain ⟨p1, hp1, hs1⟩ := h.pos hp (by omega)
    obtain ⟨p2, hp2, hs2⟩ := ih hp1 (by omega)
    exact ⟨p2, hp2, .cons hs1 hs2⟩

/-! ## Notes of events -/

/-- What an event says about job `j`. -/
def Ev.notes (j : String) : Ev → List Note
  | .send w r => if r.jobId = j then [.given w.identity] else []
  | .pull w r => if r.jobId = j then [.given w.identity] else []
  | .done _ r => if r.jobId = j then [.ok] else []
  | .failed _ r text => if r.jobId = j then [.failed text] else []
  | .giveUp r text => if r.jobId = j then [.failed text] else []
  | _ => []

theorem note_of_say {inp m : Msg} (h : SayShape inp m) (j : String) : note j m = none := by
  cases h with
  | client hk hm hi => simp [note, hm, keyClients]
  | monitor h => simp [note, h.1, keyMonitor]
  | worker hk hm hi hc hd => rcases hd with hd | hd <;> simp [note, hm, hd, keyWorkers]
  | error hk hm hi hd =>
    obtain ⟨t, ht⟩ := hd
    simp [note, hm, ht, keyNotifier]

theorem notes_eq {cfg : HConfig} {env : Env} {h : List (Tr Q)} {m : Msg} {s s' : HState Q}
    {evs : List Ev} (hr : Run cfg env h s) (hi : StepInfo cfg env m s s' evs) (j : String) :
    notes j s'.outs = evs.flatMap (Ev.notes j) := by
  rw [hi.outs]
  have key : ∀ e ∈ evs, notes j e.msgs = e.notes j := by
    intro e he
    have hsh := hi.script.shape e he
    have hgv : ∀ w r, e.gives = some (w, r) →
        note j (sendMsg w r) = if r.jobId = j then some (.given w.identity) else none := by
      intro w r hg
      obtain ⟨x, hx⟩ := (hr.gives hi he hg).2.2.1.frames
      by_cases hj : r.jobId = j <;> simp [note, sendMsg, keyWorkers, hx, hj]
    cases e with
    | say m => simp [Ev.msgs, Ev.notes, notes, note_of_say hsh j]
    | send w r =>
      have := hgv w r rfl
      by_cases hj : r.jobId = j <;> simp [Ev.msgs, Ev.notes, notes, this, hj]
    | pull w r =>
      have := hgv w r rfl
      by_cases hj : r.jobId = j <;> simp [Ev.msgs, Ev.notes, notes, this, hj]
    | resend w r =>
      have := hi.steps.resend_frames he
      simp [Ev.msgs, Ev.notes, notes, note, sendMsg, keyWorkers, this]
    | done w r =>
      by_cases hj : r.jobId = j <;> simp [Ev.msgs, Ev.notes, notes, note, okMsg, keyNotifier, hj]
    | failed w r t =>
      by_cases hj : r.jobId = j <;> simp [Ev.msgs, Ev.notes, notes, note, failMsg, keyNotifier, hj]
    | giveUp r t =>
      by_cases hj : r.jobId = j <;> simp [Ev.msgs, Ev.notes, notes, note, failMsg, keyNotifier, hj]
    | _ => rfl
  clear hr hi
  induction evs with
  | nil => rfl
  | cons e es ih =>
    have h1 := key e List.mem_cons_self
    have h2 := ih (fun x hx => key x (List.mem_cons_of_mem _ hx))
    simp only [msgsOf_cons, List.flatMap_cons, notes, List.filterMap_append]
    simp only [notes] at h1 h2
    rw [h1, h2]

/-- The job does not move and nothing is said about it with an event about another one. -/
theorem Ev.notes_skip {j : String} {e : Ev} (h : e.job ≠ some j) : e.notes j = [] := by
  cases e <;> simp_all [Ev.notes, Ev.job]

/-! ## From positions to places -/

/-- The place of a position outside the handler's hands. -/
def locOf : Option Pos → Loc
  | some (.at i) => .at i
  | some .wait => .waiting
  | _ => .away

/-- Moves with a message of the timer. -/
theorem PSteps.timer {j : String} {t : Tr Q} (hk : t.msg.key = "timer") {evs : List Ev}
    {p p' : Option Pos} (h : PSteps j evs p p') (hsh : ∀ e ∈ evs, TimerEv e)
    (hp' : p' ≠ some .hand) :
    (p ≠ some .hand → Moves j t (locOf p) (evs.flatMap (Ev.notes j)) (locOf p')) ∧
    (p = some .hand → ∀ l, l ≠ .away → Moves j t l (evs.flatMap (Ev.notes j)) (locOf p')) := by
  induction h with
  | nil => exact ⟨fun _ => .stay _, fun h => absurd h hp'⟩
  | @cons e es p p1 p2 hs ht ih =>
    have hte := hsh e List.mem_cons_self
    have hts := fun x hx => hsh x (List.mem_cons_of_mem _ hx)
    obtain ⟨ih1, ih2⟩ := ih hts hp'
    cases hs with
    | skip hj =>
      simp only [List.flatMap_cons, Ev.notes_skip hj, List.nil_append]
      exact ⟨ih1, ih2⟩
    | accept => simp [TimerEv] at hte
    | register => simp [TimerEv] at hte
    | pull => simp [TimerEv] at hte
    | done => simp [TimerEv] at hte
    | failed => simp [TimerEv] at hte
    | cancel => simp [TimerEv] at hte
    | @send w r hj =>
      refine ⟨fun h => absurd rfl h, fun _ l hl => ?_⟩
      simp only [List.flatMap_cons, Ev.notes, hj, if_true]
      exact .more hk (.silent hk hl (.given _)) (ih1 (by simp))
    | park hj =>
      refine ⟨fun h => absurd rfl h, fun _ l hl => ?_⟩
      simp only [List.flatMap_cons, Ev.notes]
      exact .more hk (.silent hk hl .waits) (ih1 (by simp))
    | giveUp hj =>
      refine ⟨fun h => absurd rfl h, fun _ l hl => ?_⟩
      simp only [List.flatMap_cons, Ev.notes, hj, if_true]
      exact .more hk (.silent hk hl (.failed _)) (ih1 (by simp))
    | @expire w cur qs q hq =>
      refine ⟨fun _ => ?_, fun h => absurd (Option.some.inj h) hq⟩
      simp only [List.flatMap_cons, Ev.notes, List.nil_append]
      refine ih2 rfl _ ?_
      cases q <;> simp_all [locOf]

/-! ## The other messages -/

section
variable {j : String} {t : Tr Q}

theorem Next.moves {w : Worker} {evs : List Ev} (h : Next w evs) (hk : t.msg.key = "workers")
    (hc : t.msg.data.head? = some "done") (hw : w.identity = t.msg.identity) {p p' : Option Pos}
    (hp : PSteps j evs p p') : Moves j t (locOf p) (evs.flatMap (Ev.notes j)) (locOf p') := by
  cases h with
  | none => cases hp with
    | nil => exact .stay _
  | pull r => cases hp with
    | cons h1 h2 => cases h2 with
      | nil => cases h1 with
        | skip hj => simpa [Ev.notes_skip hj] using Moves.stay (j := j) (t := t) (locOf p)
        | pull hj =>
          simp only [List.flatMap_cons, List.flatMap_nil, Ev.notes, hj, if_true, hw, locOf,
            List.append_nil]
          exact .move (.taken hk (Or.inr hc))

theorem next_of_none {w : Worker} {evs : List Ev} (h : Next w evs) {p : Option Pos}
    (hp : PSteps j evs none p) : p = none ∧ evs.flatMap (Ev.notes j) = [] := by
  cases h with
  | none => cases hp with
    | nil => exact ⟨rfl, rfl⟩
  | pull r => cases hp with
    | cons h1 h2 => cases h2 with
      | nil => cases h1 with
        | skip hj => exact ⟨rfl, by simp [Ev.notes_skip hj]⟩

theorem DoneScript.moves {M : Nat} {s s' : HState Q} {w : Worker} {r : Req} {st : String}
    {rest : List String} {evs : List Ev} (h : DoneScript M s s' w r st rest evs)
    (hk : t.msg.key = "workers") (hm : t.msg.data = "done" :: r.jobId :: st :: rest)
    (hw : w.identity = t.msg.identity) {p p' : Option Pos} (hh : p ≠ some .hand)
    (hp : PSteps j evs p p') : Moves j t (locOf p) (evs.flatMap (Ev.notes j)) (locOf p') := by
  have hc : t.msg.data.head? = some "done" := by rw [hm]; rfl
  cases h with
  | ok hst ht hs => cases hp with
    | cons h1 h2 => cases h1 with
      | skip hj =>
        simp only [List.flatMap_cons, Ev.notes_skip hj, List.nil_append]
        exact ht.moves hk hc hw h2
      | done hj =>
        obtain ⟨rfl, h3⟩ := next_of_none ht h2
        simp only [List.flatMap_cons, h3, Ev.notes, hj, if_true, locOf, hw, List.append_nil]
        exact .move (.finished hk (by rw [hm, hj, hst]))
  | failed hst hr ht hs => cases hp with
    | cons h1 h2 => cases h1 with
      | skip hj =>
        simp only [List.flatMap_cons, Ev.notes_skip hj, List.nil_append]
        exact ht.moves hk hc hw h2
      | failed hj =>
        obtain ⟨rfl, h3⟩ := next_of_none ht h2
        simp only [List.flatMap_cons, h3, Ev.notes, hj, if_true, locOf, hw, List.append_nil]
        exact .move (.failed hk (by rw [hm, hj, hst, hr]))
  | adopted hst hr hcomp hs => cases hp with
    | cons h1 h2 => cases h2 with
      | cons h2 h3 => cases h3 with
        | nil => cases h1 with
          | skip hj => cases h2 with
            | skip hj2 =>
              simpa [Ev.notes_skip hj, Ev.notes_skip hj2] using
                Moves.stay (j := j) (t := t) (locOf p)
            | giveUp hj2 => exact absurd (congrArg some hj2) hj
          | cancel hj => cases h2 with
            | skip hj2 => exact absurd (congrArg some hj) hj2
            | giveUp hj2 =>
              simp only [List.flatMap_cons, List.flatMap_nil, Ev.notes, hj, if_true, locOf, hw,
                List.append_nil, List.nil_append]
              exact .move (.returned hk (by rw [hm, hj, hst, hr]) (.failed _))
  | exhausted hst hr hcomp hfc ht hs => cases hp with
    | cons h1 h2 => cases h2 with
      | cons h2 h3 => cases h3 with
        | cons h3 h4 => cases h3 with
          | skip hj3 => cases h1 with
            | skip hj => cases h2 with
              | skip hj2 =>
                simp only [List.flatMap_cons, Ev.notes_skip hj, Ev.notes_skip hj2,
                  Ev.notes_skip hj3, List.nil_append]
                exact ht.moves hk hc hw h4
              | giveUp hj2 => exact absurd (congrArg some hj2) hj
            | cancel hj => cases h2 with
              | skip hj2 => exact absurd (congrArg some hj) hj2
              | giveUp hj2 =>
                obtain ⟨rfl, h5⟩ := next_of_none ht h4
                simp only [List.flatMap_cons, h5, Ev.notes, hj, if_true, locOf, hw,
                  List.append_nil, List.nil_append]
                exact .move (.returned hk (by rw [hm, hj, hst, hr]) (.failed _))
  | resent hst hr hcomp hfc hs => cases hp with
    | cons h1 h2 => cases h2 with
      | cons h2 h3 => cases h3 with
        | nil => cases h1 with
          | skip hj => cases h2 with
            | skip hj2 =>
              simpa [Ev.notes_skip hj, Ev.notes_skip hj2] using
                Moves.stay (j := j) (t := t) (locOf p)
            | send hj2 => exact absurd (congrArg some hj2) hj
          | cancel hj => cases h2 with
            | skip hj2 => exact absurd (congrArg some hj) hj2
            | send hj2 =>
              simp only [List.flatMap_cons, List.flatMap_nil, Ev.notes, hj, if_true, locOf, hw,
                List.append_nil, List.nil_append]
              exact .move (.returned hk (by rw [hm, hj, hst, hr]) (.given _))
  | parked hst hr hcomp hfc hs => cases hp with
    | cons h1 h2 => cases h2 with
      | cons h2 h3 => cases h3 with
        | nil => cases h1 with
          | skip hj => cases h2 with
            | skip hj2 =>
              simpa [Ev.notes_skip hj, Ev.notes_skip hj2] using
                Moves.stay (j := j) (t := t) (locOf p)
            | park hj2 => exact absurd (congrArg some hj2) hj
          | cancel hj => cases h2 with
            | skip hj2 => exact absurd (congrArg some hj) hj2
            | park hj2 =>
              simp only [List.flatMap_cons, List.flatMap_nil, Ev.notes, hj, if_true, locOf, hw,
                List.append_nil, List.nil_append]
              exact .move (.returned hk (by rw [hm, hj, hst, hr]) .waits)
  | ignored hs hst => cases hp with
    | nil => exact .stay _

theorem RegScript.moves {w : Worker} {cur : Option Req} {evs : List Ev} (h : RegScript w cur evs)
    (hk : t.msg.key = "workers") (hc : t.msg.data.head? = some "init")
    (hw : w.identity = t.msg.identity) (ha : cur.map (·.jobId) = some j → adopts j t = true)
    {p p' : Option Pos} (hp : PSteps j evs p p') :
    Moves j t (locOf p) (evs.flatMap (Ev.notes j)) (locOf p') := by
  cases h with
  | plain => cases hp with
    | cons h1 h2 => cases h2 with
      | nil => cases h1 with
        | skip hj => simpa [Ev.notes_skip hj] using Moves.stay (j := j) (t := t) (locOf p)
        | register hj =>
          simp only [List.flatMap_cons, List.flatMap_nil, Ev.notes, locOf, hw, List.append_nil]
          exact .move (.adopted (ha (by simp [hj])))
  | pull r hn => cases hp with
    | cons h1 h2 => cases h2 with
      | cons h2 h3 => cases h3 with
        | nil => cases h1 with
          | skip hj => cases h2 with
            | skip hj2 =>
              simpa [Ev.notes_skip hj, Ev.notes_skip hj2] using
                Moves.stay (j := j) (t := t) (locOf p)
            | pull hj2 =>
              simp only [List.flatMap_cons, List.flatMap_nil, Ev.notes_skip hj, Ev.notes, hj2,
                if_true, locOf, hw, List.append_nil, List.nil_append]
              exact .move (.taken hk (Or.inl hc))
          | register hj => cases hn
  | resend r hr => cases hp with
    | cons h1 h2 => cases h2 with
      | cons h2 h3 => cases h3 with
        | nil => cases h2 with
          | skip hj2 => cases h1 with
            | skip hj =>
              simpa [Ev.notes_skip hj, Ev.notes_skip hj2] using
                Moves.stay (j := j) (t := t) (locOf p)
            | register hj =>
              simp only [List.flatMap_cons, List.flatMap_nil, Ev.notes, locOf, hw, List.append_nil]
              exact .move (.adopted (ha (by simp [hj])))

theorem SubmitScript.moves {n : Nat} {ws : List Worker} {identity jobId : String} {hs : Headers}
    {md : Metadata} {extra : List String} {evs : List Ev}
    (h : SubmitScript n ws identity jobId hs md extra evs)
    (ha : jobId = j → Ev.say ⟨keyClients, identity, ["accept"]⟩ ∈ evs → accepts j t = true)
    {p p' : Option Pos} (hp : PSteps j evs p p') :
    Moves j t (locOf p) (evs.flatMap (Ev.notes j)) (locOf p') := by
  cases h with
  | reject hno => cases hp with
    | cons h1 h2 => cases h2 with
      | cons h2 h3 => cases h3 with
        | cons h3 h4 => cases h4 with
          | nil => cases h1 with
            | skip => cases h2 with
              | skip => cases h3 with
                | skip =>
                  simpa [Ev.notes] using Moves.stay (j := j) (t := t) (locOf p)
  | give w => cases hp with
    | cons h1 h2 => cases h2 with
      | cons h2 h3 => cases h3 with
        | cons h3 h4 => cases h4 with
          | nil => cases h3 with
            | skip hj3 => cases h1 with
              | skip hj => cases h2 with
                | skip hj2 =>
                  simpa [Ev.notes_skip hj, Ev.notes_skip hj2, Ev.notes_skip hj3] using
                    Moves.stay (j := j) (t := t) (locOf p)
                | send hj2 => exact absurd (congrArg some hj2) hj
              | accept hj => cases h2 with
                | skip hj2 => exact absurd (congrArg some hj) hj2
                | send hj2 =>
                  simp only [List.flatMap_cons, List.flatMap_nil, Ev.notes, hj, if_true, locOf,
                    List.append_nil, List.nil_append]
                  exact .move (.given (ha hj (by simp)) _)
  | wait => cases hp with
    | cons h1 h2 => cases h2 with
      | cons h2 h3 => cases h3 with
        | cons h3 h4 => cases h4 with
          | nil => cases h3 with
            | skip hj3 => cases h1 with
              | skip hj => cases h2 with
                | skip hj2 =>
                  simpa [Ev.notes_skip hj, Ev.notes_skip hj2, Ev.notes_skip hj3] using
                    Moves.stay (j := j) (t := t) (locOf p)
                | park hj2 => exact absurd (congrArg some hj2) hj
              | accept hj => cases h2 with
                | skip hj2 => exact absurd (congrArg some hj) hj2
                | park hj2 =>
                  simp only [List.flatMap_cons, List.flatMap_nil, Ev.notes, hj, if_true, locOf,
                    List.append_nil, List.nil_append]
                  exact .move (.waits (ha hj (by simp)))

end

theorem says_moves {j : String} {t : Tr Q} {evs : List Ev} (h : ∀ e ∈ evs, ∃ m, e = .say m)
    {p p' : Option Pos} (hp : PSteps j evs p p') :
    Moves j t (locOf p) (evs.flatMap (Ev.notes j)) (locOf p') := by
  have : p' = p ∧ evs.flatMap (Ev.notes j) = [] := by
    induction hp with
    | nil => exact ⟨rfl, rfl⟩
    | @cons e es a b c hs ht ih =>
      obtain ⟨m, rfl⟩ := h e List.mem_cons_self
      obtain ⟨h1, h2⟩ := ih (fun x hx => h x (List.mem_cons_of_mem _ hx))
      cases hs with
      | skip hj => exact ⟨h1, by simp [Ev.notes_skip hj, h2]⟩
  rw [this.1, this.2]
  exact .stay _

/-- What happens to the request for a job during a step. -/
theorem step_moves {cfg : HConfig} {env : Env} {m : Msg} {s s' : HState Q} {evs : List Ev}
    (hi : StepInfo cfg env m s s' evs) {j : String} {p p' : Option Pos} (hh : p ≠ some .hand)
    (hh' : p' ≠ some .hand) (hp : PSteps j evs p p') :
    Moves j ⟨s, m, s'⟩ (locOf p) (evs.flatMap (Ev.notes j)) (locOf p') := by
  have houts := hi.outs
  cases hi.script with
  | init hk hd h =>
    have hreg : ∀ {w : Worker} {cur : Option Req} {es : List Ev} {hw : String} {r : List String},
        m.data = "init" :: hw :: r → RegScript w cur es →
        NewWorker (HState.heard cfg m.identity { s with outs := [] }) env m.identity hw
          (initHeaders r []).1 (initHeaders r []).2 w cur →
        RegFrame (HState.heard cfg m.identity { s with outs := [] }) s' w →
        PSteps j es p p' → Moves j ⟨s, m, s'⟩ (locOf p) (es.flatMap (Ev.notes j)) (locOf p') := by
      intro w cur es hw r hm hr hn hf hp
      refine hr.moves (t := ⟨s, m, s'⟩) hk (by show m.data.head? = _; rw [hd]; rfl)
        (Worker.create_fields hn.created).2.1 (fun hc => ?_) hp
      have hlen : s.workers.length < s'.workers.length := by
        rw [hf.workers, heard_workers]; simp
      have : Spec.adopts j ⟨s, m, s'⟩ = (Spec.currentJob m.data == some j) := by
        simp [Spec.adopts, hk, hd, keyWorkers, hlen]
      rw [this, hm, currentJob_eq]
      rw [hn.cur_eq] at hc
      simpa [Option.map_map, Function.comp_def, Req.incomplete] using hc
    cases h with
    | short => cases hp; exact .stay _
    | same => cases hp; exact .stay _
    | fresh hm hw hn hf hr =>
      refine hreg ?_ hr hn hf hp
      rw [hm] at hd ⊢
      simp only [List.cons.injEq] at hd
      rw [hd.1]
    | again hm hw hne hn hf hr =>
      cases hp with
      | cons h1 h2 => cases h1 with
        | skip hj =>
          simp only [List.flatMap_cons, Ev.notes_skip hj, List.nil_append]
          refine hreg ?_ hr hn hf h2
          rw [hm] at hd ⊢
          simp only [List.cons.injEq] at hd
          rw [hd.1]
  | done hk hd h =>
    cases h with
    | unknown => cases hp; exact .stay _
    | short => cases hp; exact .stay _
    | stale => cases hp; exact .stay _
    | report hw hm hb hj hf hdn =>
      have hwi := (regFind_mem hw).2
      refine hdn.moves (t := ⟨s, m, s'⟩) hk ?_ hwi hh hp
      show m.data = _
      rw [hm] at hd ⊢
      simp only [List.cons.injEq] at hd
      rw [hd.1, hj]
  | ping => exact says_moves (by simp) hp
  | progress => exact says_moves (by simp) hp
  | workerUnknown => cases hp; exact .stay _
  | eval hk hd hf h =>
    cases h with
    | malformed => exact says_moves (by simp) hp
    | frozen => exact says_moves (by simp) hp
    | submit hfz hm hpr h =>
      cases hp with
      | cons h1 h2 => cases h1 with
        | skip hj =>
          simp only [List.flatMap_cons, Ev.notes_skip hj, List.nil_append]
          refine h.moves (t := ⟨s, m, s'⟩) (fun hj hmem => ?_) h2
          have hin : (⟨keyClients, m.identity, ["accept"]⟩ : Msg) ∈ s'.outs := by
            rw [houts, msgsOf, List.mem_flatMap]
            exact ⟨_, List.mem_cons_of_mem _ hmem, by simp [Ev.msgs]⟩
          simp only [Spec.accepts, Tr.outs, hk, hm, hj, keyClients] at hin ⊢
          simpa using hin
  | stats => exact says_moves (by simp) hp
  | freeze => exact says_moves (by simp) hp
  | unfreeze => exact says_moves (by simp) hp
  | clientUnknown => cases hp; exact .stay _
  | timer hk hd ht h =>
    exact (hp.timer (t := ⟨s, m, s'⟩) hk (fun e he => h.script.shape e he) hh').1 hh
  | other => cases hp; exact .stay _

theorem RegScript.no_leave {w : Worker} {cur : Option Req} {evs : List Ev}
    (h : RegScript w cur evs) : ∀ e ∈ evs, e.leaves = 0 := by
  cases h <;> simp [Ev.leaves]

/-- No request leaves with a message by which one enters. -/
theorem enter_no_leave {cfg : HConfig} {env : Env} {m : Msg} {s s' : HState Q} {evs : List Ev}
    (hi : StepInfo cfg env m s s' evs) {j : String} (he : entering j evs ≠ 0) :
    ∀ e ∈ evs, e.leaves = 0 := by
  have key : m.key = keyClients → ∀ e ∈ evs, e.leaves = 0 := by
    intro hk e hm
    have hsh := hi.script.shape e hm
    cases e with
    | done => exact absurd (hk.symm.trans hsh.1) (by decide)
    | failed => exact absurd (hk.symm.trans hsh.1) (by decide)
    | giveUp =>
      rcases hsh with hsh | hsh
      · exact absurd (hk.symm.trans hsh) (by decide)
      · exact absurd (hk.symm.trans hsh) (by decide)
    | _ => rfl
  cases hi.script with
  | init hk hd h =>
    cases h with
    | short => simp
    | same => simp
    | fresh hm hw hn hf hr => exact hr.no_leave
    | again hm hw hne hn hf hr =>
      intro e hm
      rcases List.mem_cons.1 hm with rfl | hm
      · rfl
      · exact hr.no_leave e hm
  | done hk hd h =>
    refine absurd (entering_zero j ?_) he
    cases h with
    | unknown h hs => simp
    | short h hs => simp
    | stale hw hm hb hj hs => simp
    | report hw hm hb hj hf hd => exact fun e he => (hd.shape e he).enters
  | ping => simp [Ev.leaves]
  | progress => simp [Ev.leaves]
  | workerUnknown => simp
  | eval hk => exact key hk
  | stats hk => exact key hk
  | freeze hk => exact key hk
  | unfreeze hk => exact key hk
  | clientUnknown => simp
  | timer hk hd ht h => exact absurd (entering_zero j fun e he => (h.script.shape e he).enters) he
  | other => simp

/-! ## The whole story -/

/-- A final note. -/
def Spec.Note.final : Note → Bool
  | .given _ => false
  | _ => true

theorem Spec.Retry.story {ns : List Note} {l : Loc} (h : Retry ns l) :
    ∃ is : List String, (l ≠ .away ∧ ns = is.map .given) ∨
      (l = .away ∧ ∃ f, Note.final f = true ∧ ns = is.map .given ++ [f]) := by
  cases h with
  | given i => exact ⟨[i], Or.inl ⟨by simp, rfl⟩⟩
  | waits => exact ⟨[], Or.inl ⟨by simp, rfl⟩⟩
  | failed text => exact ⟨[], Or.inr ⟨rfl, _, rfl, rfl⟩⟩

theorem Spec.Move.story {j : String} {t : Tr Q} {l l' : Loc} {ns : List Note} (h : Move j t l ns l') :
    ((l = .away ∧ (accepts j t = true ∨ adopts j t = true)) ∨ l ≠ .away) ∧
    ∃ is : List String, (l' ≠ .away ∧ ns = is.map .given) ∨
      (l ≠ .away ∧ l' = .away ∧ ∃ f, Note.final f = true ∧ ns = is.map .given ++ [f]) := by
  cases h with
  | given h i => exact ⟨Or.inl ⟨rfl, Or.inl h⟩, [i], Or.inl ⟨by simp, rfl⟩⟩
  | waits h => exact ⟨Or.inl ⟨rfl, Or.inl h⟩, [], Or.inl ⟨by simp, rfl⟩⟩
  | adopted h => exact ⟨Or.inl ⟨rfl, Or.inr h⟩, [], Or.inl ⟨by simp, rfl⟩⟩
  | taken hk hc => exact ⟨Or.inr (by simp), [_], Or.inl ⟨by simp, rfl⟩⟩
  | finished hk hd => exact ⟨Or.inr (by simp), [], Or.inr ⟨by simp, rfl, .ok, rfl, rfl⟩⟩
  | failed hk hd => exact ⟨Or.inr (by simp), [], Or.inr ⟨by simp, rfl, .failed _, rfl, rfl⟩⟩
  | returned hk hd hr =>
    obtain ⟨is, h | ⟨h1, h2⟩⟩ := hr.story
    · exact ⟨Or.inr (by simp), is, Or.inl h⟩
    · exact ⟨Or.inr (by simp), is, Or.inr ⟨by simp, h1, h2⟩⟩
  | silent hk hl hr =>
    obtain ⟨is, h | ⟨h1, h2⟩⟩ := hr.story
    · exact ⟨Or.inr hl, is, Or.inl h⟩
    · exact ⟨Or.inr hl, is, Or.inr ⟨hl, h1, h2⟩⟩

theorem entry_key {j : String} {t : Tr Q} (h : accepts j t = true ∨ adopts j t = true) :
    t.msg.key ≠ "timer" := by
  intro hk
  rcases h with h | h
  · simp [accepts, hk] at h
  · simp [adopts, hk] at h

/-- A job that is away stays away or enters. -/
theorem Spec.Moves.from_away {j : String} {t : Tr Q} {l' : Loc} {ns : List Note}
    (h : Moves j t .away ns l') :
    (l' = .away ∧ ns = []) ∨
    ((accepts j t = true ∨ adopts j t = true) ∧ l' ≠ .away ∧ ∃ is : List String, ns = is.map .given) := by
  cases h with
  | stay => exact Or.inl ⟨rfl, rfl⟩
  | move h =>
    obtain ⟨⟨_, h1⟩ | h1, is, h2 | h2⟩ := h.story
    · exact Or.inr ⟨h1, h2.1, is, h2.2⟩
    · exact absurd rfl h2.1
    · exact absurd rfl h1
    · exact absurd rfl h1
  | more hk h ht =>
    obtain ⟨⟨_, h1⟩ | h1, _⟩ := h.story
    · exact absurd hk (entry_key h1)
    · exact absurd rfl h1

/-- A job that is in the broker is given to workers until it leaves. -/
theorem Spec.Moves.from_there {j : String} {t : Tr Q} {l l' : Loc} {ns : List Note}
    (h : Moves j t l ns l') (hl : l ≠ .away) :
    ∃ is : List String, (l' ≠ .away ∧ ns = is.map .given) ∨
      (l' = .away ∧ ∃ f, Note.final f = true ∧ ns = is.map .given ++ [f]) := by
  induction h with
  | stay l => exact ⟨[], Or.inl ⟨hl, rfl⟩⟩
  | move h =>
    obtain ⟨_, is, h2 | h2⟩ := h.story
    · exact ⟨is, Or.inl h2⟩
    · exact ⟨is, Or.inr h2.2⟩
  | more hk h ht ih =>
    obtain ⟨_, is, h2 | ⟨_, h2, f, hf, rfl⟩⟩ := h.story
    · obtain ⟨is', h3 | ⟨h3, f, hf, rfl⟩⟩ := ih h2.1
      · exact ⟨is ++ is', Or.inl ⟨h3.1, by rw [h2.2, h3.2]; simp⟩⟩
      · exact ⟨is ++ is', Or.inr ⟨h3, f, hf, by rw [h2.2]; simp⟩⟩
    · subst h2
      rcases ht.from_away with ⟨rfl, rfl⟩ | ⟨h3, _⟩
      · exact ⟨is, Or.inr ⟨rfl, f, hf, by simp⟩⟩
      · exact absurd hk (entry_key h3)

theorem Spec.OneAtATime.of_le {j : String} {h : List (Tr Q)}
    (hn : h.countP (accepts j) + h.countP (adopts j) ≤ 1) : OneAtATime j h := by
  intro h1 h2 he
  subst he
  simp only [List.countP_append] at hn
  omega

/-! ## Places of a state -/

theorem poss_card (s : HState Q) (j : String) : (poss j (ls s 0)).card = (heldJobs s).count j := by
  rw [card_poss, heldJobs_count]

theorem worksOn_iff {s : HState Q} (h : HInv s) {i j : String} :
    WorksOn i j s ↔ Pos.at i ∈ poss j (ls s 0) := by
  constructor
  · rintro ⟨w, hw, rfl, hc⟩
    cases hr : (currentRequest s.queue w).1 with
    | none => rw [hr] at hc; simp at hc
    | some r =>
      rw [hr] at hc
      have hb := ((LawfulQM.current h.qinv (h.mem_reg.1 hw)).2 r).1 hr
      have hj : r.jobId = j := by simpa using hc
      simp only [poss, ls, Multiset.mem_add, Multiset.mem_map, Multiset.mem_filter]
      exact Or.inl (Or.inl ⟨(w, r), ⟨hb, hj⟩, rfl⟩)
  · intro hm
    simp only [poss, ls, Multiset.mem_add, Multiset.mem_map, Multiset.mem_filter] at hm
    rcases hm with (⟨⟨w, r⟩, ⟨hb, hj⟩, hi⟩ | ⟨_, _, hi⟩) | ⟨_, _, hi⟩
    · have hw := busy_reg h.qinv _ hb
      refine ⟨w, h.mem_reg.2 hw, by simpa using hi, ?_⟩
      rw [((LawfulQM.current h.qinv hw).2 r).2 hb]
      simpa using hj
    · cases hi
    · cases hi

theorem no_hand (s : HState Q) (j : String) {p : Option Pos}
    (hp : poss j (ls s 0) = (p.toList : Multiset Pos)) : p ≠ some .hand := by
  rintro rfl
  have : Pos.hand ∈ poss j (ls s 0) := by rw [hp]; simp
  simp only [poss, ls, Multiset.mem_add, Multiset.mem_map, Multiset.mem_filter] at this
  rcases this with (⟨_, _, h⟩ | ⟨_, _, h⟩) | ⟨r, h, _⟩
  · cases h
  · cases h
  · simp at h

end Broker
