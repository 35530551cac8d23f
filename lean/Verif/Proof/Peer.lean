import Verif.Proof.View
import Verif.Spec.Peer

/-! # The invariant of a worker that follows the protocol -/

set_option linter.unusedSectionVars false
set_option linter.unusedSimpArgs false

namespace Broker

open QueueManager LawfulQM Spec

variable {Q : Type} [QueueManager Q] [LawfulQM Q]

/-! ## The view of a handler state -/

theorem ls_heard (cfg : HConfig) (i : String) (s : HState Q) :
    ls (s.heard cfg i) 0 = ls s 0 := by
  rw [heard_frame cfg i s]; rfl

theorem LView.none_iff {s : HState Q} (h : HInv s) {i : String} {v : View}
    (hv : LView (ls s 0) i v) : regFind i s.workers = none ↔ v = none := by
  have hreg : (ls s 0).reg = (s.workers : Multiset Worker) := h.reg_eq.symm
  cases v with
  | none =>
    refine ⟨fun _ => rfl, fun _ => ?_⟩
    rw [regFind, List.find?_eq_none]
    intro w hw hi
    have : w ∈ (ls s 0).reg.filter (fun w => w.identity = i) :=
      Multiset.mem_filter.2 ⟨by rw [hreg]; exact hw, by simpa using hi⟩
    rw [show (ls s 0).reg.filter _ = 0 from hv] at this
    simp at this
  | some c =>
    obtain ⟨w, hw, _⟩ := hv
    refine ⟨fun hn => ?_, fun h => by cases h⟩
    have : w ∈ (ls s 0).reg.filter (fun w => w.identity = i) := by rw [hw]; simp
    obtain ⟨h1, h2⟩ := Multiset.mem_filter.1 this
    rw [hreg] at h1
    rw [regFind, List.find?_eq_none] at hn
    exact absurd h2 (by simpa using hn w h1)

theorem LView.found {s : HState Q} (h : HInv s) {i : String} {c : Option String}
    (hv : LView (ls s 0) i (some c)) :
    ∃ w, regFind i s.workers = some w ∧
      match c with
      | none => ∀ r, (w, r) ∉ busy s.queue
      | some j => ∃ r, r.jobId = j ∧ ∀ r', (w, r') ∈ busy s.queue ↔ r' = r := by
  cases hf : regFind i s.workers with
  | none => exact absurd ((hv.none_iff h).1 hf) (by simp)
  | some w =>
    refine ⟨w, rfl, ?_⟩
    obtain ⟨hm, hi⟩ := regFind_mem hf
    obtain ⟨x, hx, hc⟩ := hv
    have : w ∈ (ls s 0).reg.filter (fun w => w.identity = i) :=
      Multiset.mem_filter.2 ⟨h.mem_reg.1 hm, hi⟩
    rw [hx] at this
    have hwx := Multiset.mem_singleton.1 this
    subst hwx
    have key : ∀ r, (w, r) ∈ busy s.queue ↔
        (w, r) ∈ (ls s 0).busy.filter (fun p => p.1.identity = i) := by
      intro r
      rw [Multiset.mem_filter]
      exact ⟨fun h => ⟨h, hi⟩, fun h => h.1⟩
    cases c with
    | none =>
      intro r hr
      rw [key, show (ls s 0).busy.filter _ = 0 from hc] at hr
      simp at hr
    | some j =>
      obtain ⟨r, hj, hc⟩ := hc
      refine ⟨r, hj, fun r' => ?_⟩
      rw [key, hc]
      simp

theorem LView.believes {s : HState Q} (h : HInv s) {i : String} {v : View}
    (hv : LView (ls s 0) i v) : believes i s = v := by
  cases v with
  | none =>
    have := (hv.none_iff h).2 rfl
    unfold Spec.believes
    rw [show s.workers.find? (fun w => w.identity == i) = none from this]; rfl
  | some c =>
    obtain ⟨w, hw, hc⟩ := hv.found h
    unfold Spec.believes
    rw [show s.workers.find? (fun w => w.identity == i) = some w from hw]
    have hcur := current h.qinv (h.mem_reg.1 (regFind_mem hw).1)
    show some ((currentRequest s.queue w).1.map (·.jobId)) = some c
    rw [Option.some.injEq]
    cases c with
    | none =>
      cases hq : (currentRequest s.queue w).1 with
      | none => rfl
      | some r => exact absurd ((hcur.2 r).1 hq) (hc r)
    | some j =>
      obtain ⟨r, hj, hr⟩ := hc
      rw [(hcur.2 r).2 ((hr r).2 rfl)]
      simp [hj]

theorem LView.init (i : String) : LView (ls (HState.init Q) 0) i none := by
  show (LawfulQM.reg (HState.init Q).queue).filter _ = 0
  simp [HState.init, reg_empty]

/-! ## Steps -/

theorem keyC : ¬ keyWorkers = keyClients := by decide
theorem keyT : ¬ keyWorkers = keyTimer := by decide

theorem Run.frames_of {cfg : HConfig} {env : Env} {h : List (Tr Q)} {m : Msg} {s s' : HState Q}
    {evs : List Ev} (hr : Run cfg env h s) (hi : StepInfo cfg env m s s' evs) :
    ∀ e ∈ evs, ∀ w r, e.gives = some (w, r) → ∃ x, r.frames = "eval" :: r.jobId :: x :=
  fun _ he _ _ hg => (hr.gives hi he hg).2.2.1.frames

theorem EvShape.tame {m : Msg} {i : String} (hm : ¬ (m.key = keyWorkers ∧ m.identity = i)) {e : Ev}
    (he : EvShape m e) : Tame i e := by
  cases e with
  | say o =>
    rintro ⟨h1, h2⟩
    cases he with
    | client hk ho hi => rw [h1] at ho; exact absurd ho (by decide)
    | monitor h => exact absurd (h1.symm.trans h.1) (by decide)
    | worker hk ho hi hc hd => exact hm ⟨hk, hi ▸ h2⟩
    | error hk ho hi hd => rw [h1] at ho; exact absurd ho (by decide)
  | register w c => exact fun h => hm ⟨he.1, he.2 ▸ h⟩
  | resend w c => exact fun h => hm ⟨he.1, he.2.1 ▸ h⟩
  | done w c => exact fun h => hm ⟨he.1, he.2 ▸ h⟩
  | failed w c t => exact fun h => hm ⟨he.1, he.2 ▸ h⟩
  | cancel w c => exact fun h => hm ⟨he.1, he.2 ▸ h⟩
  | _ => trivial

/-- Messages that are not from the worker. -/
theorem view_other {cfg : HConfig} {env : Env} {h : List (Tr Q)} {m : Msg} {s s' : HState Q}
    (hr : Run cfg env h s) (hs : step cfg env m s = .ok () s') {i : String}
    (hm : ¬ (m.key = keyWorkers ∧ m.identity = i)) {v : View} (hv : LView (ls s 0) i v) :
    ∃ v', LView (ls s' 0) i v' ∧ Tamed v (toWorker i s'.outs) v' := by
  obtain ⟨evs, hi⟩ := step_info hr.inv.1 hs
  rw [hi.outs]
  exact hi.steps.tamed hv (fun e he => (hi.script.shape e he).tame hm) (hr.frames_of hi)

/-- Pings. -/
theorem view_ping {cfg : HConfig} {env : Env} {h : List (Tr Q)} {i : String} {rest : List String}
    {s s' : HState Q} (hr : Run cfg env h s)
    (hs : step cfg env ⟨keyWorkers, i, "ping" :: rest⟩ s = .ok () s') {v : View}
    (hv : LView (ls s 0) i v) :
    LView (ls s' 0) i v ∧
      toWorker i s'.outs = [[if v = none then "intro" else "pong"]] := by
  obtain ⟨evs, hi⟩ := step_info hr.inv.1 hs
  have hsc := hi.script
  cases hsc with
  | init hk hd => simp at hd
  | done hk hd => simp at hd
  | progress hk hd => simp at hd
  | workerUnknown hk hd hc => simp at hd; exact absurd hd.1.symm hc.2.2.1
  | eval hk => exact absurd (show _ = _ from hk) keyC
  | stats hk => exact absurd (show _ = _ from hk) keyC
  | freeze hk => exact absurd (show _ = _ from hk) keyC
  | unfreeze hk => exact absurd (show _ = _ from hk) keyC
  | clientUnknown hk => exact absurd (show _ = _ from hk) keyC
  | timer hk => exact absurd (show _ = _ from hk) keyT
  | other hk => exact absurd rfl hk.1
  | ping hk hd hs' =>
    constructor
    · rw [hs']
      show LView (ls (HState.heard cfg i { s with outs := [] }) 0) i v
      rw [ls_heard]; exact hv
    · rw [hs']
      simp only [List.nil_append, toWorker]
      have := hv.none_iff hr.inv.1
      cases hf : regFind i s.workers with
      | none => simp [keyWorkers, this.1 hf, hf]
      | some w =>
        have hne : v ≠ none := fun e => by rw [this.2 e] at hf; cases hf
        simp [keyWorkers, hne, hf]

/-- Progress. -/
theorem view_progress {cfg : HConfig} {env : Env} {h : List (Tr Q)} {i : String} {rest : List String}
    {s s' : HState Q} (hr : Run cfg env h s)
    (hs : step cfg env ⟨keyWorkers, i, "progress" :: rest⟩ s = .ok () s') {v : View}
    (hv : LView (ls s 0) i v) : LView (ls s' 0) i v ∧ toWorker i s'.outs = [] := by
  obtain ⟨evs, hi⟩ := step_info hr.inv.1 hs
  have hsc := hi.script
  cases hsc with
  | init hk hd => simp at hd
  | done hk hd => simp at hd
  | ping hk hd => simp at hd
  | workerUnknown hk hd hc => simp at hd; exact absurd hd.1.symm hc.2.2.2
  | eval hk => exact absurd (show _ = _ from hk) keyC
  | stats hk => exact absurd (show _ = _ from hk) keyC
  | freeze hk => exact absurd (show _ = _ from hk) keyC
  | unfreeze hk => exact absurd (show _ = _ from hk) keyC
  | clientUnknown hk => exact absurd (show _ = _ from hk) keyC
  | timer hk => exact absurd (show _ = _ from hk) keyT
  | other hk => exact absurd rfl hk.1
  | progress hk hd hs' =>
    constructor
    · rw [hs']
      show LView (ls (HState.heard cfg i { s with outs := [] }) 0) i v
      rw [ls_heard]; exact hv
    · rw [hs']
      simp [toWorker, keyMonitor]

/-- Reports. -/
theorem view_done {cfg : HConfig} {env : Env} {h : List (Tr Q)} {i j st : String}
    {rest : List String} {s s' : HState Q} (hr : Run cfg env h s)
    (hs : step cfg env ⟨keyWorkers, i, "done" :: j :: st :: rest⟩ s = .ok () s')
    (hst : st = "OK" ∨ (st = "FAILED" ∨ st = "INTERNAL_ERROR") ∧ rest.length = 1) {v : View}
    (hv : LView (ls s 0) i v) (hj : v = none ∨ v = some (some j)) :
    ∃ v', LView (ls s' 0) i v' ∧
      (v = none → v' = none ∧ toWorker i s'.outs = []) ∧
      (v = some (some j) → Tamed (some none) (toWorker i s'.outs) v') := by
  obtain ⟨evs, hi⟩ := step_info hr.inv.1 hs
  have hfr := hr.frames_of hi
  have hsc := hi.script
  cases hsc with
  | init hk hd => simp at hd
  | progress hk hd => simp at hd
  | ping hk hd => simp at hd
  | workerUnknown hk hd hc => simp at hd; exact absurd hd.1.symm hc.2.1
  | eval hk => exact absurd (show _ = _ from hk) keyC
  | stats hk => exact absurd (show _ = _ from hk) keyC
  | freeze hk => exact absurd (show _ = _ from hk) keyC
  | unfreeze hk => exact absurd (show _ = _ from hk) keyC
  | clientUnknown hk => exact absurd (show _ = _ from hk) keyC
  | timer hk => exact absurd (show _ = _ from hk) keyT
  | other hk => exact absurd rfl hk.1
  | done hk hd hc =>
    have hnone := hv.none_iff hr.inv.1
    cases hc with
    | short hl => simp at hl; omega
    | unknown hw hs' =>
      rw [heard_workers] at hw
      have hvn : v = none := hnone.1 hw
      refine ⟨none, ?_, fun _ => ⟨rfl, by rw [hi.outs]; rfl⟩, fun e => by rw [hvn] at e; cases e⟩
      rw [hs', ls_heard]
      rw [hvn] at hv
      exact hv
    | @stale w r c j' st' rest' hw hm hb hjne hs' =>
      exfalso
      rw [heard_workers] at hw
      rcases hj with rfl | rfl
      · have := hnone.2 rfl
        rw [show regFind i s.workers = some w from hw] at this
        cases this
      · obtain ⟨w', hw', r', hj', hr'⟩ := hv.found hr.inv.1
        rw [show regFind i s.workers = some w from hw] at hw'
        cases hw'
        have hb' : (w, r) ∈ busy s.queue := by rw [heard_frame] at hb; exact hb
        have := (hr' r).1 hb'
        subst this
        simp at hm
        exact hjne (hm.2.1 ▸ hj'.symm)
    | @report w r c j' st' rest' evs hw hm hb hjeq hf hds =>
      rw [heard_workers] at hw
      have hwi := (regFind_mem hw).2
      rcases hj with rfl | rfl
      · have := hnone.2 rfl
        rw [show regFind i s.workers = some w from hw] at this
        cases this
      · simp at hm
        obtain ⟨_, rfl, rfl, rfl⟩ := hm
        have hne : ∀ e ∈ evs, ∀ o, e = .say o → ¬ (o.key = keyWorkers ∧ o.identity = i) := by
          rintro _ he o rfl ⟨hc, _⟩
          have := (hds.shape _ he : ToMonitor o).1
          rw [hc] at this
          exact absurd this (by decide)
        have main : ∀ e t, evs = e :: t →
            (viewEv i e (some (some j)) = some none ∧ viewOk i e (some (some j)) ∧
              toWorker i e.msgs = [] ∧ ∀ w c, e ≠ .register w c) →
            (∀ e' ∈ t, (∃ x, e' = .pull w x) ∨ (∃ x y, e' = .send x y) ∨ (∃ x, e' = .park x) ∨
              (∃ x y, e' = .giveUp x y) ∨ ∃ o, e' = .say o) →
            ∃ v', LView (ls s' 0) i v' ∧
              ((some (some j) : View) = none → v' = none ∧ toWorker i s'.outs = []) ∧
              ((some (some j) : View) = some (some j) → Tamed (some none) (toWorker i s'.outs) v') := by
          intro e t he h1 h2
          have hsteps := hi.steps
          rw [he] at hsteps
          cases hsteps with
          | cons hstep htail =>
            have hv1 := (hstep.view hv h1.2.1 (by rintro w c rfl; exact absurd rfl (h1.2.2.2 w c))).2
            rw [h1.1] at hv1
            obtain ⟨v', hv', ht⟩ := htail.tamed hv1 (by
              intro e' he'
              rcases h2 e' he' with ⟨x, rfl⟩ | ⟨x, y, rfl⟩ | ⟨x, rfl⟩ | ⟨x, y, rfl⟩ | ⟨o, rfl⟩ <;>
                first | trivial | exact hne _ (by rw [he]; simp [he']) o rfl)
              (fun e' he' => hfr e' (by rw [he]; simp [he']))
            refine ⟨v', hv', fun e => (by cases e), fun _ => ?_⟩
            rw [hi.outs, he, msgsOf_cons, toWorker_append, h1.2.2.1]
            exact ht
        have hnx : ∀ t, Next w t → ∀ e' ∈ t, (∃ x, e' = .pull w x) ∨ (∃ x y, e' = .send x y) ∨
            (∃ x, e' = .park x) ∨ (∃ x y, e' = .giveUp x y) ∨ ∃ o, e' = .say o := by
          intro t ht e' he'
          cases ht with
          | none => simp at he'
          | pull x => simp at he'; exact .inl ⟨x, he'⟩
        have hok : w.identity = i → (some (some j) : View) ≠ none := fun _ => nofun
        cases hds with
        | @ok t hst ht hs' =>
          exact main _ t rfl ⟨if_pos hwi, hok,
            toWorker_key (by simp [okMsg, keyNotifier, keyWorkers]), nofun⟩ (hnx t ht)
        | @failed t text hst hr' ht hs' =>
          exact main _ t rfl ⟨if_pos hwi, hok,
            toWorker_key (by simp [failMsg, keyNotifier, keyWorkers]), nofun⟩ (hnx t ht)
        | adopted =>
          exact main _ _ rfl ⟨if_pos hwi, hok, rfl, nofun⟩ (by simp)
        | @exhausted t text hst hr' hc hfc ht hs' =>
          refine main _ _ rfl ⟨if_pos hwi, hok, rfl, nofun⟩ ?_
          intro e' he'
          simp only [List.mem_cons] at he'
          rcases he' with rfl | rfl | he'
          · exact .inr (.inr (.inr (.inl ⟨_, _, rfl⟩)))
          · exact .inr (.inr (.inr (.inr ⟨_, rfl⟩)))
          · exact hnx t ht e' he'
        | resent =>
          exact main _ _ rfl ⟨if_pos hwi, hok, rfl, nofun⟩ (by simp)
        | parked =>
          exact main _ _ rfl ⟨if_pos hwi, hok, rfl, nofun⟩ (by simp)
        | ignored hs' hst' =>
          exfalso
          rcases hst with rfl | ⟨h1, h2⟩
          · exact hst'.1 rfl
          · rcases hst'.2 with h3 | h3
            · rcases h1 with rfl | rfl
              · exact h3.2 rfl
              · exact h3.1 rfl
            · exact h3 h2

/-- Introductions of an unknown worker. -/
theorem view_init {cfg : HConfig} {env : Env} {h : List (Tr Q)} {i g : String}
    {rest : List String} {s s' : HState Q} (hr : Run cfg env h s)
    (hs : step cfg env ⟨keyWorkers, i, "init" :: g :: rest⟩ s = .ok () s')
    (hv : LView (ls s 0) i none) :
    (LView (ls s' 0) i (some (currentJob ("init" :: g :: rest))) ∧
      (toWorker i s'.outs = [] ∨ toWorker i s'.outs = [[]])) ∨
    (currentJob ("init" :: g :: rest) = none ∧ ∃ j x, LView (ls s' 0) i (some (some j)) ∧
      toWorker i s'.outs = ["eval" :: j :: x]) := by
  obtain ⟨evs, hi⟩ := step_info hr.inv.1 hs
  have hfr := hr.frames_of hi
  have hsc := hi.script
  cases hsc with
  | done hk hd => simp at hd
  | progress hk hd => simp at hd
  | ping hk hd => simp at hd
  | workerUnknown hk hd hc => simp at hd; exact absurd hd.1.symm hc.1
  | eval hk => exact absurd (show _ = _ from hk) keyC
  | stats hk => exact absurd (show _ = _ from hk) keyC
  | freeze hk => exact absurd (show _ = _ from hk) keyC
  | unfreeze hk => exact absurd (show _ = _ from hk) keyC
  | clientUnknown hk => exact absurd (show _ = _ from hk) keyC
  | timer hk => exact absurd (show _ = _ from hk) keyT
  | other hk => exact absurd rfl hk.1
  | init hk hd hc =>
    have hnone := (hv.none_iff hr.inv.1).2 rfl
    have hbr : ∀ p ∈ (ls s 0).busy, p.1 ∈ (ls s 0).reg := busy_reg hr.inv.1.qinv
    cases hc with
    | short hl => simp at hl; omega
    | same hfr' hm hw =>
      rw [heard_workers] at hw
      rw [show regFind i s.workers = none from hnone] at hw
      cases hw
    | again hm hw =>
      rw [heard_workers] at hw
      rw [show regFind i s.workers = none from hnone] at hw
      cases hw
    | @fresh c g' rest' w cur evs hm hw hn hf hrs =>
      simp at hm
      obtain ⟨rfl, rfl, rfl⟩ := hm
      have hwi : w.identity = i := (Worker.create_fields hn.created).2.1
      have hcur : cur.map (·.jobId) = currentJob ("init" :: g :: rest) := by
        rw [currentJob_eq, hn.cur_eq, Option.map_map]
        cases (initExtra (initHeaders rest []).2 "" none).2 <;> rfl
      have hsteps := hi.steps
      cases hrs with
      | plain =>
        cases hsteps with
        | cons h1 h2 =>
          cases h2
          have := (h1.view hv (fun _ => rfl) (fun _ _ _ _ => hbr)).2
          refine .inl ⟨?_, .inl (by rw [hi.outs]; rfl)⟩
          rw [show viewEv i (.register w cur) none = some (cur.map (·.jobId)) from if_pos hwi,
            hcur] at this
          exact this
      | resend r hc =>
        cases hsteps with
        | cons h1 h2 => cases h2 with
          | cons h3 h4 =>
            cases h4
            have e1 := (h1.view hv (fun _ => rfl) (fun _ _ _ _ => hbr)).2
            rw [show viewEv i (.register w cur) none = some (cur.map (·.jobId)) from if_pos hwi,
              hcur] at e1
            have e2 := (h3.view e1 trivial (fun _ _ h => by cases h)).2
            refine .inl ⟨e2, .inr ?_⟩
            have hrf := hi.steps.resend_frames (w := w) (r := r) (by simp)
            rw [hi.outs]
            show toWorker i [sendMsg w r] = _
            rw [toWorker_send, if_pos hwi, hrf]
      | pull r hc =>
        cases hsteps with
        | cons h1 h2 => cases h2 with
          | cons h3 h4 =>
            cases h4
            have e1 := (h1.view hv (fun _ => rfl) (fun _ _ _ _ => hbr)).2
            rw [show viewEv i (.register w cur) none = some (cur.map (·.jobId)) from if_pos hwi] at e1
            have e2 := (h3.view e1 trivial (fun _ _ h => by cases h)).2
            rw [show viewEv i (.pull w r) _ = some (some r.jobId) from if_pos hwi] at e2
            obtain ⟨x, hx⟩ := hfr (.pull w r) (by simp) w r rfl
            refine .inr ⟨by rw [← hcur, hc]; rfl, r.jobId, x, e2, ?_⟩
            rw [hi.outs]
            show toWorker i [sendMsg w r] = _
            rw [toWorker_send, if_pos hwi, hx]

/-! ## The invariant -/

/-- Jobs of the evaluation messages. -/
def inEvals (inb : List (List String)) : List String :=
  inb.filterMap (fun f => match f with
    | "eval" :: j :: _ => some j
    | _ => none)

/-- Jobs of the reports. -/
def outDones (out : List Said) : List String :=
  out.filterMap (fun x => match x with
    | .done j _ => some j
    | _ => none)

/-- An invitation to introduce oneself. -/
def isIntro (f : List String) : Bool := f.head? == some "intro"

/-- An answer to a ping. -/
def isAnswer (f : List String) : Bool := f.head? == some "intro" || f.head? == some "pong"

/-- An introduction. -/
def isInit : Said → Bool
  | .init _ => true
  | _ => false

/-- A ping. -/
def isPing : Said → Bool
  | .ping => true
  | _ => false

/-- The situation of a worker the broker does not know. -/
inductive Unknown (p : Peer) : Prop
  | hello {A B : List Said} {a : Option String} (ho : p.outbox = A ++ .init a :: B)
      (hA : A.countP isInit = 0) (hB : B.countP isInit = 0) (hAp : A.countP isPing = 0)
      (hi : p.inbox.countP isIntro = 0) (he : inEvals p.inbox = [])
      (hj : outDones B ++ p.job.toList = a.toList)
  | asked {X Y : List (List String)} {f : List String} (hi : p.inbox = X ++ f :: Y)
      (hf : isIntro f = true) (hX : X.countP isIntro = 0) (hY : Y.countP isIntro = 0)
      (hYe : inEvals Y = []) (ho : p.outbox.countP isInit = 0) (hop : p.outbox.countP isPing = 0)
      (hj : (p.job.toList ++ inEvals X).length ≤ 1)
  | lost (ho : p.outbox.countP isInit = 0) (hi : p.inbox.countP isIntro = 0)
      (hj : (p.job.toList ++ inEvals p.inbox).length ≤ 1)

/-- The invariant; `v` is the view of the broker on the worker. -/
structure PInv (p : Peer) (v : View) : Prop where
  pings : p.outbox.countP isPing + p.inbox.countP isAnswer = if p.waiting then 1 else 0
  before : p.started = false → p.outbox = [] ∧ p.inbox = [] ∧ p.job = none ∧ v = none
  known : ∀ c, v = some c → p.outbox.countP isInit = 0 ∧ p.inbox.countP isIntro = 0 ∧
    outDones p.outbox ++ p.job.toList ++ inEvals p.inbox = c.toList
  unknown : v = none → Unknown p

theorem inEvals_append (a b : List (List String)) : inEvals (a ++ b) = inEvals a ++ inEvals b := by
  simp [inEvals]

theorem outDones_append (a b : List Said) : outDones (a ++ b) = outDones a ++ outDones b := by
  simp [outDones]

theorem PInv.init : PInv {} none :=
  ⟨rfl, fun _ => ⟨rfl, rfl, rfl, rfl⟩, nofun, fun _ => .lost rfl rfl (by simp [inEvals])⟩

theorem PInv.started {p : Peer} {v : View} (h : PInv p v) (hs : p.started = false) :
    PInv { p with started := true, outbox := p.outbox ++ [.init none] } v := by
  obtain ⟨h1, h2, h3, rfl⟩ := h.before hs
  have hp := h.pings
  refine ⟨?_, nofun, nofun, fun _ => ?_⟩
  · simpa [h1, h2, isPing] using hp
  · exact .hello (A := []) (B := []) (a := none) (by simp [h1]) rfl rfl rfl (by simp [h2])
      (by simp [h2, inEvals]) (by simp [h3, outDones])

theorem PInv.finish {p : Peer} {v : View} (h : PInv p v) {j : String} (hj : p.job = some j)
    (o : Outcome) : PInv { p with job := none, outbox := p.outbox ++ [.done j o] } v := by
  have hd : outDones [Said.done j o] = [j] := rfl
  refine ⟨?_, ?_, ?_, ?_⟩
  · simpa [isPing] using h.pings
  · intro hs
    rw [(h.before hs).2.2.1] at hj
    cases hj
  · intro c hc
    obtain ⟨k1, k2, k3⟩ := h.known c hc
    refine ⟨by simp [k1, isInit], k2, ?_⟩
    rw [hj] at k3
    simpa [outDones_append, hd] using k3
  · intro hv
    cases h.unknown hv with
    | @hello A B a ho hA hB hAp hi he hjj =>
      refine .hello (A := A) (B := B ++ [.done j o]) (a := a) (by simp [ho]) hA
        (by simp [hB, isInit]) hAp hi he ?_
      rw [hj] at hjj
      simpa [outDones_append, hd] using hjj
    | @asked X Y f hi hf hX hY hYe ho hop hjj =>
      refine .asked (X := X) (Y := Y) (f := f) hi hf hX hY hYe (by simp [ho, isInit])
        (by simp [hop, isPing]) ?_
      rw [hj] at hjj
      simp at hjj
      simp [hjj]
    | lost ho hi hjj =>
      refine .lost (by simp [ho, isInit]) hi ?_
      rw [hj] at hjj
      simp at hjj
      simp [hjj]

theorem PInv.ping {p : Peer} {v : View} (h : PInv p v) (hs : p.started = true)
    (hw : p.waiting = false) :
    PInv { p with waiting := true, outbox := p.outbox ++ [.ping] } v := by
  have hp := h.pings
  rw [hw] at hp
  simp only [Bool.false_eq_true, if_false] at hp
  refine ⟨?_, ?_, ?_, ?_⟩
  · simp [isPing]; omega
  · intro h'; rw [hs] at h'; cases h'
  · intro c hc
    obtain ⟨k1, k2, k3⟩ := h.known c hc
    exact ⟨by simp [k1, isInit], k2, by simpa [outDones_append, outDones] using k3⟩
  · intro hv
    cases h.unknown hv with
    | @hello A B a ho hA hB hAp hi he hjj =>
      exact .hello (A := A) (B := B ++ [.ping]) (a := a) (by simp [ho]) hA
        (by simp [hB, isInit]) hAp hi he (by simpa [outDones_append, outDones] using hjj)
    | @asked X Y f hi hf hX hY hYe ho hop hjj =>
      exfalso
      have : isAnswer f = true := by
        simp only [isIntro, beq_iff_eq] at hf
        simp [isAnswer, hf]
      rw [hi, List.countP_append, List.countP_cons_of_pos this] at hp
      omega
    | lost ho hi hjj => exact .lost (by simp [ho, isInit]) hi hjj

theorem PInv.progress {p : Peer} {v : View} (h : PInv p v) (hs : p.started = true)
    (fs : List String) : PInv { p with outbox := p.outbox ++ [.progress fs] } v := by
  refine ⟨?_, ?_, ?_, ?_⟩
  · simpa [isPing] using h.pings
  · intro h'; rw [hs] at h'; cases h'
  · intro c hc
    obtain ⟨k1, k2, k3⟩ := h.known c hc
    exact ⟨by simp [k1, isInit], k2, by simpa [outDones_append, outDones] using k3⟩
  · intro hv
    cases h.unknown hv with
    | @hello A B a ho hA hB hAp hi he hjj =>
      exact .hello (A := A) (B := B ++ [.progress fs]) (a := a) (by simp [ho]) hA
        (by simp [hB, isInit]) hAp hi he (by simpa [outDones_append, outDones] using hjj)
    | @asked X Y f hi hf hX hY hYe ho hop hjj =>
      exact .asked (X := X) (Y := Y) (f := f) hi hf hX hY hYe (by simp [ho, isInit])
        (by simp [hop, isPing]) hjj
    | lost ho hi hjj => exact .lost (by simp [ho, isInit]) hi hjj

/-- The kinds of messages to the worker. -/
theorem frame_kind (f : List String) :
    (∃ j x, f = "eval" :: j :: x) ∨ (∃ x, f = "intro" :: x) ∨ (∃ x, f = "pong" :: x) ∨
    ((∀ p : Peer, p.react f = p) ∧ inEvals [f] = [] ∧ isIntro f = false ∧ isAnswer f = false) := by
  cases f with
  | nil => exact .inr (.inr (.inr ⟨fun _ => rfl, rfl, rfl, rfl⟩))
  | cons c t =>
    by_cases hc : c = "intro"
    · exact .inr (.inl ⟨t, by rw [hc]⟩)
    · by_cases hc2 : c = "pong"
      · exact .inr (.inr (.inl ⟨t, by rw [hc2]⟩))
      · by_cases hc3 : c = "eval"
        · cases t with
          | nil => subst hc3; exact .inr (.inr (.inr ⟨fun _ => rfl, rfl, rfl, rfl⟩))
          | cons j x => exact .inl ⟨j, x, by rw [hc3]⟩
        · refine .inr (.inr (.inr ⟨fun p => ?_, ?_, ?_, ?_⟩))
          · unfold Peer.react
            split
            · simp_all
            · simp_all
            · simp_all
            · rfl
          · simp only [inEvals, List.filterMap_cons, List.filterMap_nil]
            split
            · rfl
            · rename_i h
              split at h
              · simp_all
              · cases h
          · simp [isIntro, hc]
          · simp [isAnswer, hc, hc2]

theorem inEvals_cons (f : List String) (l : List (List String)) :
    inEvals (f :: l) = inEvals [f] ++ inEvals l := inEvals_append [f] l

theorem PInv.read {p : Peer} {v : View} (h : PInv p v) {f : List String}
    {rest : List (List String)} (hi : p.inbox = f :: rest) :
    PInv ({ p with inbox := rest }.react f) v := by
  have hst : p.started = true := by
    cases hs : p.started with
    | true => rfl
    | false => rw [(h.before hs).2.1] at hi; cases hi
  have hp := h.pings
  rw [hi] at hp
  rcases frame_kind f with ⟨j, x, rfl⟩ | ⟨x, rfl⟩ | ⟨x, rfl⟩ | ⟨hr, he, hin, han⟩
  · have e1 : ({ p with inbox := rest } : Peer).react ("eval" :: j :: x) =
        { p with inbox := rest, job := some j } := rfl
    have e2 : ∀ l, inEvals (("eval" :: j :: x) :: l) = j :: inEvals l := fun l => rfl
    rw [e1]
    refine ⟨?_, ?_, ?_, ?_⟩
    · simpa [isAnswer] using hp
    · intro h'; rw [show p.started = false from h'] at hst; cases hst
    · intro c hc
      obtain ⟨k1, k2, k3⟩ := h.known c hc
      rw [hi] at k2 k3
      refine ⟨k1, by simpa [isIntro] using k2, ?_⟩
      rw [e2] at k3
      have hl := congrArg List.length k3
      have hj : p.job = none := by
        cases hj : p.job with
        | none => rfl
        | some j' => rw [hj] at hl; cases c <;> simp at hl; omega
      rw [hj] at k3
      simpa using k3
    · intro hv
      cases h.unknown hv with
      | @hello A B a ho hA hB hAp hii hee hjj =>
        rw [hi, e2] at hee
        cases hee
      | @asked X Y f hii hf hX hY hYe ho hop hjj =>
        cases X with
        | nil =>
          rw [hi] at hii
          simp at hii
          rw [← hii.1] at hf
          simp [isIntro] at hf
        | cons f' X =>
          rw [hi] at hii
          simp at hii
          obtain ⟨rfl, rfl⟩ := hii
          rw [e2] at hjj
          refine .asked (X := X) (Y := Y) (f := f) rfl hf (by simpa [isIntro] using hX) hY hYe ho hop ?_
          rw [List.length_append, List.length_cons] at hjj
          show ([j] ++ inEvals X).length ≤ 1
          rw [List.length_append, List.length_singleton]
          omega
      | lost ho hii hjj =>
        rw [hi] at hii
        rw [hi, e2] at hjj
        refine .lost ho (by simpa [isIntro] using hii) ?_
        rw [List.length_append, List.length_cons] at hjj
        show ([j] ++ inEvals rest).length ≤ 1
        rw [List.length_append, List.length_singleton]
        omega
  · have e1 : ({ p with inbox := rest } : Peer).react ("intro" :: x) =
        { p with inbox := rest, waiting := false, outbox := p.outbox ++ [.init p.job] } := rfl
    rw [e1]
    have hii : isIntro ("intro" :: x) = true := rfl
    cases v with
    | some c =>
      obtain ⟨_, k2, _⟩ := h.known c rfl
      rw [hi, List.countP_cons_of_pos hii] at k2
      omega
    | none =>
      refine ⟨?_, ?_, nofun, fun _ => ?_⟩
      · rw [List.countP_cons_of_pos (by rfl)] at hp
        have : p.outbox.countP isPing + rest.countP isAnswer = 0 := by
          split at hp <;> omega
        show (p.outbox ++ [Said.init p.job]).countP isPing + rest.countP isAnswer = 0
        rw [List.countP_append, List.countP_cons_of_neg (by simp [isPing]), List.countP_nil]
        exact this
      · intro h'; rw [show p.started = false from h'] at hst; cases hst
      · cases h.unknown rfl with
        | @hello A B a ho hA hB hAp hii' hee hjj =>
          rw [hi, List.countP_cons_of_pos hii] at hii'
          omega
        | lost ho hii' hjj =>
          rw [hi, List.countP_cons_of_pos hii] at hii'
          omega
        | @asked X Y f hii' hf hX hY hYe ho hop hjj =>
          cases X with
          | cons f' X =>
            rw [hi] at hii'
            simp at hii'
            obtain ⟨rfl, rfl⟩ := hii'
            rw [List.countP_cons_of_pos hii] at hX
            omega
          | nil =>
            rw [hi] at hii'
            simp at hii'
            obtain ⟨rfl, rfl⟩ := hii'
            exact .hello (A := p.outbox) (B := []) (a := p.job) rfl ho rfl hop hY hYe
              (by simp [outDones])
  · have e1 : ({ p with inbox := rest } : Peer).react ("pong" :: x) =
        { p with inbox := rest, waiting := false } := rfl
    rw [e1]
    have e2 : ∀ l, inEvals (("pong" :: x) :: l) = inEvals l := fun l => rfl
    have e3 : ∀ l : List (List String), (("pong" :: x) :: l).countP isIntro = l.countP isIntro :=
      fun l => List.countP_cons_of_neg (by simp [isIntro])
    refine ⟨?_, ?_, ?_, ?_⟩
    · rw [List.countP_cons_of_pos (by rfl)] at hp
      have : p.outbox.countP isPing + rest.countP isAnswer = 0 := by
        split at hp <;> omega
      exact this
    · intro h'; rw [show p.started = false from h'] at hst; cases hst
    · intro c hc
      obtain ⟨k1, k2, k3⟩ := h.known c hc
      rw [hi] at k2 k3
      exact ⟨k1, by rw [e3] at k2; exact k2, by rw [e2] at k3; exact k3⟩
    · intro hv
      cases h.unknown hv with
      | @hello A B a ho hA hB hAp hii hee hjj =>
        rw [hi] at hii hee
        exact .hello ho hA hB hAp (by rw [e3] at hii; exact hii) (by rw [e2] at hee; exact hee) hjj
      | @asked X Y f hii hf hX hY hYe ho hop hjj =>
        cases X with
        | nil =>
          rw [hi] at hii
          simp at hii
          rw [← hii.1] at hf
          simp [isIntro] at hf
        | cons f' X =>
          rw [hi] at hii
          simp at hii
          obtain ⟨rfl, rfl⟩ := hii
          exact .asked (X := X) (Y := Y) (f := f) rfl hf (by rw [e3] at hX; exact hX) hY hYe ho hop
            (by rw [e2] at hjj; exact hjj)
      | lost ho hii hjj =>
        rw [hi] at hii hjj
        exact .lost ho (by rw [e3] at hii; exact hii) (by rw [e2] at hjj; exact hjj)
  · rw [hr]
    have e2 : ∀ l, inEvals (f :: l) = inEvals l := fun l => by rw [inEvals_cons, he]; rfl
    have e3 : ∀ l : List (List String), (f :: l).countP isIntro = l.countP isIntro :=
      fun l => List.countP_cons_of_neg (by simp [hin])
    refine ⟨?_, ?_, ?_, ?_⟩
    · rw [List.countP_cons_of_neg (by simp [han])] at hp
      exact hp
    · intro h'; rw [show p.started = false from h'] at hst; cases hst
    · intro c hc
      obtain ⟨k1, k2, k3⟩ := h.known c hc
      rw [hi] at k2 k3
      exact ⟨k1, by rw [e3] at k2; exact k2, by rw [e2] at k3; exact k3⟩
    · intro hv
      cases h.unknown hv with
      | @hello A B a ho hA hB hAp hii hee hjj =>
        rw [hi] at hii hee
        exact .hello ho hA hB hAp (by rw [e3] at hii; exact hii) (by rw [e2] at hee; exact hee) hjj
      | @asked X Y f' hii hf hX hY hYe ho hop hjj =>
        cases X with
        | nil =>
          rw [hi] at hii
          simp at hii
          rw [← hii.1, hin] at hf
          cases hf
        | cons f'' X =>
          rw [hi] at hii
          simp at hii
          obtain ⟨rfl, rfl⟩ := hii
          exact .asked (X := X) (Y := Y) (f := f') rfl hf (by rw [e3] at hX; exact hX) hY hYe ho hop
            (by rw [e2] at hjj; exact hjj)
      | lost ho hii hjj =>
        rw [hi] at hii hjj
        exact .lost ho (by rw [e3] at hii; exact hii) (by rw [e2] at hjj; exact hjj)

/-- Something the broker does on its own. -/
theorem PInv.recv {p : Peer} {v v' : View} {sent : List (List String)} (h : PInv p v)
    (ht : Tamed v sent v') : PInv { p with inbox := p.inbox ++ sent } v' := by
  rcases ht with ⟨rfl, h1⟩ | ⟨rfl, j, x, rfl, h1⟩
  · have e : ({ p with inbox := p.inbox ++ [] } : Peer) = p := by simp
    rw [e]
    rcases h1 with rfl | rfl
    · exact h
    · cases v with
      | none => exact h
      | some c =>
        obtain ⟨k1, k2, k3⟩ := h.known c rfl
        refine ⟨h.pings, fun hs => ?_, nofun, fun _ => .lost k1 k2 ?_⟩
        · have := (h.before hs).2.2.2; cases this
        · have := congrArg List.length k3
          rw [List.length_append, List.length_append] at this
          rw [List.length_append]
          have hc : c.toList.length ≤ 1 := by cases c <;> simp
          omega
  · obtain ⟨k1, k2, k3⟩ := h.known none rfl
    have k4 : outDones p.outbox = [] ∧ p.job = none ∧ inEvals p.inbox = [] := by
      simp at k3
      exact ⟨k3.1, by simpa using k3.2.1, k3.2.2⟩
    have e2 : inEvals (p.inbox ++ ["eval" :: j :: x]) = [j] := by
      rw [inEvals_append, k4.2.2]; rfl
    have hp : p.outbox.countP isPing + (p.inbox ++ ["eval" :: j :: x]).countP isAnswer =
        if p.waiting then 1 else 0 := by
      simpa [isAnswer] using h.pings
    have hb : p.started = false → False := fun hs => by
      have := (h.before hs).2.2.2; cases this
    rcases h1 with rfl | rfl
    · refine ⟨hp, fun hs => (hb hs).elim, ?_, nofun⟩
      intro c hc
      cases hc
      refine ⟨k1, by simpa [isIntro] using k2, ?_⟩
      show outDones p.outbox ++ p.job.toList ++ inEvals (p.inbox ++ ["eval" :: j :: x]) = [j]
      rw [e2, k4.1, k4.2.1]; rfl
    · refine ⟨hp, fun hs => (hb hs).elim, nofun, fun _ => .lost k1 (by simpa [isIntro] using k2) ?_⟩
      show (p.job.toList ++ inEvals (p.inbox ++ ["eval" :: j :: x])).length ≤ 1
      rw [e2, k4.2.1]; simp

/-- The broker ignores or merely relays the first message of the worker. -/
theorem PInv.skip {p : Peer} {v : View} {x : Said} {rest : List Said} (h : PInv p v)
    (ho : p.outbox = x :: rest) (h1 : isPing x = false) (h2 : isInit x = false)
    (h3 : v ≠ none → outDones [x] = []) : PInv { p with outbox := rest } v := by
  have e1 : ∀ l : List Said, (x :: l).countP isPing = l.countP isPing :=
    fun l => List.countP_cons_of_neg (by simp [h1])
  have e2 : ∀ l : List Said, (x :: l).countP isInit = l.countP isInit :=
    fun l => List.countP_cons_of_neg (by simp [h2])
  refine ⟨?_, ?_, ?_, ?_⟩
  · have := h.pings
    rw [ho, e1] at this
    exact this
  · intro hs
    have := (h.before hs).1
    rw [ho] at this
    cases this
  · intro c hc
    obtain ⟨k1, k2, k3⟩ := h.known c hc
    rw [ho, e2] at k1
    rw [ho, show x :: rest = [x] ++ rest from rfl, outDones_append, h3 (by simp [hc])] at k3
    exact ⟨k1, k2, by simpa using k3⟩
  · intro hv
    cases h.unknown hv with
    | @hello A B a ho' hA hB hAp hii hee hjj =>
      cases A with
      | nil =>
        rw [ho] at ho'
        simp at ho'
        rw [ho'.1] at h2
        cases h2
      | cons y A =>
        rw [ho] at ho'
        simp at ho'
        obtain ⟨rfl, rfl⟩ := ho'
        exact .hello (A := A) (B := B) (a := a) rfl (by rw [e2] at hA; exact hA) hB
          (by rw [e1] at hAp; exact hAp) hii hee hjj
    | @asked X Y f hii hf hX hY hYe ho' hop hjj =>
      rw [ho] at ho' hop
      exact .asked hii hf hX hY hYe (by rw [e2] at ho'; exact ho') (by rw [e1] at hop; exact hop) hjj
    | lost ho' hii hjj =>
      rw [ho] at ho'
      exact .lost (by rw [e2] at ho'; exact ho') hii hjj

/-- A report of a known worker is about the job the broker expects. -/
theorem PInv.report {p : Peer} {c : Option String} {j : String} {o : Outcome} {rest : List Said}
    (h : PInv p (some c)) (ho : p.outbox = .done j o :: rest) :
    c = some j ∧ PInv { p with outbox := rest } (some none) := by
  obtain ⟨k1, k2, k3⟩ := h.known c rfl
  rw [ho] at k1 k3
  have e : outDones (Said.done j o :: rest) = j :: outDones rest := rfl
  rw [e] at k3
  cases c with
  | none => simp at k3
  | some j' =>
    simp at k3
    obtain ⟨rfl, k3⟩ := k3
    refine ⟨rfl, ?_, ?_, ?_, nofun⟩
    · have := h.pings
      rw [ho] at this
      simpa [isPing] using this
    · intro hs
      have := (h.before hs).1
      rw [ho] at this
      cases this
    · intro c hc
      cases hc
      refine ⟨by simpa [isInit] using k1, k2, ?_⟩
      simpa using k3

/-- The answer to a ping. -/
theorem PInv.answer {p : Peer} {v : View} {rest : List Said} (h : PInv p v)
    (ho : p.outbox = .ping :: rest) :
    PInv { p with outbox := rest,
                  inbox := p.inbox ++ [[if v = none then "intro" else "pong"]] } v := by
  have e2 : ∀ l : List Said, (Said.ping :: l).countP isInit = l.countP isInit :=
    fun l => List.countP_cons_of_neg (by simp [isInit])
  have hp := h.pings
  rw [ho, List.countP_cons_of_pos (by rfl)] at hp
  have hp0 : rest.countP isPing = 0 ∧ p.inbox.countP isAnswer = 0 ∧ p.waiting = true := by
    split at hp
    · rename_i hw; exact ⟨by omega, by omega, hw⟩
    · omega
  have hb : p.started = false → False := fun hs => by
    have := (h.before hs).1; rw [ho] at this; cases this
  refine ⟨?_, fun hs => (hb hs).elim, ?_, ?_⟩
  · rw [hp0.2.2]
    show rest.countP isPing + (p.inbox ++ _).countP isAnswer = _
    rw [List.countP_append, hp0.1, hp0.2.1]
    cases v <;> simp [isAnswer]
  · intro c hc
    subst hc
    obtain ⟨k1, k2, k3⟩ := h.known c rfl
    rw [ho, e2] at k1
    rw [ho] at k3
    refine ⟨k1, by simpa [isIntro] using k2, ?_⟩
    show outDones rest ++ p.job.toList ++ inEvals (p.inbox ++ _) = _
    rw [inEvals_append]
    have e3 : outDones (Said.ping :: rest) = outDones rest := rfl
    rw [e3] at k3
    rw [← k3]
    simp [inEvals]
  · intro hv
    subst hv
    cases h.unknown rfl with
    | @hello A B a ho' hA hB hAp hii hee hjj =>
      cases A with
      | nil => rw [ho] at ho'; simp at ho'
      | cons y A =>
        rw [ho] at ho'
        simp at ho'
        rw [← ho'.1, List.countP_cons_of_pos (by rfl)] at hAp
        omega
    | @asked X Y f hii hf hX hY hYe ho' hop hjj =>
      rw [ho, List.countP_cons_of_pos (by rfl)] at hop
      omega
    | lost ho' hii hjj =>
      rw [ho, e2] at ho'
      exact .asked (X := p.inbox) (Y := []) (f := ["intro"]) rfl rfl hii rfl rfl ho' hp0.1 hjj

/-- The broker learns about the worker. -/
theorem PInv.hello {p : Peer} {a : Option String} {rest : List Said} (h : PInv p none)
    (ho : p.outbox = .init a :: rest) :
    PInv { p with outbox := rest } (some a) := by
  have e1 : ∀ l : List Said, (Said.init a :: l).countP isInit = l.countP isInit + 1 :=
    fun l => List.countP_cons_of_pos (by rfl)
  have hp := h.pings
  rw [ho, List.countP_cons_of_neg (by simp [isPing])] at hp
  have hb : p.started = false → False := fun hs => by
    have := (h.before hs).1; rw [ho] at this; cases this
  refine ⟨hp, fun hs => (hb hs).elim, ?_, nofun⟩
  intro c hc
  cases hc
  cases h.unknown rfl with
  | @hello A B a' ho' hA hB hAp hii hee hjj =>
    cases A with
    | nil =>
      rw [ho] at ho'
      simp at ho'
      obtain ⟨rfl, rfl⟩ := ho'
      refine ⟨hB, hii, ?_⟩
      show outDones rest ++ p.job.toList ++ inEvals p.inbox = _
      rw [hee, hjj]; simp
    | cons y A =>
      rw [ho] at ho'
      simp at ho'
      rw [← ho'.1, e1] at hA
      omega
  | @asked X Y f hii hf hX hY hYe ho' hop hjj => rw [ho, e1] at ho'; omega
  | lost ho' hii hjj => rw [ho, e1] at ho'; omega

/-- A known worker does not introduce itself. -/
theorem PInv.no_init {p : Peer} {v : View} {a : Option String} {rest : List Said} (h : PInv p v)
    (ho : p.outbox = .init a :: rest) : v = none := by
  cases v with
  | none => rfl
  | some c =>
    have := (h.known c rfl).1
    rw [ho, List.countP_cons_of_pos (by rfl)] at this
    omega

/-! ## The world -/

theorem dropWhile_prefix {α : Type} {p : α → Bool} {l : List α} (h : ∀ x ∈ l, p x = true)
    (r : List α) : (l ++ r).dropWhile p = r.dropWhile p := by
  induction l with
  | nil => rfl
  | cons a t ih =>
    rw [List.cons_append, List.dropWhile_cons, if_pos (h a (by simp))]
    exact ih (fun x hx => h x (by simp [hx]))

theorem currentJob_none (me : Me) : currentJob (me.frames (.init none)) = none := by
  have : (me.headers.dropWhile (· != "")) = [] := by
    have := dropWhile_prefix (p := (· != "")) (l := me.headers) (by
      intro f hf
      simp only [bne_iff_ne, ne_eq]
      rintro rfl
      exact me.nonempty hf) []
    simpa using this
  show Option.map _ ((me.headers.dropWhile (· != "")).filter _).getLast? = none
  rw [this]; rfl

theorem currentJob_some (me : Me) (j : String) :
    currentJob (me.frames (.init (some j))) = some j := by
  have h1 : frameKey ("current_job=" ++ j) = "current_job" := by
    unfold frameKey
    rw [String.toList_append]
    rfl
  have h2 : frameValue ("current_job=" ++ j) = j := by
    unfold frameValue
    rw [String.toList_append]
    show String.ofList j.toList = j
    simp
  show Option.map _ (((me.headers ++ ["", "current_job=" ++ j]).dropWhile (· != "")).filter _).getLast? = _
  rw [dropWhile_prefix (by
    intro f hf
    simp only [bne_iff_ne, ne_eq]
    rintro rfl
    exact me.nonempty hf)]
  have h3 : frameKey "" ≠ "current_job" := by decide
  simp [h1, h2, h3]

theorem currentJob_init (me : Me) (a : Option String) : currentJob (me.frames (.init a)) = a := by
  cases a
  · exact currentJob_none me
  · exact currentJob_some me _

theorem forPeer_eq (i : String) (os : List Msg) : forPeer i os = toWorker i os := rfl

/-- The invariant of the world. -/
def WInv (cfg : HConfig) (env : Env) (me : Me) (w : World Q) : Prop :=
  (∃ h, Run cfg env h w.broker) ∧ ∃ v, LView (ls w.broker 0) me.identity v ∧ PInv w.peer v

/-- Messages that are neither invitations nor evaluations nor answers change nothing. -/
theorem PInv.noise {p : Peer} {v : View} (h : PInv p v) (hst : p.started = true) (a : List (List String))
    (ha : a = [] ∨ a = [[]]) : PInv { p with inbox := p.inbox ++ a } v := by
  rcases ha with rfl | rfl
  · simpa using h
  · refine ⟨by simpa [isAnswer] using h.pings, ?_, ?_, ?_⟩
    · intro hs
      rw [show p.started = false from hs] at hst
      cases hst
    · intro c hc
      obtain ⟨k1, k2, k3⟩ := h.known c hc
      exact ⟨k1, by simpa [isIntro] using k2, by simpa [inEvals_append, inEvals] using k3⟩
    · intro hv
      cases h.unknown hv with
      | hello ho hA hB hAp hi he hj =>
        exact .hello ho hA hB hAp (by simpa [isIntro] using hi) (by simpa [inEvals_append, inEvals] using he) hj
      | @asked X Y f hi hf hX hY hYe ho hop hj =>
        exact .asked (X := X) (Y := Y ++ [[]]) (f := f) (by simp [hi]) hf hX
          (by simpa [isIntro] using hY) (by simpa [inEvals_append, inEvals] using hYe) ho hop hj
      | lost ho hi hj =>
        exact .lost ho (by simpa [isIntro] using hi) (by simpa [inEvals_append, inEvals] using hj)

theorem PInv.running {p : Peer} {v : View} (h : PInv p v) {x : Said} {rest : List Said}
    (ho : p.outbox = x :: rest) : p.started = true := by
  cases hs : p.started with
  | true => rfl
  | false => rw [(h.before hs).1] at ho; cases ho

theorem done_status (me : Me) (j : String) (o : Outcome) :
    ∃ st rest, me.frames (.done j o) = "done" :: j :: st :: rest ∧
      (st = "OK" ∨ (st = "FAILED" ∨ st = "INTERNAL_ERROR") ∧ rest.length = 1) := by
  cases o with
  | ok => exact ⟨"OK", [], rfl, .inl rfl⟩
  | failed t => exact ⟨"FAILED", [t], rfl, .inr ⟨.inl rfl, rfl⟩⟩
  | internal t => exact ⟨"INTERNAL_ERROR", [t], rfl, .inr ⟨.inr rfl, rfl⟩⟩

theorem init_frames (me : Me) (a : Option String) :
    ∃ rest, me.frames (.init a) = "init" :: me.group :: rest := by
  cases a <;> exact ⟨_, rfl⟩

theorem WInv.step {cfg : HConfig} {env : Env} {me : Me} {w w' : World Q} (h : WInv cfg env me w)
    (hs : WStep cfg env me true w w') : WInv cfg env me w' := by
  obtain ⟨⟨hist, hr⟩, v, hv, hp⟩ := h
  cases hs with
  | own ho =>
    refine ⟨⟨hist, hr⟩, v, hv, ?_⟩
    cases ho with
    | start hst => exact hp.started hst
    | read hi => exact hp.read hi
    | finish hj o => exact hp.finish hj o
    | ping hst hw => exact hp.ping hst (hw rfl)
    | progress hst fs => exact hp.progress hst fs
  | other hm hs =>
    obtain ⟨v', hv', ht⟩ := view_other hr hs hm hv
    exact ⟨⟨_, .snoc hr hs⟩, v', hv', hp.recv ht⟩
  | @handle b b' p x rest ho hs =>
    refine ⟨⟨_, .snoc hr hs⟩, ?_⟩
    cases x with
    | ping =>
      obtain ⟨h1, h2⟩ := view_ping hr hs hv
      refine ⟨v, h1, ?_⟩
      show PInv { p with outbox := rest, inbox := p.inbox ++ toWorker me.identity b'.outs } v
      rw [h2]
      exact hp.answer ho
    | progress fs =>
      obtain ⟨h1, h2⟩ := view_progress hr hs hv
      refine ⟨v, h1, ?_⟩
      show PInv { p with outbox := rest, inbox := p.inbox ++ toWorker me.identity b'.outs } v
      rw [h2]
      have := hp.skip ho rfl rfl (fun _ => rfl)
      simpa using this
    | done j o =>
      obtain ⟨st, r, hf, hst⟩ := done_status me j o
      have hs' := hs
      rw [Me.msg, hf] at hs'
      cases v with
      | none =>
        obtain ⟨v', h1, h2, _⟩ := view_done hr hs' hst hv (.inl rfl)
        obtain ⟨rfl, h3⟩ := h2 rfl
        refine ⟨none, h1, ?_⟩
        show PInv { p with outbox := rest, inbox := p.inbox ++ toWorker me.identity b'.outs } none
        rw [h3]
        have := hp.skip ho rfl rfl (fun h => absurd rfl h)
        simpa using this
      | some c =>
        obtain ⟨rfl, hp'⟩ := hp.report ho
        obtain ⟨v', h1, _, h2⟩ := view_done hr hs' hst hv (.inr rfl)
        exact ⟨v', h1, hp'.recv (h2 rfl)⟩
    | init a =>
      have hvn := hp.no_init ho
      subst hvn
      obtain ⟨r, hf⟩ := init_frames me a
      have hs' := hs
      rw [Me.msg, hf] at hs'
      have hj := currentJob_init me a
      rw [hf] at hj
      have hh := hp.hello ho
      rcases view_init hr hs' hv with ⟨h1, h2⟩ | ⟨h1, j, x, h2, h3⟩
      · rw [hj] at h1
        refine ⟨some a, h1, ?_⟩
        exact hh.noise (hp.running ho) _ h2
      · rw [hj] at h1
        subst h1
        refine ⟨_, h2, ?_⟩
        show PInv { p with outbox := rest, inbox := p.inbox ++ toWorker me.identity b'.outs } _
        rw [h3]
        exact hh.recv (.inr ⟨rfl, j, x, rfl, .inl rfl⟩)

theorem Spec.Reached.inv {cfg : HConfig} {env : Env} {me : Me} {w : World Q}
    (h : Reached cfg env me true w) : WInv cfg env me w := by
  induction h with
  | start => exact ⟨⟨[], .nil⟩, none, LView.init _, PInv.init⟩
  | step _ hs ih => exact ih.step hs

/-! ## Deployments -/

/-- Every worker of a deployment lives in a world of its own. -/
theorem Spec.Deployed.world {cfg : HConfig} {env : Env} {mes : String → Me} {patient : Bool}
    (hid : ∀ i, (mes i).identity = i) {hist : List (Tr Q)} {d : Deployment Q}
    (h : Deployed cfg env mes patient hist d)
    (k : String) : Reached cfg env (mes k) patient ⟨d.broker, d.peers k⟩ := by
  induction h with
  | start => exact .start
  | step _ hs ih =>
    cases hs with
    | own i ho =>
      by_cases hk : k = i
      · subst hk
        simp only [if_pos]
        exact ih.step (.own ho)
      · simp only [if_neg hk]
        exact ih
    | @handle b b' ps x rest i ho hs =>
      by_cases hk : k = i
      · subst hk
        simp only [if_pos]
        have := ih.step (.handle ho hs)
        rw [hid] at this
        exact this
      · simp only [if_neg hk]
        have := ih.step (.other (m := (mes i).msg x) (by
          rintro ⟨_, h⟩
          have h : (mes i).identity = (mes k).identity := h
          rw [hid, hid] at h
          exact hk h.symm) hs)
        rw [hid] at this
        exact this
    | @other b b' ps m hm hs =>
      have := ih.step (.other (m := m) (fun h => hm h.1) hs)
      rw [hid] at this
      exact this

end Broker
