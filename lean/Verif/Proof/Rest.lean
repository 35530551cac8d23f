import Verif.Proof.Peer
import Verif.Proof.Potential
import Verif.Spec.Rest
import Mathlib.Algebra.BigOperators.Group.Finset.Basic
import Mathlib.Algebra.BigOperators.Group.Finset.Piecewise
import Mathlib.Algebra.Order.BigOperators.Group.Finset

/-! # Work comes to an end -/

set_option linter.unusedSectionVars false
set_option linter.unusedSimpArgs false

namespace Broker

open QueueManager LawfulQM Spec

variable {Q : Type} [QueueManager Q] [LawfulQM Q]

/-! ## The broker -/

/-- Weight of a message to a worker. -/
def inWeight (f : List String) : Nat := if f = [] then 1 else 3

/-- Weight of a message from a worker. -/
def outWeight : Said → Nat
  | .init _ => 2
  | .done _ _ => 1
  | .ping => 4
  | .progress _ => 1

/-- Weight of a worker. -/
def peerWeight (p : Peer) : Nat :=
  (p.inbox.map inWeight).sum + (p.outbox.map outWeight).sum + (if p.job = none then 0 else 2)

/-- Weight of the requests held by the broker: how often they may still be given to workers. -/
def workW (M : Nat) : Weights where
  b n r := if r.complete = true then 3 * (max 1 M - 1 - n) else 0
  q n r := if r.complete = true then 3 * (max 1 M - n) else 0
  h n r := if r.complete = true then 3 * (max 1 M - n) else 0

/-- Weight of the messages to workers among some messages. -/
def sentWeight (ms : List Msg) : Nat :=
  ((ms.filter (fun m => m.key == "workers")).map (fun m => inWeight m.data)).sum

def workCost (e : Ev) : Nat := sentWeight e.msgs

/-- What an event is granted. -/
def workGain (M : Nat) : Ev → Nat
  | .say m => sentWeight [m]
  | .resend _ _ => 1
  | .accept _ => 3 * max 1 M
  | _ => 0

theorem inWeight_le (f : List String) : inWeight f ≤ 3 := by
  unfold inWeight; split <;> omega

theorem sent_send (w : Worker) (r : Req) : sentWeight [sendMsg w r] = inWeight r.frames := by
  simp [sentWeight, sendMsg, keyWorkers]

theorem workLaws {M : Nat} (hM : M < SZ) : WLaws M (workW M) workCost (workGain M) where
  say m := Nat.le_refl _
  drop := Nat.le_refl _
  accept r hc := by simp [workW, workCost, workGain, Ev.msgs, sentWeight, hc]
  register0 w := Nat.le_refl _
  register w r hc := by simp [workW, workCost, workGain, Ev.msgs, sentWeight, hc]
  send w r n hc hn := by
    simp only [workW, workCost, workGain, Ev.msgs, sent_send, hc, if_true]
    have := inWeight_le r.frames
    omega
  park r n hc hn := by simp [workW, workCost, workGain, Ev.msgs, sentWeight, hc]
  pull w r n hc hn := by
    simp only [workW, workCost, workGain, Ev.msgs, sent_send, hc, if_true]
    have := inWeight_le r.frames
    omega
  resend w r hc hf := by
    simp only [workCost, workGain, Ev.msgs, sent_send, hf]
    exact Nat.le_refl _
  done w r n hn := by simp [workCost, Ev.msgs, sentWeight, okMsg, keyNotifier]
  failed w r t n hn := by simp [workCost, Ev.msgs, sentWeight, failMsg, keyNotifier]
  cancel w r n hn := by
    simp only [workW, workCost, workGain, Ev.msgs]
    by_cases hc : r.complete = true
    · have := szInc_le_max hM (hn hc)
      simp only [hc, if_true, sentWeight, List.filter_nil, List.map_nil, List.sum_nil]
      omega
    · simp [hc, sentWeight]
  expireCur r n hn := by
    simp only [workW]
    by_cases hc : r.complete = true
    · have := szInc_le_max hM (hn hc)
      simp only [hc, if_true]
      omega
    · simp [hc]
  expireQue r n hc hn := Nat.le_refl _
  expire w c q := Nat.le_refl _
  giveUp r t n hn := by simp [workCost, Ev.msgs, sentWeight, failMsg, keyNotifier]

/-- Weight of the broker. -/
def brokerWeight (cfg : HConfig) (s : HState Q) : Nat := pot (workW cfg.maxFailures) (ls s 0)

theorem sentWeight_append (a b : List Msg) : sentWeight (a ++ b) = sentWeight a + sentWeight b := by
  simp [sentWeight]

theorem sentWeight_msgsOf (evs : List Ev) : sentWeight (msgsOf evs) = (evs.map workCost).sum := by
  induction evs with
  | nil => rfl
  | cons e t ih => rw [msgsOf_cons, sentWeight_append, ih]; rfl

/-- Messages of workers pay for what they cause. -/
theorem work_paid {cfg : HConfig} {env : Env} {h : List (Tr Q)} {s s' : HState Q} {me : Me}
    {x : Said} (hr : Run cfg env h s) (hs : step cfg env (me.msg x) s = .ok () s') :
    brokerWeight cfg s' + sentWeight s'.outs < brokerWeight cfg s + outWeight x := by
  obtain ⟨evs, hi⟩ := step_info hr.inv.1 hs
  have h1 := hi.steps.pot cfg.maxFailures_lt (workLaws cfg.maxFailures_lt) hr.inv.2
  rw [hi.outs, sentWeight_msgsOf]
  have h2 : (evs.map (workGain cfg.maxFailures)).sum < outWeight x := by
    have reg : ∀ {w : Worker} {cur : Option Req} {evs : List Ev}, RegScript w cur evs →
        (evs.map (workGain cfg.maxFailures)).sum ≤ 1 := by
      intro w cur evs h
      cases h <;> simp [workGain]
    cases hi.script with
    | init hk hd h =>
      have hx : outWeight x = 2 := by
        rcases x with (_ | a) | ⟨j, o⟩ | _ | fs
        · rfl
        · rfl
        · rcases o with _ | _ | _ <;> simp [Me.msg, Me.frames] at hd
        · simp [Me.msg, Me.frames] at hd
        · simp [Me.msg, Me.frames] at hd
      rw [hx]
      cases h with
      | short => simp
      | same => simp
      | fresh hm hw hn hf hr => have := reg hr; omega
      | again hm hw hne hn hf hr =>
        have := reg hr
        simp only [List.map_cons, List.sum_cons]
        have : ∀ a b, workGain cfg.maxFailures (.say ⟨keyNotifier, a, b⟩) = 0 := by
          simp [workGain, sentWeight, keyNotifier]
        rw [this]
        omega
    | done hk hd h =>
      have hx : 0 < outWeight x := by cases x <;> simp [outWeight]
      refine Nat.lt_of_le_of_lt (Nat.le_of_eq ?_) hx
      have nx : ∀ {w : Worker} {t : List Ev}, Next w t →
          (t.map (workGain cfg.maxFailures)).sum = 0 := by
        intro w t h
        cases h <;> simp [workGain]
      cases h with
      | unknown => simp
      | short => simp
      | stale => simp
      | report hw hm hb hj hf hd =>
        cases hd with
        | ok _ ht _ => simpa [workGain] using nx ht
        | failed _ _ ht _ => simpa [workGain] using nx ht
        | exhausted _ _ _ _ ht _ =>
          simpa [workGain, sentWeight, monMsg, keyMonitor] using nx ht
        | _ => simp [workGain]
    | ping hk hd h =>
      have hx : outWeight x = 4 := by
        rcases x with (_ | a) | ⟨j, o⟩ | _ | fs
        · simp [Me.msg, Me.frames] at hd
        · simp [Me.msg, Me.frames] at hd
        · rcases o with _ | _ | _ <;> simp [Me.msg, Me.frames] at hd
        · rfl
        · simp [Me.msg, Me.frames] at hd
      rw [hx]
      simp only [List.map_cons, List.map_nil, List.sum_cons, List.sum_nil, workGain, sentWeight]
      simp [keyWorkers, inWeight]
    | progress hk hd h =>
      have hx : 0 < outWeight x := by cases x <;> simp [outWeight]
      simpa [workGain, sentWeight, keyMonitor] using hx
    | workerUnknown hk hd hc h =>
      have hx : 0 < outWeight x := by cases x <;> simp [outWeight]
      simpa using hx
    | eval hk => exact absurd hk keyC
    | stats hk => exact absurd hk keyC
    | freeze hk => exact absurd hk keyC
    | unfreeze hk => exact absurd hk keyC
    | clientUnknown hk => exact absurd hk keyC
    | timer hk => exact absurd hk keyT
    | other hk => exact absurd rfl hk.1
  unfold brokerWeight
  omega

/-! ## The deployment -/

/-- The weight of the messages a set of workers receives. -/
theorem sum_forPeer (S : Finset String) (os : List Msg) :
    ∑ k ∈ S, ((forPeer k os).map inWeight).sum ≤ sentWeight os := by
  induction os with
  | nil => simp [forPeer, sentWeight]
  | cons m t ih =>
    have e : ∀ k, ((forPeer k (m :: t)).map inWeight).sum =
        (if m.key = "workers" ∧ m.identity = k then inWeight m.data else 0) +
          ((forPeer k t).map inWeight).sum := by
      intro k
      by_cases h1 : m.key = "workers" <;> by_cases h2 : m.identity = k <;> simp [forPeer, h1, h2]
    rw [Finset.sum_congr rfl (fun k _ => e k), Finset.sum_add_distrib]
    have : sentWeight (m :: t) =
        (if m.key = "workers" then inWeight m.data else 0) + sentWeight t := by
      by_cases h1 : m.key = "workers" <;> simp [sentWeight, h1]
    rw [this]
    refine Nat.add_le_add ?_ ih
    by_cases h1 : m.key = "workers"
    · simp only [h1, true_and, if_true]
      rw [Finset.sum_ite_eq]
      split <;> omega
    · simp [h1]

/-- The weight of a deployment. -/
def Weighs (cfg : HConfig) (d : Deployment Q) (n : Nat) : Prop :=
  ∃ S : Finset String, (∀ i ∉ S, peerWeight (d.peers i) = 0) ∧
    n = brokerWeight cfg d.broker + ∑ i ∈ S, peerWeight (d.peers i)

theorem Weighs.grow {cfg : HConfig} {d : Deployment Q} {n : Nat} {S : Finset String}
    (h0 : ∀ i ∉ S, peerWeight (d.peers i) = 0)
    (hn : n = brokerWeight cfg d.broker + ∑ i ∈ S, peerWeight (d.peers i)) (T : Finset String) :
    (∀ i ∉ S ∪ T, peerWeight (d.peers i) = 0) ∧
      n = brokerWeight cfg d.broker + ∑ i ∈ S ∪ T, peerWeight (d.peers i) := by
  refine ⟨fun i hi => h0 i (fun h => hi (Finset.mem_union_left _ h)), ?_⟩
  rw [hn]
  congr 1
  exact Finset.sum_subset Finset.subset_union_left (fun i _ hi => h0 i hi)

theorem peerWeight_recv (p : Peer) (fs : List (List String)) :
    peerWeight { p with inbox := p.inbox ++ fs } = peerWeight p + (fs.map inWeight).sum := by
  simp only [peerWeight, List.map_append, List.sum_append]
  omega

theorem forPeer_mem {k : String} {os : List Msg} (h : forPeer k os ≠ []) :
    k ∈ (os.map (·.identity)).toFinset := by
  rw [List.mem_toFinset, List.mem_map]
  obtain ⟨f, hf⟩ := List.exists_mem_of_ne_nil _ h
  obtain ⟨m, hm, _⟩ := List.mem_map.1 hf
  obtain ⟨h1, h2⟩ := List.mem_filter.1 hm
  simp only [Bool.and_eq_true, beq_iff_eq] at h2
  exact ⟨m, h1, h2.2⟩

theorem Spec.Task.lighter {p p' : Peer} (h : Task p p') : peerWeight p' < peerWeight p := by
  cases h with
  | @read f rest h =>
    have hp : peerWeight p = inWeight f + peerWeight { p with inbox := rest } := by
      simp only [peerWeight, h, List.map_cons, List.sum_cons]
      omega
    have hf : 0 < inWeight f := by unfold inWeight; split <;> omega
    rw [hp]
    unfold Peer.react
    split
    · have : (if p.job = none then 0 else 2) ≤ 2 := by split <;> omega
      simp only [peerWeight, inWeight]
      simp
      omega
    · simp only [peerWeight, inWeight, List.map_append, List.sum_append, List.map_cons,
        List.map_nil, List.sum_cons, List.sum_nil, outWeight]
      simp
      omega
    · show peerWeight { p with inbox := rest } < _
      omega
    · omega
  | @finish j h o =>
    simp only [peerWeight, h, List.map_append, List.sum_append, List.map_cons, List.map_nil,
      List.sum_cons, List.sum_nil, outWeight]
    simp
    omega

theorem Weighs.work {cfg : HConfig} {env : Env} {mes : String → Me} {hist l : List (Tr Q)}
    {d d' : Deployment Q} {n : Nat} (hw : Weighs cfg d n) (hr : Run cfg env hist d.broker)
    (h : Work cfg env mes d l d') : ∃ n' < n, Weighs cfg d' n' := by
  obtain ⟨S, h0, hn⟩ := hw
  cases h with
  | @own b ps p' i h =>
    obtain ⟨h0, hn⟩ := Weighs.grow h0 hn {i}
    refine ⟨_, ?_, S ∪ {i}, ?_, rfl⟩
    · rw [hn]
      refine Nat.add_lt_add_left ?_ _
      refine Finset.sum_lt_sum (fun k _ => ?_) ⟨i, by simp, ?_⟩
      · show peerWeight (if k = i then p' else ps k) ≤ peerWeight (ps k)
        split
        · rename_i hk; subst hk; exact Nat.le_of_lt h.lighter
        · exact Nat.le_refl _
      · show peerWeight (if i = i then p' else ps i) < peerWeight (ps i)
        rw [if_pos rfl]; exact h.lighter
    · intro k hk
      have hki : k ≠ i := by rintro rfl; exact hk (by simp)
      show peerWeight (if k = i then p' else ps k) = 0
      rw [if_neg hki]
      exact h0 k hk
  | @handle b b' ps x rest i h hs =>
    obtain ⟨h0, hn⟩ := Weighs.grow h0 hn ({i} ∪ (b'.outs.map (·.identity)).toFinset)
    generalize hT : S ∪ ({i} ∪ (b'.outs.map (·.identity)).toFinset) = T at h0 hn
    have hiT : i ∈ T := by rw [← hT]; simp
    have hpaid := work_paid hr hs
    have hw : ∀ k, peerWeight { ps k with
        outbox := if k = i then rest else (ps k).outbox,
        inbox := (ps k).inbox ++ forPeer k b'.outs } + (if k = i then outWeight x else 0) =
        peerWeight (ps k) + ((forPeer k b'.outs).map inWeight).sum := by
      intro k
      by_cases hk : k = i
      · subst hk
        simp only [if_true, peerWeight, h, List.map_append, List.sum_append, List.map_cons,
          List.sum_cons]
        omega
      · simp only [if_neg hk]
        exact peerWeight_recv _ _
    refine ⟨_, ?_, T, ?_, rfl⟩
    · have e : ∑ k ∈ T, peerWeight { ps k with
          outbox := if k = i then rest else (ps k).outbox,
          inbox := (ps k).inbox ++ forPeer k b'.outs } + outWeight x =
          ∑ k ∈ T, peerWeight (ps k) + ∑ k ∈ T, ((forPeer k b'.outs).map inWeight).sum := by
        rw [← Finset.sum_add_distrib, ← Finset.sum_congr rfl (fun k _ => hw k),
          Finset.sum_add_distrib, Finset.sum_ite_eq', if_pos hiT]
      have hle := sum_forPeer T b'.outs
      rw [hn]
      show brokerWeight cfg b' + ∑ k ∈ T, peerWeight { ps k with
          outbox := if k = i then rest else (ps k).outbox,
          inbox := (ps k).inbox ++ forPeer k b'.outs } <
        brokerWeight cfg b + ∑ k ∈ T, peerWeight (ps k)
      have hpaid' : brokerWeight cfg b' + sentWeight b'.outs < brokerWeight cfg b + outWeight x := hpaid
      omega
    · intro k hk
      have hki : k ≠ i := by rintro rfl; exact hk hiT
      have hz : forPeer k b'.outs = [] := by
        by_contra hne
        refine hk ?_
        rw [← hT]
        exact Finset.mem_union_right _ (Finset.mem_union_right _ (forPeer_mem hne))
      show peerWeight { ps k with
        outbox := if k = i then rest else (ps k).outbox,
        inbox := (ps k).inbox ++ forPeer k b'.outs } = 0
      simp only [if_neg hki]
      rw [peerWeight_recv, hz]
      simpa using h0 k hk

theorem Spec.Deployed.run {cfg : HConfig} {env : Env} {mes : String → Me} {patient : Bool}
    {hist : List (Tr Q)} {d : Deployment Q} (h : Deployed cfg env mes patient hist d) :
    Run cfg env hist d.broker := by
  induction h with
  | start => exact .nil
  | step _ hs ih =>
    cases hs with
    | own i ho => rw [List.append_nil]; exact ih
    | handle i ho hs => exact ih.snoc hs
    | other hm hs => exact ih.snoc hs

theorem peerWeight_zero : peerWeight {} = 0 := rfl

theorem Spec.Deployed.weighs {cfg : HConfig} {env : Env} {mes : String → Me} {patient : Bool}
    {hist : List (Tr Q)} {d : Deployment Q} (h : Deployed cfg env mes patient hist d) :
    ∃ n, Weighs cfg d n := by
  suffices ∃ S : Finset String, ∀ i ∉ S, peerWeight (d.peers i) = 0 by
    obtain ⟨S, hS⟩ := this
    exact ⟨_, S, hS, rfl⟩
  induction h with
  | start => exact ⟨∅, fun _ _ => rfl⟩
  | step _ hs ih =>
    obtain ⟨S, hS⟩ := ih
    cases hs with
    | @own b ps p' i ho =>
      refine ⟨S ∪ {i}, fun k hk => ?_⟩
      have hki : k ≠ i := by rintro rfl; exact hk (by simp)
      show peerWeight (if k = i then p' else ps k) = 0
      rw [if_neg hki]
      exact hS k (fun h => hk (Finset.mem_union_left _ h))
    | @handle b b' ps x rest i ho hs =>
      refine ⟨S ∪ ({i} ∪ (b'.outs.map (·.identity)).toFinset), fun k hk => ?_⟩
      have hki : k ≠ i := by rintro rfl; exact hk (by simp)
      have hz : forPeer k b'.outs = [] := by
        by_contra hne
        exact hk (Finset.mem_union_right _ (Finset.mem_union_right _ (forPeer_mem hne)))
      show peerWeight { ps k with
        outbox := if k = i then rest else (ps k).outbox,
        inbox := (ps k).inbox ++ forPeer k b'.outs } = 0
      simp only [if_neg hki]
      rw [peerWeight_recv, hz]
      simpa using hS k (fun h => hk (Finset.mem_union_left _ h))
    | @other b b' ps m hm hs =>
      refine ⟨S ∪ (b'.outs.map (·.identity)).toFinset, fun k hk => ?_⟩
      have hz : forPeer k b'.outs = [] := by
        by_contra hne
        exact hk (Finset.mem_union_right _ (forPeer_mem hne))
      show peerWeight { ps k with inbox := (ps k).inbox ++ forPeer k b'.outs } = 0
      rw [peerWeight_recv, hz]
      simpa using hS k (fun h => hk (Finset.mem_union_left _ h))

/-- Work is something that can happen. -/
theorem Spec.Work.dstep {cfg : HConfig} {env : Env} {mes : String → Me} {patient : Bool}
    {l : List (Tr Q)} {d d' : Deployment Q} (h : Work cfg env mes d l d') :
    DStep cfg env mes patient d l d' := by
  cases h with
  | own i h =>
    cases h with
    | read h => exact .own i (.read h)
    | finish h o => exact .own i (.finish h o)
  | handle i h hs => exact .handle i h hs

end Broker
