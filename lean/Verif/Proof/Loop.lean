import Mathlib.Data.List.Induction
import Verif.Proof.System

/-!
# The main loop
-/

set_option linter.unusedSectionVars false

namespace Broker

variable {Q : Type} [QueueManager Q]

theorem msgsFor_append (k : String) (a b : List Msg) :
    msgsFor k (a ++ b) = msgsFor k a ++ msgsFor k b := List.filter_append ..

theorem msgsFor_single_eq {k : String} {m : Msg} (h : m.key = k) : msgsFor k [m] = [m] := by
  simp [msgsFor, h]

theorem msgsFor_single_ne {k : String} {m : Msg} (h : m.key ≠ k) : msgsFor k [m] = [] := by
  simp [msgsFor, h]

/-! ## Messages received on a socket -/

/-- What arrived on a socket. -/
def arrivedOn (k : String) (l : List (String × String × List String)) : List (String × List String) :=
  (l.filter (fun x => x.1 == k)).map (·.2)

theorem Source.inbox {s s0 : Sys Q} {m : Msg} (h : Source s m s0) {k : String}
    (hk : k ∈ brokerWiring.order) :
    s.inbox k = (msgsFor k [m]).map (fun m => (m.identity, m.data)) ++ s0.inbox k := by
  cases h with
  | @recv k' i d rest ks el hpc hin =>
    by_cases hkk : k = k'
    · subst hkk
      rw [msgsFor_single_eq (k := k) (m := ⟨k, i, d⟩) rfl]
      simp [hin]
    · rw [msgsFor_single_ne (fun h => hkk h.symm)]
      simp [hkk]
  | timer hpc =>
    have : keyTimer ≠ k := by
      rcases order_cases hk with h | h | h <;> rw [h] <;> decide
    rw [msgsFor_single_ne this]
    simp

theorem Source.arrived {s s0 : Sys Q} {m : Msg} (h : Source s m s0) : s0.arrived = s.arrived ∧
    s0.polls = s.polls := by
  cases h <;> exact ⟨rfl, rfl⟩

theorem SRun.fifo {cfg : HConfig} {env : Env} {e : SysEnv} {evs : List SysEv} {s : Sys Q}
    (hr : SRun cfg env e evs s) {k : String} (hk : k ∈ brokerWiring.order) :
    arrivedOn k s.arrived =
      (msgsFor k s.handled).map (fun m => (m.identity, m.data)) ++ s.inbox k := by
  refine SRun.induct (P := fun _ s => arrivedOn k s.arrived =
      (msgsFor k s.handled).map (fun m => (m.identity, m.data)) ++ s.inbox k) rfl ?_ hr
  intro evs s ev s' hr ih hi hst
  have hsrc : ∀ {m : Msg} {s0 : Sys Q}, Source s m s0 → arrivedOn k s0.arrived =
      (msgsFor k (s.handled ++ [m])).map (fun m => (m.identity, m.data)) ++ s0.inbox k := by
    intro m s0 h
    rw [h.arrived.1, ih, msgsFor_append, List.map_append, List.append_assoc, ← h.inbox hk]
  cases hst with
  | @arrive k' i d hk' hd =>
    show arrivedOn k (s.arrived ++ _) = _ ++ (if k = k' then _ else _)
    by_cases hkk : k = k'
    · subst hkk
      rw [if_pos rfl, ← List.append_assoc]
      have := ih
      simp only [arrivedOn] at this ⊢
      rw [List.filter_append, List.map_append, this]
      simp
    · rw [if_neg hkk, ← ih]
      have : (k' == k) = false := by simpa using Ne.symm hkk
      simp [arrivedOn, this]
  | poll => exact ih
  | sock => exact ih
  | post ht hm =>
    obtain ⟨-, -, -, c4, -, -, -, c8, c9, -⟩ := post_frame e (Q := Q) _ { s with todo := _, routed := _ }
    rw [c4, c8, c9]; exact ih
  | idle ht h => have := hsrc h; exact this
  | handle ht h => have := hsrc h; exact this
  | fail ht h => have := hsrc h; exact this
  | connect => exact ih
  | take => exact ih

/-! ## The schedule -/

/-- Where the loop is, as a sequence of keys: complete rounds and the beginning of one. -/
def Rounds (s : Sys Q) : Prop :=
  ∃ (bs : List (List String)) (part : List String),
    s.handled.map (·.key) = (bs.map (fun b => b ++ [keyTimer])).flatten ++ part ∧
    (∀ b ∈ bs, b.Sublist brokerWiring.order) ∧ part.Sublist brokerWiring.order ∧
    (s.pc = .poll → part = []) ∧
    (∀ ks el, s.pc = .serve ks el → (part ++ ks).Sublist brokerWiring.order)

theorem Source.rounds {s s0 s' : Sys Q} {m : Msg} (h : Source s m s0) (hr : Rounds s)
    (hh : s'.handled = s.handled ++ [m]) (hpc : s'.pc = s0.pc ∨ ∃ err, s'.pc = .halt err) :
    Rounds s' := by
  obtain ⟨bs, part, h1, h2, h3, h4, h5⟩ := hr
  cases h with
  | @recv k i d rest ks el hp hin =>
    have hsub := h5 _ _ hp
    refine ⟨bs, part ++ [k], ?_, h2, ?_, ?_, ?_⟩
    · rw [hh, List.map_append, h1]
      simp
    · have : (part ++ [k]).Sublist (part ++ k :: ks) :=
        List.Sublist.append (List.Sublist.refl _) (by simp)
      exact this.trans hsub
    · intro h0
      rcases hpc with h | ⟨err, h⟩ <;> rw [h] at h0 <;> cases h0
    · intro ks' el' h0
      rcases hpc with h | ⟨err, h⟩ <;> rw [h] at h0 <;> cases h0
      simpa using hsub
  | @timer el hp =>
    have hsub := h5 _ _ hp
    refine ⟨bs ++ [part], [], ?_, ?_, by simp, fun _ => rfl, ?_⟩
    · rw [hh, List.map_append, h1]
      simp [timerMsg]
    · intro b hb
      rcases List.mem_append.1 hb with h | h
      · exact h2 b h
      · rw [List.mem_singleton.1 h]; exact h3
    · intro ks' el' h0
      rcases hpc with h | ⟨err, h⟩ <;> rw [h] at h0 <;> cases h0

theorem rounds_same {s s' : Sys Q} (hr : Rounds s) (h1 : s'.handled = s.handled)
    (h2 : s'.pc = s.pc) : Rounds s' := by
  unfold Rounds
  rw [h1, h2]
  exact hr

theorem SRun.rounds {cfg : HConfig} {env : Env} {e : SysEnv} {evs : List SysEv} {s : Sys Q}
    (hr : SRun cfg env e evs s) : Rounds s := by
  refine SRun.induct (P := fun _ s => Rounds s) ?_ ?_ hr
  · exact ⟨[], [], rfl, by simp, by simp, fun _ => rfl, by simp [Sys.init]⟩
  intro evs s ev s' hr ih hi hst
  cases hst with
  | arrive => exact rounds_same ih rfl rfl
  | poll ht hpc =>
    obtain ⟨bs, part, h1, h2, h3, h4, h5⟩ := ih
    have := h4 hpc
    subst this
    refine ⟨bs, [], h1, h2, h3, fun _ => rfl, ?_⟩
    intro ks el h0
    cases h0
    exact List.filter_sublist
  | sock => exact rounds_same ih rfl rfl
  | post ht hm =>
    obtain ⟨-, -, -, c4, c5, -⟩ := post_frame e (Q := Q) _ { s with todo := _, routed := _ }
    exact rounds_same ih c4 c5
  | idle ht h => exact h.rounds ih rfl (.inl rfl)
  | handle ht h => exact h.rounds ih rfl (.inl rfl)
  | fail ht h => exact h.rounds ih rfl (.inr ⟨_, rfl⟩)
  | connect => exact rounds_same ih rfl rfl
  | take => exact rounds_same ih rfl rfl

/-! ## Timer messages -/

/-- The timer messages handled are those measured, except perhaps the last. -/
def Ticks (s : Sys Q) : Prop :=
  ∃ pend : List Msg, s.polls.map (fun p => timerMsg (elapsedMs p.1 p.2)) =
      msgsFor keyTimer s.handled ++ pend ∧ pend.length ≤ 1 ∧ (s.pc = .poll → pend = []) ∧
      ∀ ks el, s.pc = .serve ks el → pend = [timerMsg el]

theorem ticks_same {s s' : Sys Q} (h : Ticks s) (h1 : s'.handled = s.handled) (h2 : s'.pc = s.pc)
    (h3 : s'.polls = s.polls) : Ticks s' := by
  unfold Ticks
  rw [h1, h2, h3]
  exact h

theorem Source.ticks {s s0 s' : Sys Q} {m : Msg} (hi : SInv s) (h : Source s m s0) (hr : Ticks s)
    (hh : s'.handled = s.handled ++ [m]) (hpc : s'.pc = s0.pc ∨ ∃ err, s'.pc = .halt err)
    (hp : s'.polls = s.polls) : Ticks s' := by
  obtain ⟨pend, h1, h2, h3, h4⟩ := hr
  cases h with
  | @recv k i d rest ks el hserve hin =>
    have hk : k ∈ brokerWiring.order := (hi.ready _ _ hserve).1.subset List.mem_cons_self
    have hne : k ≠ keyTimer := by
      rcases order_cases hk with h | h | h <;> rw [h] <;> decide
    refine ⟨pend, ?_, h2, ?_, ?_⟩
    · rw [hp, hh, h1, msgsFor_append, msgsFor_single_ne hne]; simp
    · intro h0
      rcases hpc with h | ⟨err, h⟩ <;> rw [h] at h0 <;> cases h0
    · intro ks' el' h0
      rcases hpc with h | ⟨err, h⟩ <;> rw [h] at h0 <;> cases h0
      exact h4 _ _ hserve
  | @timer el hserve =>
    have := h4 _ _ hserve
    subst this
    refine ⟨[], ?_, by simp, fun _ => rfl, ?_⟩
    · rw [hp, hh, h1, msgsFor_append, msgsFor_single_eq (k := keyTimer) (m := timerMsg el) rfl]; simp
    · intro ks' el' h0
      rcases hpc with h | ⟨err, h⟩ <;> rw [h] at h0 <;> cases h0

theorem SRun.ticks {cfg : HConfig} {env : Env} {e : SysEnv} {evs : List SysEv} {s : Sys Q}
    (hr : SRun cfg env e evs s) : Ticks s := by
  refine SRun.induct (P := fun _ s => Ticks s) ?_ ?_ hr
  · exact ⟨[], rfl, by simp, fun _ => rfl, by simp [Sys.init]⟩
  intro evs s ev s' hr ih hi hst
  cases hst with
  | arrive => exact ticks_same ih rfl rfl rfl
  | @poll b a ht hpc =>
    obtain ⟨pend, h1, h2, h3, h4⟩ := ih
    have := h3 hpc
    subst this
    refine ⟨[timerMsg (elapsedMs b a)], ?_, by simp, ?_, ?_⟩
    · show (s.polls ++ [(b, a)]).map _ = _
      rw [List.map_append, h1]; simp
    · intro h0; cases h0
    · intro ks el h0; cases h0; rfl
  | sock => exact ticks_same ih rfl rfl rfl
  | post ht hm =>
    obtain ⟨-, -, -, c4, c5, -, -, -, -, c10, -⟩ :=
      post_frame e (Q := Q) _ { s with todo := _, routed := _ }
    exact ticks_same ih c4 c5 c10
  | idle ht h => exact h.ticks hi ih rfl (.inl rfl) h.arrived.2
  | handle ht h => exact h.ticks hi ih rfl (.inl rfl) h.arrived.2
  | fail ht h => exact h.ticks hi ih rfl (.inr ⟨_, rfl⟩) h.arrived.2
  | connect => exact ticks_same ih rfl rfl rfl
  | take => exact ticks_same ih rfl rfl rfl

/-! ## One round -/

theorem SRun.split {cfg : HConfig} {env : Env} {e : SysEnv} {evs : List SysEv} {s : Sys Q}
    (hr : SRun cfg env e evs s) : ∀ {a b : List SysEv}, evs = a ++ b → ∃ s0, SRun cfg env e a (s0 : Sys Q) := by
  induction hr with
  | nil =>
    intro a b h
    have := (List.append_eq_nil_iff.1 h.symm).1
    subst this
    exact ⟨_, .nil⟩
  | @snoc evs s s' ev hr hs ih =>
    intro a b h
    rcases List.eq_nil_or_concat b with rfl | ⟨b', x, rfl⟩
    · rw [List.append_nil] at h
      subst h
      exact ⟨_, .snoc hr hs⟩
    · simp only [List.concat_eq_append] at h
      rw [← List.append_assoc] at h
      obtain ⟨h1, h2⟩ := List.append_inj' h rfl
      exact ih h1

theorem SRun.snoc_inv {cfg : HConfig} {env : Env} {e : SysEnv} {evs : List SysEv} {ev : SysEv}
    {s' : Sys Q} (hr : SRun cfg env e (evs ++ [ev]) s') :
    ∃ s, SRun cfg env e evs s ∧ s.next cfg env e ev = some s' := by
  generalize hl : evs ++ [ev] = l at hr
  cases hr with
  | nil => simp at hl
  | snoc hr hs =>
    obtain ⟨rfl, h2⟩ := List.append_inj' hl rfl
    cases h2
    exact ⟨_, hr, hs⟩

theorem SRun.unique {cfg : HConfig} {env : Env} {e : SysEnv} {evs : List SysEv} {s s' : Sys Q}
    (h1 : SRun cfg env e evs s) (h2 : SRun cfg env e evs s') : s = s' := by
  induction h1 generalizing s' with
  | nil =>
    generalize hl : ([] : List SysEv) = l at h2
    cases h2 with
    | nil => rfl
    | snoc => simp at hl
  | snoc hr hs ih =>
    obtain ⟨s0, a, b⟩ := h2.snoc_inv
    have := ih a
    subst this
    rw [hs] at b
    exact Option.some.inj b

/-- The next message on a socket. -/
def Sys.first (s : Sys Q) (k : String) : Option Msg :=
  (s.inbox k).head?.map fun x => ⟨k, x.1, x.2⟩

/-- The event is not a return of `zmq::poll`. -/
def SysEv.inRound : SysEv → Bool
  | .poll _ _ => false
  | _ => true

/-- The state of a round that began in `s1`. -/
def InRound (s1 : Sys Q) (el : Int) (s : Sys Q) : Prop :=
  (∃ served ks, brokerWiring.order.filter (fun k => !(s1.inbox k).isEmpty) = served ++ ks ∧
    s.pc = .serve ks el ∧ s.handled = s1.handled ++ served.filterMap s1.first ∧
    ∀ k ∈ ks, (s.inbox k).head? = (s1.inbox k).head?) ∨
  (s.pc = .poll ∧ s.handled = s1.handled ++ brokerWiring.order.filterMap s1.first ++ [timerMsg el]) ∨
  ∃ err, s.pc = .halt err

theorem filterMap_ready (s : Sys Q) (l : List String) :
    (l.filter (fun k => !(s.inbox k).isEmpty)).filterMap s.first = l.filterMap s.first := by
  induction l with
  | nil => rfl
  | cons k t ih =>
    rw [List.filter_cons]
    cases h : s.inbox k with
    | nil =>
      simp [ih, Sys.first, h]
    | cons x r =>
      simp [ih, Sys.first, h]

theorem inRound_same {s1 s s' : Sys Q} {el : Int} (h : InRound s1 el s) (h1 : s'.pc = s.pc)
    (h2 : s'.handled = s.handled) (h3 : s'.inbox = s.inbox) : InRound s1 el s' := by
  unfold InRound
  rw [h1, h2, h3]
  exact h

theorem Source.inRound {s1 s s0 s' : Sys Q} {m : Msg} {el : Int} (hi : SInv s) (h : Source s m s0)
    (hr : InRound s1 el s) (hh : s'.handled = s.handled ++ [m])
    (hpc : (s'.pc = s0.pc ∧ s'.inbox = s0.inbox) ∨ ∃ err, s'.pc = .halt err) :
    InRound s1 el s' := by
  rcases hpc with ⟨hpc, hin'⟩ | hh
  swap
  · exact .inr (.inr hh)
  rcases hr with ⟨served, ks, h1, h2, h3, h4⟩ | ⟨h1, h2⟩ | ⟨err, h1⟩
  · cases h with
    | @recv k i d rest ks' el' hp hin =>
      rw [hp] at h2
      injection h2 with h2a h2b
      subst h2a h2b
      left
      refine ⟨served ++ [k], ks', by rw [h1]; simp, hpc, ?_, ?_⟩
      · rw [hh, h3]
        have : s1.first k = some ⟨k, i, d⟩ := by
          have := h4 k (by simp)
          rw [hin] at this
          simp [Sys.first, ← this]
        simp [this]
      · intro k' hk'
        have hnd : (k :: ks').Nodup := (hi.ready _ _ hp).1.nodup (by rw [broker_order]; decide)
        have hne : k' ≠ k := by
          rintro rfl
          exact (List.nodup_cons.1 hnd).1 hk'
        rw [hin']
        simp only [if_neg hne]
        exact h4 k' (by simp [hk'])
    | @timer el' hp =>
      rw [hp] at h2
      injection h2 with h2a h2b
      subst h2a h2b
      right; left
      refine ⟨hpc, ?_⟩
      rw [List.append_nil] at h1
      rw [hh, h3, ← h1, filterMap_ready]
  · cases h with
    | recv hp hin => rw [hp] at h1; cases h1
    | timer hp => rw [hp] at h1; cases h1
  · exact absurd h1 (h.not_halt.1 err)

theorem SRun.round {cfg : HConfig} {env : Env} {e : SysEnv} {evs1 : List SysEv} {b a : Int}
    {s1 : Sys Q} (h1 : SRun cfg env e evs1 s1) : ∀ {evs2 : List SysEv},
    (∀ ev ∈ evs2, ev.inRound = true) → ∀ {s : Sys Q}, SRun cfg env e (evs1 ++ .poll b a :: evs2) s →
    InRound s1 (elapsedMs b a) s := by
  intro evs2
  induction evs2 using List.reverseRecOn with
  | nil =>
    intro _ s hr
    obtain ⟨s0, hr0, hn⟩ := hr.snoc_inv
    have := hr0.unique h1
    subst this
    have hst := next_cases hr0.inv hn
    cases hst with
    | poll ht hpc =>
      left
      exact ⟨[], _, rfl, rfl, by simp, fun _ _ => rfl⟩
  | append_singleton evs ev ih =>
    intro hall s' hr
    have : evs1 ++ SysEv.poll b a :: (evs ++ [ev]) = (evs1 ++ .poll b a :: evs) ++ [ev] := by simp
    rw [this] at hr
    obtain ⟨s, hr0, hn⟩ := hr.snoc_inv
    have hs := ih (fun x hx => hall x (by simp [hx])) hr0
    have hi := hr0.inv
    have hst := next_cases hi hn
    have hev := hall ev (by simp)
    cases hst with
    | @arrive k i d hk hd =>
      rcases hs with ⟨served, ks, a1, a2, a3, a4⟩ | h | h
      · left
        refine ⟨served, ks, a1, a2, a3, ?_⟩
        intro k' hk'
        rw [← a4 k' hk']
        show (if k' = k then _ else _ : List _).head? = _
        split
        · subst k'
          have hne := (hi.ready _ _ a2).2 k hk'
          cases hh : s.inbox k with
          | nil => exact absurd hh hne
          | cons x r => rfl
        · rfl
      · exact .inr (.inl h)
      · exact .inr (.inr h)
    | poll => simp [SysEv.inRound] at hev
    | sock => exact inRound_same hs rfl rfl rfl
    | post ht hm =>
      obtain ⟨-, -, -, c4, c5, -, -, c8, -⟩ := post_frame e (Q := Q) _ { s with todo := _, routed := _ }
      exact inRound_same hs c5 c4 c8
    | idle ht h => exact h.inRound hi hs rfl (.inl ⟨rfl, rfl⟩)
    | handle ht h => exact h.inRound hi hs rfl (.inl ⟨rfl, rfl⟩)
    | fail ht h => exact h.inRound hi hs rfl (.inr ⟨_, rfl⟩)
    | connect => exact inRound_same hs rfl rfl rfl
    | take => exact inRound_same hs rfl rfl rfl

/-- The main thread can always go on: it is in `zmq::poll`, it has ended, or it has a next step. -/
theorem SInv.main_enabled {cfg : HConfig} {env : Env} {e : SysEnv} {s : Sys Q} (hi : SInv s) :
    (s.todo = [] ∧ s.pc = .poll) ∨ (s.todo = [] ∧ ∃ err, s.pc = .halt err) ∨
      ∃ s', s.next cfg env e .main = some s' := by
  simp only [Sys.next, Sys.main]
  cases ht : s.todo with
  | cons m t => exact .inr (.inr ⟨_, rfl⟩)
  | nil =>
    cases hpc : s.pc with
    | poll => exact .inl ⟨rfl, rfl⟩
    | halt err => exact .inr (.inl ⟨rfl, err, rfl⟩)
    | serve ks el =>
      right; right
      cases ks with
      | nil => exact ⟨_, rfl⟩
      | cons k ks =>
        have := (hi.ready _ _ hpc).2 k (by simp)
        cases hin : s.inbox k with
        | nil => exact absurd hin this
        | cons x rest =>
          obtain ⟨i, d⟩ := x
          simp only [receiveMessage_all, Option.map_some, hin]
          exact ⟨_, rfl⟩

end Broker
