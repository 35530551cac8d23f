import Verif.Proof.Enter
import Verif.Proof.Capability

/-! # Where requests and workers come from -/

set_option linter.unusedSectionVars false
set_option linter.unusedSimpArgs false

namespace Broker

open QueueManager LawfulQM

variable {Q : Type} [QueueManager Q] [LawfulQM Q]

/-! ## Predicates along sequences of machine steps -/

/-- The worker registered by an event. -/
def Ev.registers : Ev → Option Worker
  | .register w _ => some w
  | _ => none

theorem LStep.mem_reg {M : Nat} {L L' : LS} {e : Ev} (h : LStep M L e L') {w : Worker}
    (hw : w ∈ L'.reg) : w ∈ L.reg ∨ e.registers = some w := by
  cases h with
  | register w' cur hwf hf hcur =>
    rcases Multiset.mem_cons.1 hw with h | h
    · exact Or.inr (by rw [h]; rfl)
    · exact Or.inl h
  | expire w' cur qs g b q hg hb hq => exact Or.inl (by rw [hg]; exact Multiset.mem_cons_of_mem hw)
  | _ => exact Or.inl hw

theorem LSteps.mem_reg {M : Nat} {L L' : LS} {evs : List Ev} (h : LSteps M L evs L') {w : Worker}
    (hw : w ∈ L'.reg) : w ∈ L.reg ∨ ∃ e ∈ evs, e.registers = some w := by
  induction h with
  | nil => exact Or.inl hw
  | cons h _ ih =>
    rcases ih hw with h1 | ⟨e, he, h1⟩
    · rcases h.mem_reg h1 with h2 | h2
      · exact Or.inl h2
      · exact Or.inr ⟨_, by simp, h2⟩
    · exact Or.inr ⟨e, List.mem_cons_of_mem _ he, h1⟩

/-- Every event of a sequence happens between two machine states with given properties. -/
theorem LSteps.mem {M : Nat} (hM : M < SZ) {P : Req → Prop} {R : Worker → Prop} {L L' : LS}
    {evs : List Ev} (h : LSteps M L evs L') (hi : LInv M L)
    (hP : ∀ r ∈ L.held, P r) (hR : ∀ w ∈ L.reg, R w)
    (hPe : ∀ e ∈ evs, ∀ r ∈ e.enters, P r) (hRe : ∀ e ∈ evs, ∀ w, e.registers = some w → R w) :
    ((∀ r ∈ L'.held, P r) ∧ ∀ w ∈ L'.reg, R w) ∧
    ∀ e ∈ evs, ∃ L1 L2, LStep M L1 e L2 ∧ LInv M L1 ∧ (∀ r ∈ L1.held, P r) ∧ (∀ w ∈ L1.reg, R w) ∧
      (∀ r ∈ L2.held, P r) ∧ (∀ w ∈ L2.reg, R w) := by
  induction h with
  | nil => exact ⟨⟨hP, hR⟩, by simp⟩
  | cons h _ ih =>
    have h1 := fun r hr => (h.mem_held hr).elim (hP r) (hPe _ (by simp) r)
    have h2 := fun w hw => (h.mem_reg hw).elim (hR w) (hRe _ (by simp) w)
    obtain ⟨i1, i2⟩ := ih (h.linv hM hi) h1 h2 (fun e he => hPe e (List.mem_cons_of_mem _ he))
      (fun e he => hRe e (List.mem_cons_of_mem _ he))
    refine ⟨i1, fun e he => ?_⟩
    rcases List.mem_cons.1 he with rfl | he
    · exact ⟨_, _, h, hi, hP, hR, h1, h2⟩
    · exact i2 e he

/-! ## Provenance -/

/-- The request was accepted from a client in this transition. -/
structure ReqFrom (t : Tr Q) (r : Req) (rest : List String) (hs : Headers) (md : Metadata)
    (extra : List String) : Prop where
  key : t.msg.key = keyClients
  data : t.msg.data = "eval" :: r.jobId :: rest
  parse : evalHeaders rest [] [] = .ok (some (hs, md, extra))
  eq : r = Req.full r.rid hs md r.jobId extra
  accepted : Spec.accepts r.jobId t = true

/-- The request was accepted from a client in the history. -/
def ReqProv (h : List (Tr Q)) (r : Req) : Prop :=
  ∃ t ∈ h, ∃ rest hs md extra, ReqFrom t r rest hs md extra

/-- The worker was registered in this transition. -/
structure WorkerFrom (t : Tr Q) (w : Worker) (rest : List String) : Prop where
  key : t.msg.key = keyWorkers
  identity : t.msg.identity = w.identity
  data : t.msg.data = "init" :: w.hwgroup :: rest
  created : Worker.create w.addr w.identity w.hwgroup (initHeaders rest []).1 w.description = .ok w
  description : w.description = (initExtra (initHeaders rest []).2 "" none).1
  new : t.post.workers = t.pre.workers ++ [w]
  fresh : w.addr ∉ t.pre.workers.map (·.addr)

/-- The worker was registered in the history. -/
def WProv (h : List (Tr Q)) (w : Worker) : Prop := ∃ t ∈ h, ∃ rest, WorkerFrom t w rest

theorem ReqProv.mono {h h' : List (Tr Q)} {r : Req} (hs : ∀ t ∈ h, t ∈ h') (hp : ReqProv h r) :
    ReqProv h' r := by
  obtain ⟨t, ht, x⟩ := hp
  exact ⟨t, hs t ht, x⟩

theorem WProv.mono {h h' : List (Tr Q)} {w : Worker} (hs : ∀ t ∈ h, t ∈ h') (hp : WProv h w) :
    WProv h' w := by
  obtain ⟨t, ht, x⟩ := hp
  exact ⟨t, hs t ht, x⟩

theorem heard_allocs (cfg : HConfig) (i : String) (s : HState Q) :
    (s.heard cfg i).allocs = s.allocs := by rw [heard_frame cfg i s]

/-- Requests that enter in a step come from its message. -/
theorem step_enters {cfg : HConfig} {env : Env} {m : Msg} {s s' : HState Q} {evs : List Ev}
    (hi : StepInfo cfg env m s s' evs) : ∀ e ∈ evs, ∀ r ∈ e.enters, r.complete = true →
      ∃ rest hs md extra, ReqFrom ⟨s, m, s'⟩ r rest hs md extra := by
  intro e he r hr hc
  have hsh := hi.script.shape e he
  cases e with
  | accept r' =>
    simp only [Ev.enters, Multiset.mem_singleton] at hr
    subst hr
    have hk : m.key = keyClients := hsh
    cases hi.script with
    | eval hk hd hf h =>
      cases h with
      | malformed => simp at he
      | frozen => simp at he
      | submit hf hm hp h =>
        rename_i j rest hs md extra evs'
        have hr' : r = Req.full (HState.nextRid s) hs md j extra ∧
            (⟨keyClients, m.identity, ["accept"]⟩ : Msg) ∈ s'.outs := by
          rw [hi.outs]
          cases h with
          | reject => simp at he
          | give w =>
            simp at he
            exact ⟨he, by simp [Ev.msgs]⟩
          | wait =>
            simp at he
            exact ⟨he, by simp [Ev.msgs]⟩
        have hj : r.jobId = j := by rw [hr'.1]; rfl
        refine ⟨rest, hs, md, extra, ⟨hk, by rw [hj]; exact hm, hp, ?_, ?_⟩⟩
        · rw [hj]
          have : r.rid = s.nextRid := by rw [hr'.1]; rfl
          rw [this]; exact hr'.1
        · have h1 : s'.outs.contains (⟨keyClients, m.identity, ["accept"]⟩ : Msg) = true := by
            simpa using hr'.2
          simp only [keyClients] at hk h1
          simp only [Spec.accepts, hk, hm, hj, Tr.outs, h1]
          simp
    | init hk' => rw [hk] at hk'; exact absurd hk' (by decide)
    | done hk' => rw [hk] at hk'; exact absurd hk' (by decide)
    | timer hk' => rw [hk] at hk'; exact absurd hk' (by decide)
    | _ => simp at he
  | register w cur =>
    cases cur with
    | none => simp [Ev.enters] at hr
    | some r' =>
      simp only [Ev.enters, Multiset.mem_singleton] at hr
      subst hr
      have := hi.steps
      obtain ⟨a, b, rfl⟩ := List.append_of_mem he
      obtain ⟨L1, _, h2⟩ := this.append_inv
      cases h2 with
      | cons h3 _ =>
        cases h3 with
        | register w cur hw hf hcur =>
          obtain ⟨j, hj⟩ := hcur r rfl
          rw [hj] at hc; cases hc
  | _ => simp [Ev.enters] at hr

/-- Workers that register in a step come from its message. -/
theorem step_registers {cfg : HConfig} {env : Env} {m : Msg} {s s' : HState Q} {evs : List Ev}
    (hi : StepInfo cfg env m s s' evs) : ∀ e ∈ evs, ∀ w, e.registers = some w →
      ∃ rest, WorkerFrom ⟨s, m, s'⟩ w rest := by
  intro e he w hw
  have hsh := hi.script.shape e he
  cases e with
  | register w' cur =>
    simp only [Ev.registers, Option.some.injEq] at hw
    subst hw
    have main : ∀ {c g rest old cur' evs'}, m.key = keyWorkers → m.data = c :: g :: rest → c = "init" →
        NewWorker (HState.heard cfg m.identity { s with outs := [] }) env m.identity g
          (initHeaders rest []).1 (initHeaders rest []).2 old cur' →
        RegFrame (HState.heard cfg m.identity { s with outs := [] }) s' old →
        RegScript old cur' evs' → Ev.register w' cur ∈ evs' →
        ∃ rest, WorkerFrom ⟨s, m, s'⟩ w' rest := by
      intro c g rest old cur' evs' hk hm hc hn hf hr he'
      subst hc
      have hw' : w' = old := by
        cases hr with
        | plain => simp at he'; exact he'.1
        | pull => simp at he'; exact he'.1
        | resend => simp at he'; exact he'.1
      subst hw'
      have hcf := Worker.create_fields hn.created
      have hws := hf.workers
      rw [heard_workers] at hws
      refine ⟨rest, hk, hcf.2.1.symm, by rw [hm, hcf.2.2.1], ?_, hcf.2.2.2.2, hws, ?_⟩
      · have := hn.created
        rw [hcf.1, hcf.2.1, hcf.2.2.1, hcf.2.2.2.2]
        exact this
      · rw [hcf.1]
        intro hmem
        refine env.alloc_fresh _ _ ((?_ : ∀ {x : Nat}, x ∈ s.workers.map (·.addr) →
          x ∈ (HState.heard cfg m.identity { s with outs := [] }).addrs) hmem)
        intro x hx
        refine List.mem_append.2 (Or.inl ?_)
        rw [heard_workers]
        exact hx
    cases hi.script with
    | init hk hd h =>
      cases h with
      | short => simp at he
      | same => simp at he
      | fresh hm hw hn hf hr =>
        rw [hd] at hm; exact main hk (by rw [hd]; exact hm) (by simpa using (List.cons.inj hm).1.symm) hn hf hr he
      | again hm hw hne hn hf hr =>
        have he' := (List.mem_cons.1 he).resolve_left (by simp)
        rw [hd] at hm; exact main hk (by rw [hd]; exact hm) (by simpa using (List.cons.inj hm).1.symm) hn hf hr he'
    | done hk hd h =>
      cases h with
      | report hw hm hb hj hf hd => have := hd.shape _ he; simp [DoneEv] at this
      | _ => simp at he
    | eval hk => have := hsh.1; rw [hk] at this; exact absurd this (by decide)
    | timer hk => have := hsh.1; rw [hk] at this; exact absurd this (by decide)
    | _ => simp at he
  | _ => simp [Ev.registers] at hw

/-- Everything held and everybody registered comes from the history, and so do the participants of
    all events. -/
theorem Run.prov {cfg : HConfig} {env : Env} {h : List (Tr Q)} {s : HState Q}
    (hr : Run cfg env h s) :
    (∀ r ∈ (ls s 0).held, r.complete = true → ReqProv h r) ∧ ∀ w ∈ (ls s 0).reg, WProv h w := by
  refine Run.induct (P := fun h s => (∀ r ∈ (ls s 0).held, r.complete = true → ReqProv h r) ∧
    ∀ w ∈ (ls s 0).reg, WProv h w) ?_ ?_ hr
  · constructor
    · rw [ls_init_held]; simp
    · simp [ls, HState.init, reg_empty]
  · intro h s m s' evs hr hinv hlinv ih _ hi
    have h1 : ∀ t ∈ h, t ∈ h ++ [(⟨s, m, s'⟩ : Tr Q)] := fun t ht => List.mem_append.2 (Or.inl ht)
    exact (hi.steps.mem cfg.maxFailures_lt (P := fun r => r.complete = true → ReqProv (h ++ [⟨s, m, s'⟩]) r)
      (R := WProv (h ++ [⟨s, m, s'⟩])) hlinv (fun r hr hc => (ih.1 r hr hc).mono h1)
      (fun w hw => (ih.2 w hw).mono h1)
      (fun e he r hr hc => ⟨_, by simp, step_enters hi e he r hr hc⟩)
      (fun e he w hw => ⟨_, by simp, step_registers hi e he w hw⟩)).1

/-- Histories are closed under prefixes. -/
theorem Run.prefix {cfg : HConfig} {env : Env} {t : Tr Q} {h1 h2 : List (Tr Q)} {s : HState Q}
    (hr : Run cfg env (h1 ++ t :: h2) s) :
    Run cfg env h1 t.pre ∧ step cfg env t.msg t.pre = .ok () t.post ∧
      Run cfg env (h1 ++ [t]) t.post := by
  generalize hh : h1 ++ t :: h2 = h at hr
  induction hr generalizing h2 with
  | nil => simp at hh
  | snoc hr hs ih =>
    rcases List.eq_nil_or_concat h2 with rfl | ⟨h2', x, rfl⟩
    · obtain ⟨h3, h4⟩ := List.append_inj' hh rfl
      subst h3
      simp only [List.cons.injEq, and_true] at h4
      subst h4
      exact ⟨hr, hs, hr.snoc hs⟩
    · rw [List.concat_eq_append, ← List.cons_append, ← List.append_assoc] at hh
      exact ih (List.append_inj' hh rfl).1

/-- Participants of the events of a step. -/
theorem Run.step_prov {cfg : HConfig} {env : Env} {h : List (Tr Q)} {m : Msg} {s s' : HState Q}
    {evs : List Ev} (hr : Run cfg env h s) (hi : StepInfo cfg env m s s' evs) :
    ∀ e ∈ evs, ∃ L1 L2, LStep cfg.maxFailures L1 e L2 ∧ LInv cfg.maxFailures L1 ∧
      (∀ r ∈ L1.held, r.complete = true → ReqProv (h ++ [⟨s, m, s'⟩]) r) ∧
      (∀ w ∈ L1.reg, WProv (h ++ [⟨s, m, s'⟩]) w ∧ (w ∈ s.workers ∨ w ∈ s'.workers)) ∧
      (∀ r ∈ L2.held, r.complete = true → ReqProv (h ++ [⟨s, m, s'⟩]) r) := by
  have h1 : ∀ t ∈ h, t ∈ h ++ [(⟨s, m, s'⟩ : Tr Q)] := fun t ht => List.mem_append.2 (Or.inl ht)
  have ih := hr.prov
  have := (hi.steps.mem cfg.maxFailures_lt
      (P := fun r => r.complete = true → ReqProv (h ++ [⟨s, m, s'⟩]) r)
      (R := fun w => WProv (h ++ [⟨s, m, s'⟩]) w ∧ (w ∈ s.workers ∨ w ∈ s'.workers))
      hr.inv.2 (fun r hr hc => (ih.1 r hr hc).mono h1)
      (fun w hw => ⟨(ih.2 w hw).mono h1, Or.inl (hr.inv.1.mem_reg.2 hw)⟩)
      (fun e he r hr hc => ⟨_, by simp, step_enters hi e he r hr hc⟩)
      (fun e he w hw => by
        obtain ⟨rest, hf⟩ := step_registers hi e he w hw
        refine ⟨⟨_, by simp, rest, hf⟩, Or.inr ?_⟩
        have := hf.new
        simp only at this
        rw [this]; simp)).2
  intro e he
  obtain ⟨L1, L2, a1, a2, a3, a4, a5, _⟩ := this e he
  exact ⟨L1, L2, a1, a2, a3, a4, a5⟩

end Broker
