import Verif.Proof.ApartHandler

/-! # Messages handled with and without the others -/

set_option linter.unusedSectionVars false

namespace Broker

variable {Q : Type} [QueueManager Q] [ApartQM Q] {α β γ δ : Type}

/-- No address. -/
abbrev noAddr : Nat → Prop := fun _ => False

/-- Whenever `x` succeeds so does `y`; new objects may be created. -/
def Moves (P : Parts) (O : List Msg → List Msg → Prop) (x : HM Q α) (y : HM Q β) : Prop :=
  ∀ c s s', SR P O noAddr noAddr c s s' → ∀ a t, x s = .ok a t →
    ∃ c' b t', y s' = .ok b t' ∧ SR P O noAddr noAddr c' t t'

section
variable {P : Parts} {O : List Msg → List Msg → Prop}

theorem Moves.of {A : α → β → Prop} {x : HM Q α} {y : HM Q β}
    (h : ∀ c, RM P O noAddr noAddr c A x y) : Moves P O x y := by
  intro c s s' hs a t ht
  obtain ⟨b, t', h1, -, h2⟩ := h c s s' hs a t ht
  exact ⟨c, b, t', h1, h2⟩

theorem Moves.bindU {A : Unit → Unit → Prop} {x y : HM Q Unit} {f : Unit → HM Q α} {g : Unit → HM Q β}
    (h : ∀ c, RM P O noAddr noAddr c A x y) (hf : Moves P O (f ()) (g ())) :
    Moves P O (x >>= f) (y >>= g) := by
  intro c s s' hs a t ht
  obtain ⟨u, s1, h1, h2⟩ := apart_bind_ok ht
  obtain ⟨v, s1', h3, -, h5⟩ := h c s s' hs u s1 h1
  rw [apart_ok_bind h3]
  exact hf c s1 s1' h5 a t h2

theorem Moves.bindLU {A : Unit → Prop} {x : HM Q Unit} {f : Unit → HM Q α} {y : HM Q β}
    (h : ∀ c, AM P O noAddr noAddr c A x) (hf : Moves P O (f ()) y) : Moves P O (x >>= f) y := by
  intro c s s' hs a t ht
  obtain ⟨u, s1, h1, h2⟩ := apart_bind_ok ht
  obtain ⟨v, s1', h3, -, h5⟩ := h c s s' hs u s1 h1
  cases h3
  exact hf c s1 s' h5 a t h2

/-! ## New requests -/

/-- One more pair of requests. -/
def Corr.newReq (c : Corr) (a b : Nat) : Corr := { c with σ := c.σ.ext a b }

/-- One more request of the others. -/
def Corr.newReqF (c : Corr) (a : Nat) : Corr := { c with G := fun x => c.G x ∨ x = a }

theorem Corr.newReq_grows (c : Corr) (a b : Nat) : c.Grows (c.newReq a b) :=
  ⟨id, id, .inl, id, .inl, .inl⟩

theorem Corr.newReqF_grows (c : Corr) (a : Nat) : c.Grows (c.newReqF a) :=
  ⟨id, id, id, .inl, .inl, .inl⟩

variable {X X' : Nat → Prop} {c : Corr}

theorem SR.newReq {s s' : HState Q} (h : SR P O X X' c s s') :
    SR P O X X' (c.newReq s.nextRid s'.nextRid)
      { s with nextRid := s.nextRid + 1, fc := upd s.fc s.nextRid 0 }
      { s' with nextRid := s'.nextRid + 1, fc := upd s'.fc s'.nextRid 0 } := by
  have hg := c.newReq_grows s.nextRid s'.nextRid
  have ha : ∀ y, ¬ c.σ s.nextRid y := fun y hy => Nat.lt_irrefl _ (h.rdom _ _ hy).1
  have hb : ∀ x, ¬ c.σ x s'.nextRid := fun y hy => Nat.lt_irrefl _ (h.rdom _ _ hy).2
  exact
    { ok :=
        { one := h.ok.one
          dis := h.ok.dis
          oner := h.ok.oner.ext ha hb
          disr := by
            rintro a b (hab | ⟨rfl, rfl⟩)
            · exact h.ok.disr hab
            · exact fun hG => Nat.lt_irrefl _ (h.rdomF _ hG) }
      good := h.good
      dom := h.dom
      domF := h.domF
      rdom := by
        rintro a b (hab | ⟨rfl, rfl⟩)
        · have := h.rdom _ _ hab
          exact ⟨Nat.lt_succ_of_lt this.1, Nat.lt_succ_of_lt this.2⟩
        · exact ⟨Nat.lt_succ_self _, Nat.lt_succ_self _⟩
      rdomF := fun a ha => Nat.lt_succ_of_lt (h.rdomF a ha)
      workers := h.workers.mono (fun _ _ h => h.mono hg) (fun _ h => h.mono hg)
      queue := ApartQM.grow hg h.queue
      sorted := h.sorted
      sorted' := h.sorted'
      timers := h.timers
      live := h.live
      fc := by
        rintro a b (hab | ⟨rfl, rfl⟩)
        · have h1 : a ≠ s.nextRid := fun e => ha b (e ▸ hab)
          have h2 : b ≠ s'.nextRid := fun e => hb a (e ▸ hab)
          simp only [upd, if_neg h1, if_neg h2]
          exact h.fc a b hab
        · simp only [upd, if_pos]
      frozen := h.frozen
      outs := h.outs }

theorem SR.newReqF {s s' : HState Q} (h : SR P O X X' c s s') :
    SR P O X X' (c.newReqF s.nextRid)
      { s with nextRid := s.nextRid + 1, fc := upd s.fc s.nextRid 0 } s' := by
  have hg := c.newReqF_grows s.nextRid
  have ha : ∀ y, ¬ c.σ s.nextRid y := fun y hy => Nat.lt_irrefl _ (h.rdom _ _ hy).1
  exact
    { ok :=
        { one := h.ok.one
          dis := h.ok.dis
          oner := h.ok.oner
          disr := by
            rintro a b hab (hG | rfl)
            · exact h.ok.disr hab hG
            · exact ha _ hab }
      good := h.good
      dom := h.dom
      domF := h.domF
      rdom := fun a b hab => ⟨Nat.lt_succ_of_lt (h.rdom _ _ hab).1, (h.rdom _ _ hab).2⟩
      rdomF := by
        rintro a (ha | rfl)
        · exact Nat.lt_succ_of_lt (h.rdomF a ha)
        · exact Nat.lt_succ_self _
      workers := h.workers.mono (fun _ _ h => h.mono hg) (fun _ h => h.mono hg)
      queue := ApartQM.grow hg h.queue
      sorted := h.sorted
      sorted' := h.sorted'
      timers := h.timers
      live := h.live
      fc := by
        intro a b hab
        have h1 : a ≠ s.nextRid := fun e => ha b (e ▸ hab)
        simp only [upd, if_neg h1]
        exact h.fc a b hab
      frozen := h.frozen
      outs := h.outs }

theorem Moves.submit (hO : Same O) (env env' : Env) (i j : String) {hs : Headers} (hA : P.reqA hs)
    (md : Metadata) (extra : List String) :
    Moves P O (submit env i j hs md extra : HM Q _) (submit env' i j hs md extra) := by
  intro c s s' h a t ht
  have hr : RA P (c.newReq s.nextRid s'.nextRid) (Req.full s.nextRid hs md j extra)
      (Req.full s'.nextRid hs md j extra) := ⟨.inr ⟨rfl, rfl⟩, rfl, fun _ => hA⟩
  have hx := RM.qEnqueue (Q := Q) (O := O) (X := noAddr) (X' := noAddr) env env' hr rfl
  have hk := RM.bind hx (B := fun _ _ => True)
    (f := fun res => if res.enqueued then do
        match res.assignedTo with
        | some w => Broker.sendRequest w (Req.full s.nextRid hs md j extra)
        | none => Pure.pure ()
        Broker.respond keyClients i ["accept"]
      else do
        Broker.respond keyClients i ["reject", rejectMessage hs]
        notifyMonitor j "FAILED")
    (g := fun res => if res.enqueued then do
        match res.assignedTo with
        | some w => Broker.sendRequest w (Req.full s'.nextRid hs md j extra)
        | none => Pure.pure ()
        Broker.respond keyClients i ["accept"]
      else do
        Broker.respond keyClients i ["reject", rejectMessage hs]
        notifyMonitor j "FAILED") (by
    rintro ⟨a, b⟩ ⟨a', b'⟩ ⟨h1, rfl⟩
    cases b' with
    | true =>
      cases h1 with
      | none => exact RM.respond hO _ _ _
      | some hw => exact RM.bindU (RM.sendRequest hO hw hr) (RM.respond hO _ _ _)
    | false => exact RM.bindU (RM.respond hO _ _ _) (RM.respond hO _ _ _))
  obtain ⟨b, t', h1, -, h2⟩ := hk _ _ h.newReq a t ht
  exact ⟨_, b, t', h1, h2⟩

theorem Moves.submitF (hO : More P O) (env : Env) (i : String) {j : String} (hj : P.jobB j) {hs : Headers}
    (hB : P.reqB hs) (md : Metadata) (extra : List String) :
    Moves P O (Broker.submit env i j hs md extra : HM Q _) (Pure.pure () : HM Q Unit) := by
  intro c s s' h a t ht
  have hr : RB P (c.newReqF s.nextRid) (Req.full s.nextRid hs md j extra) := ⟨.inr rfl, fun _ => hB, hj⟩
  have hx := AM.qEnqueue (Q := Q) (O := O) (X := noAddr) (X' := noAddr) env hr rfl
  have hk := RM.bindL hx (B := fun _ (_ : Unit) => True) (y := Pure.pure ())
    (f := fun res => if res.enqueued then do
        match res.assignedTo with
        | some w => Broker.sendRequest w (Req.full s.nextRid hs md j extra)
        | none => Pure.pure ()
        Broker.respond keyClients i ["accept"]
      else do
        Broker.respond keyClients i ["reject", rejectMessage hs]
        notifyMonitor j "FAILED") (by
    rintro ⟨a, b⟩ h1
    cases b with
    | true =>
      cases a with
      | none => exact AM.respond hO (foreign_client _ _)
      | some w => exact RM.bindLU (AM.sendRequest hO (h1 w rfl) _) (AM.respond hO (foreign_client _ _))
    | false =>
      exact RM.bindLU (AM.respond hO (foreign_client _ _)) (AM.respond hO (foreign_monitor hj _ _)))
  obtain ⟨b, t', h1, -, h2⟩ := hk _ _ h.newReqF a t ht
  exact ⟨_, b, t', h1, h2⟩

theorem Moves.processEval (hO : Same O) (env env' : Env) (i : String) (message : List String)
    (hA : ∀ hs md ex, evalHeaders (message.drop 2) [] [] = .ok (some (hs, md, ex)) → P.reqA hs) :
    Moves P O (processEval env i message : HM Q _) (processEval env' i message) := by
  refine Moves.bindU (fun _ => RM.respond hO _ _ _) ?_
  cases message[1]? with
  | none => exact Moves.of (A := fun _ _ => True) fun _ => RM.raise _ _
  | some j =>
    simp only
    cases he : evalHeaders (message.drop 2) [] [] with
    | error u => exact Moves.of (A := fun _ _ => True) fun _ => RM.undef _ _
    | ok o =>
      cases o with
      | none => exact Moves.of (A := fun _ _ => True) fun _ => RM.pure trivial
      | some x =>
        obtain ⟨hs, md, ex⟩ := x
        intro c s s' h a t ht
        replace ht : (if s.frozen then Broker.respond keyClients i ["reject", "The broker is frozen."]
          else Broker.submit env i j hs md ex : HM Q Unit) s = .ok a t := ht
        show ∃ c' b t', (if s'.frozen then Broker.respond keyClients i ["reject", "The broker is frozen."]
          else Broker.submit env' i j hs md ex : HM Q Unit) s' = .ok b t' ∧ _
        rw [h.frozen]
        by_cases hf : s.frozen = true
        · rw [if_pos hf] at ht ⊢
          exact Moves.of (fun _ => RM.respond hO _ _ _) c s s' h a t ht
        · rw [if_neg hf] at ht ⊢
          exact Moves.submit hO env env' i j (hA _ _ _ he) md ex c s s' h a t ht

theorem Moves.processEvalF (hO : More P O) (env : Env) (i : String) (message : List String)
    (hB : ∀ hs md ex, evalHeaders (message.drop 2) [] [] = .ok (some (hs, md, ex)) → P.reqB hs)
    (hj : ∀ j, message[1]? = some j → P.jobB j) :
    Moves P O (Broker.processEval env i message : HM Q _) (Pure.pure () : HM Q Unit) := by
  refine Moves.bindLU (fun _ => AM.respond hO (foreign_client _ _)) ?_
  cases hm : message[1]? with
  | none => exact Moves.of (A := fun _ _ => True) fun _ => RM.raise _ _
  | some j =>
    simp only
    cases he : evalHeaders (message.drop 2) [] [] with
    | error u => exact Moves.of (A := fun _ _ => True) fun _ => RM.undef _ _
    | ok o =>
      cases o with
      | none => exact Moves.of (A := fun _ _ => True) fun _ => RM.pure trivial
      | some x =>
        obtain ⟨hs, md, ex⟩ := x
        intro c s s' h a t ht
        replace ht : (if s.frozen then Broker.respond keyClients i ["reject", "The broker is frozen."]
          else Broker.submit env i j hs md ex : HM Q Unit) s = .ok a t := ht
        by_cases hf : s.frozen = true
        · rw [if_pos hf] at ht
          exact Moves.of (fun _ => AM.respond hO (foreign_client _ _)) c s s' h a t ht
        · rw [if_neg hf] at ht
          exact Moves.submitF hO env i (hj j hm) (hB _ _ _ he) md ex c s s' h a t ht

/-! ## New workers -/

/-- One more pair of workers. -/
def Corr.newWorker (c : Corr) (a b : Nat) : Corr := { c with ρ := c.ρ.ext a b }

/-- One more worker of the others. -/
def Corr.newWorkerF (c : Corr) (a : Nat) : Corr := { c with F := fun x => c.F x ∨ x = a }

theorem SR.fresh {s s' : HState Q} (h : SR P O noAddr noAddr c s s') {a : Nat} (ha : a ∉ s.addrs) :
    (∀ y, ¬ c.ρ a y) ∧ ¬ c.F a ∧ a ∉ s.timers.map (·.1.addr) := by
  have hta : a ∉ s.timers.map (·.1.addr) := fun hm => ha (List.mem_append.2 (.inr hm))
  exact ⟨fun y hy => hta ((h.dom _ _ hy).1.resolve_right id),
    fun hF => hta ((h.domF _ hF).resolve_right id), hta⟩

theorem SR.fresh' {s s' : HState Q} (h : SR P O noAddr noAddr c s s') {b : Nat} (hb : b ∉ s'.addrs) :
    (∀ x, ¬ c.ρ x b) ∧ b ∉ s'.timers.map (·.1.addr) := by
  have htb : b ∉ s'.timers.map (·.1.addr) := fun hm => hb (List.mem_append.2 (.inr hm))
  exact ⟨fun y hy => htb ((h.dom _ _ hy).2.resolve_right id), htb⟩

theorem find_not_mem {V : Type} {m : WMap V} {w : Worker} (h : w.addr ∉ m.map (·.1.addr)) :
    m.find w = none :=
  WMap.find_fresh fun p hp e => h (List.mem_map.2 ⟨p, hp, e⟩)

theorem SR.newWorker {env env' : Env} (he : ApartQM.EnvR Q env env') {s s' : HState Q}
    (h : SR P O noAddr noAddr c s s') {w w' : Worker}
    (hwa : w.addr = env.alloc s.allocs s.addrs) (hwb : w'.addr = env'.alloc s'.allocs s'.addrs)
    (hw : w' = { w with addr := w'.addr }) (ho : P.own w) :
    WA P (c.newWorker w.addr w'.addr) w w' ∧
    SR P O (· = w.addr) (· = w'.addr) (c.newWorker w.addr w'.addr)
      { s with live := upd s.live w.addr 0, allocs := s.allocs + 1, workers := s.workers ++ [w] }
      { s' with live := upd s'.live w'.addr 0, allocs := s'.allocs + 1, workers := s'.workers ++ [w'] } := by
  have hfa : w.addr ∉ s.addrs := by rw [hwa]; exact env.alloc_fresh _ _
  have hfb : w'.addr ∉ s'.addrs := by rw [hwb]; exact env'.alloc_fresh _ _
  obtain ⟨h1, h2, h3⟩ := h.fresh hfa
  obtain ⟨h4, h5⟩ := h.fresh' hfb
  have hg : c.Grows (c.newWorker w.addr w'.addr) :=
    ⟨.inl, id, id, id, by
      rintro a b (hab | ⟨rfl, rfl⟩)
      · exact .inl hab
      · exact .inr ⟨h1, h2, h4⟩, .inl⟩
  have hWA : WA P (c.newWorker w.addr w'.addr) w w' := ⟨⟨.inr ⟨rfl, rfl⟩, hw⟩, ho⟩
  refine ⟨hWA, ?_⟩
  exact
    { ok :=
        { one := h.ok.one.ext h1 h4
          dis := by
            rintro a b (hab | ⟨rfl, rfl⟩)
            · exact h.ok.dis hab
            · exact h2
          oner := h.ok.oner
          disr := h.ok.disr }
      good := by
        show ApartQM.Good Q (c.ρ.ext w.addr w'.addr)
        rw [hwa, hwb]
        exact ApartQM.good_ext he h.good fun x y hxy =>
          ⟨List.mem_append.2 (.inr ((h.dom x y hxy).1.resolve_right id)),
            List.mem_append.2 (.inr ((h.dom x y hxy).2.resolve_right id))⟩
      dom := by
        rintro a b (hab | ⟨rfl, rfl⟩)
        · exact ⟨.inl ((h.dom _ _ hab).1.resolve_right id), .inl ((h.dom _ _ hab).2.resolve_right id)⟩
        · exact ⟨.inr rfl, .inr rfl⟩
      domF := fun a ha => .inl ((h.domF a ha).resolve_right id)
      rdom := h.rdom
      rdomF := h.rdomF
      workers := (h.workers.mono (fun _ _ h => h.mono hg) (fun _ h => h.mono hg)).append
        (.both hWA .nil)
      queue := ApartQM.grow hg h.queue
      sorted := h.sorted
      sorted' := h.sorted'
      timers := by
        intro x x' hx
        rcases hx.rel with hr | ⟨e1, e2⟩
        · exact h.timers ⟨hr, hx.eq⟩
        · rw [find_not_mem (by rw [e2]; exact h5), find_not_mem (by rw [e1]; exact h3)]
      live := by
        rintro a b (hab | ⟨rfl, rfl⟩)
        · have g1 : a ≠ w.addr := fun e => h1 b (e ▸ hab)
          have g2 : b ≠ w'.addr := fun e => h4 a (e ▸ hab)
          simp only [upd, if_neg g1, if_neg g2]
          exact h.live a b hab
        · simp only [upd, if_pos]
      fc := h.fc
      frozen := h.frozen
      outs := h.outs }

theorem SR.newWorkerF {env : Env} {s s' : HState Q}
    (h : SR P O noAddr noAddr c s s') {w : Worker}
    (hwa : w.addr = env.alloc s.allocs s.addrs) (ho : P.oth w) :
    WB P (c.newWorkerF w.addr) w ∧
    SR P O (· = w.addr) noAddr (c.newWorkerF w.addr)
      { s with live := upd s.live w.addr 0, allocs := s.allocs + 1, workers := s.workers ++ [w] } s' := by
  have hfa : w.addr ∉ s.addrs := by rw [hwa]; exact env.alloc_fresh _ _
  obtain ⟨h1, h2, h3⟩ := h.fresh hfa
  have hg : c.Grows (c.newWorkerF w.addr) :=
    ⟨id, .inl, id, id, .inl, by
      rintro a (ha | rfl)
      · exact .inl ha
      · exact .inr ⟨h1, h2⟩⟩
  have hWB : WB P (c.newWorkerF w.addr) w := ⟨.inr rfl, ho⟩
  refine ⟨hWB, ?_⟩
  exact
    { ok :=
        { one := h.ok.one
          dis := by
            rintro a b hab (hF | rfl)
            · exact h.ok.dis hab hF
            · exact h1 _ hab
          oner := h.ok.oner
          disr := h.ok.disr }
      good := h.good
      dom := fun a b hab =>
        ⟨.inl ((h.dom _ _ hab).1.resolve_right id), (h.dom _ _ hab).2⟩
      domF := by
        rintro a (ha | rfl)
        · exact .inl ((h.domF a ha).resolve_right id)
        · exact .inr rfl
      rdom := h.rdom
      rdomF := h.rdomF
      workers := by
        have := (h.workers.mono (fun _ _ h => h.mono hg) (fun _ h => h.mono hg)).append
          (Proj.skip (R := WA P (c.newWorkerF w.addr)) hWB .nil)
        simpa using this
      queue := ApartQM.grow hg h.queue
      sorted := h.sorted
      sorted' := h.sorted'
      timers := h.timers
      live := by
        intro a b hab
        have g1 : a ≠ w.addr := fun e => h1 b (e ▸ hab)
        simp only [upd, if_neg g1]
        exact h.live a b hab
      fc := h.fc
      frozen := h.frozen
      outs := h.outs }

theorem SR.emplace {t t' : HState Q} {w w' : Worker} (hw : WA P c w w')
    (h : SR P O (· = w.addr) (· = w'.addr) c t t') :
    SR P O noAddr noAddr c { t with timers := t.timers.emplace w 0 }
      { t' with timers := t'.timers.emplace w' 0 } :=
  { h with
    dom := by
      intro x y hxy
      rw [mem_keys_emplace, mem_keys_emplace]
      obtain ⟨h1, h2⟩ := h.dom x y hxy
      exact ⟨.inl (h1.elim .inr .inl), .inl (h2.elim .inr .inl)⟩
    domF := by
      intro x hx
      rw [mem_keys_emplace]
      exact .inl ((h.domF x hx).elim .inr .inl)
    sorted := h.sorted.emplace _ _
    sorted' := h.sorted'.emplace _ _
    timers := by
      intro x x' hx
      by_cases e : x.addr = w.addr
      · have e' := (hw.1.addr_iff h.ok.one hx).1 e
        rw [WMap.find_addr e, WMap.find_addr e', WMap.find_emplace h.sorted,
          WMap.find_emplace h.sorted', h.timers hw.1]
      · have e' : x'.addr ≠ w'.addr := fun e' => e ((hw.1.addr_iff h.ok.one hx).2 e')
        rw [WMap.find_emplace_of_ne e, WMap.find_emplace_of_ne e', h.timers hx] }

theorem SR.emplaceF {t t' : HState Q} {w : Worker} (hw : WB P c w)
    (h : SR P O (· = w.addr) noAddr c t t') :
    SR P O noAddr noAddr c { t with timers := t.timers.emplace w 0 } t' :=
  { h with
    dom := by
      intro x y hxy
      rw [mem_keys_emplace]
      obtain ⟨h1, h2⟩ := h.dom x y hxy
      exact ⟨.inl (h1.elim .inr .inl), h2⟩
    domF := by
      intro x hx
      rw [mem_keys_emplace]
      exact .inl ((h.domF x hx).elim .inr .inl)
    sorted := h.sorted.emplace _ _
    timers := by
      intro x x' hx
      have e : x.addr ≠ w.addr := fun e => h.ok.dis hx.rel (e ▸ hw.1)
      rw [WMap.find_emplace_of_ne e, h.timers hx] }

/-- `registerWorker` with the parts that may throw first. -/
theorem registerWorker_steps (env : Env) (i g : String) (hs : Headers) (extra : List String)
    (s : HState Q) : (registerWorker env i g hs extra : HM Q Unit) s =
      ((liftE (Worker.create (env.alloc s.allocs s.addrs) i g hs (initExtra extra "" none).1) >>= fun w => do
        set { s with
          live := upd s.live (env.alloc s.allocs s.addrs) 0, allocs := s.allocs + 1,
          fc := upd s.fc s.nextRid 0, nextRid := s.nextRid + 1, workers := s.workers ++ [w] }
        (qAddWorker env w ((initExtra extra "" none).2.map (Req.incomplete s.nextRid)) >>= fun req =>
          sendIfSome w req) >>= fun _ =>
        modify fun s => { s with timers := s.timers.emplace w 0 } : HM Q Unit) s) := by
  unfold registerWorker
  show (liftE _ >>= _ : HM Q Unit) s = _
  refine congrFun (bind_congr fun w => ?_) s
  refine bind_congr fun _ => ?_
  rw [bind_assoc]
  refine bind_congr fun o => ?_
  cases o <;> rfl

omit [QueueManager Q] [ApartQM Q] in
theorem create_elsewhere (a b : Nat) (i g : String) (hs : Headers) (d : String) :
    RelE (fun w w' : Worker => w' = { w with addr := w'.addr })
      (Worker.create a i g hs d) (Worker.create b i g hs d) := by
  refine RelE.bind (A := Eq) (RelE.refl (fun _ => rfl) _) ?_
  rintro ms _ rfl
  exact .ok rfl

theorem Moves.registerWorker (hO : Same O) {env env' : Env} (he : ApartQM.EnvR Q env env')
    (i g : String) (hs : Headers) (extra : List String)
    (hown : ∀ a d w, Worker.create a i g hs d = .ok w → P.own w) :
    Moves P O (registerWorker env i g hs extra : HM Q _) (registerWorker env' i g hs extra) := by
  intro c s s' h a t ht
  rw [registerWorker_steps] at ht ⊢
  obtain ⟨w, hw, ht⟩ := liftE_bind ht
  have hcl : RelE (fun w w' : Worker => w' = { w with addr := w'.addr }) _
      (Worker.create (env'.alloc s'.allocs s'.addrs) i g hs (initExtra extra "" none).1) :=
    create_elsewhere (env.alloc s.allocs s.addrs) (env'.alloc s'.allocs s'.addrs) i g hs _
  rw [hw] at hcl
  generalize hy : Worker.create (env'.alloc s'.allocs s'.addrs) i g hs (initExtra extra "" none).1 = y at hcl
  cases hcl with
  | @ok _ w' hww =>
    have hwa := create_addr hw
    have hwb := create_addr hy
    have h1 := h.newReq
    have hwe := hww
    obtain ⟨hWA, h2⟩ := h1.newWorker he hwa hwb hwe (hown _ _ _ hw)
    have hcur : Option.Rel (RA P ((c.newReq s.nextRid s'.nextRid).newWorker w.addr w'.addr))
        ((initExtra extra "" none).2.map (Req.incomplete s.nextRid))
        ((initExtra extra "" none).2.map (Req.incomplete s'.nextRid)) := by
      cases (initExtra extra "" none).2 with
      | none => exact .none
      | some j => exact .some ⟨.inr ⟨rfl, rfl⟩, rfl, fun e => nomatch e⟩
    have hbody := RM.bind (RM.qAddWorker (Q := Q) (O := O) (X := (· = w.addr)) (X' := (· = w'.addr))
      env env' hWA hcur) fun _ _ ho => RM.sendIfSome hO hWA ho
    rw [← hwa] at ht
    rw [← hwb]
    obtain ⟨u, s1, h3, h4⟩ := apart_bind_ok (show (_ >>= _ : HM Q Unit) _ = _ from ht)
    cases h3
    obtain ⟨u, s2, h5, h6⟩ := apart_bind_ok h4
    obtain ⟨v, t', h7, -, h8⟩ := hbody _ _ h2 u s2 h5
    refine ⟨(c.newReq s.nextRid s'.nextRid).newWorker w.addr w'.addr, (),
      { t' with timers := t'.timers.emplace w' 0 }, ?_, ?_⟩
    · exact apart_ok_bind (f := fun _ => modify fun s : HState Q => { s with timers := s.timers.emplace w' 0 }) h7
    · cases h6
      exact SR.emplace hWA h8

theorem Moves.registerWorkerF (hO : More P O) (env : Env)
    (i g : String) (hs : Headers) (extra : List String)
    (hoth : ∀ a d w, Worker.create a i g hs d = .ok w → P.oth w)
    (hj : ∀ j, (initExtra extra "" none).2 = some j → P.jobB j) :
    Moves P O (Broker.registerWorker env i g hs extra : HM Q _) (Pure.pure () : HM Q Unit) := by
  intro c s s' h a t ht
  rw [registerWorker_steps] at ht
  obtain ⟨w, hw, ht⟩ := liftE_bind ht
  have hwa := create_addr hw
  have h1 := h.newReqF
  obtain ⟨hWB, h2⟩ := h1.newWorkerF (env := env) hwa (hoth _ _ _ hw)
  have hcur : ∀ r ∈ (initExtra extra "" none).2.map (Req.incomplete s.nextRid),
      RB P ((c.newReqF s.nextRid).newWorkerF w.addr) r := by
    cases hx : (initExtra extra "" none).2 with
    | none => intro r hr; cases hr
    | some j =>
      intro r hr
      cases hr
      exact ⟨.inr rfl, (fun e => nomatch e), hj j hx⟩
  have hbody := RM.bindL (AM.qAddWorker (Q := Q) (O := O) (X := (· = w.addr)) (X' := noAddr)
    env hWB hcur) fun o _ => AM.sendIfSome hO hWB o
  rw [← hwa] at ht
  obtain ⟨u, s1, h3, h4⟩ := apart_bind_ok (show (_ >>= _ : HM Q Unit) _ = _ from ht)
  cases h3
  obtain ⟨u, s2, h5, h6⟩ := apart_bind_ok h4
  obtain ⟨v, t', h7, -, h8⟩ := hbody _ _ h2 u s2 h5
  cases h7
  cases h6
  exact ⟨_, (), s', rfl, SR.emplaceF hWB h8⟩

theorem Moves.processInit (hO : Same O) {env env' : Env} (he : ApartQM.EnvR Q env env') {i : String}
    (hi : P.mine i = true) (message : List String)
    (hown : ∀ k g rest, message = k :: g :: rest →
      ∀ a d w, Worker.create a i g (initHeaders rest []).1 d = .ok w → P.own w) :
    Moves P O (processInit env i message : HM Q _) (processInit env' i message) := by
  match message, hown with
  | [], _ => exact Moves.of (A := fun _ _ => True) fun _ => RM.pure trivial
  | [_], _ => exact Moves.of (A := fun _ _ => True) fun _ => RM.pure trivial
  | k :: g :: rest, hown =>
    have hreg := Moves.registerWorker (Q := Q) (P := P) (O := O) hO he i g (initHeaders rest []).1 (initHeaders rest []).2 (hown k g rest rfl)
    intro c s s' h a t ht
    have hf := regFind_own hi h.workers
    replace ht : ((match regFind i s.workers with
        | some w =>
          if w.headersEqual (initHeaders rest []).1 then Pure.pure ()
          else do
            notifyError ("Received two different INIT messages from the same worker ("
              ++ w.getDescription ++ ")")
            Broker.registerWorker env i g (initHeaders rest []).1 (initHeaders rest []).2
        | none => Broker.registerWorker env i g (initHeaders rest []).1 (initHeaders rest []).2 :
          HM Q Unit) s) = .ok a t := ht
    show ∃ c' b t', ((match regFind i s'.workers with
        | some w =>
          if w.headersEqual (initHeaders rest []).1 then Pure.pure ()
          else do
            notifyError ("Received two different INIT messages from the same worker ("
              ++ w.getDescription ++ ")")
            Broker.registerWorker env' i g (initHeaders rest []).1 (initHeaders rest []).2
        | none => Broker.registerWorker env' i g (initHeaders rest []).1 (initHeaders rest []).2 :
          HM Q Unit) s') = .ok b t' ∧ _
    generalize regFind i s.workers = o at hf ht
    generalize regFind i s'.workers = o' at hf
    cases hf with
    | none => exact hreg c s s' h a t ht
    | @some w w' hw =>
      simp only [hw.1.headersEqual, hw.1.getDescription]
      simp only at ht
      by_cases hq : w.headersEqual (initHeaders rest []).1 = true
      · rw [if_pos hq] at ht ⊢
        cases ht
        exact ⟨c, _, _, rfl, h⟩
      · rw [if_neg hq] at ht ⊢
        exact Moves.bindU (f := fun _ => _) (g := fun _ => _) (fun _ => RM.respond hO _ _ _) hreg c s s' h a t ht

theorem Moves.processInitF (hO : More P O) (env : Env) {i : String} (message : List String)
    (hoth : ∀ k g rest, message = k :: g :: rest →
      ∀ a d w, Worker.create a i g (initHeaders rest []).1 d = .ok w → P.oth w)
    (hj : ∀ k g rest, message = k :: g :: rest →
      ∀ j, (initExtra (initHeaders rest []).2 "" none).2 = some j → P.jobB j) :
    Moves P O (Broker.processInit env i message : HM Q _) (Pure.pure () : HM Q Unit) := by
  match message, hoth, hj with
  | [], _, _ => exact Moves.of (A := fun _ _ => True) fun _ => RM.pure trivial
  | [_], _, _ => exact Moves.of (A := fun _ _ => True) fun _ => RM.pure trivial
  | k :: g :: rest, hoth, hj =>
    have hreg := Moves.registerWorkerF (Q := Q) (P := P) (O := O) hO env i g (initHeaders rest []).1
      (initHeaders rest []).2 (hoth k g rest rfl) (hj k g rest rfl)
    intro c s s' h a t ht
    replace ht : ((match regFind i s.workers with
        | some w =>
          if w.headersEqual (initHeaders rest []).1 then Pure.pure ()
          else do
            notifyError ("Received two different INIT messages from the same worker ("
              ++ w.getDescription ++ ")")
            Broker.registerWorker env i g (initHeaders rest []).1 (initHeaders rest []).2
        | none => Broker.registerWorker env i g (initHeaders rest []).1 (initHeaders rest []).2 :
          HM Q Unit) s) = .ok a t := ht
    cases hf : regFind i s.workers with
    | none => rw [hf] at ht; exact hreg c s s' h a t ht
    | some w =>
      rw [hf] at ht
      simp only at ht
      by_cases hq : w.headersEqual (initHeaders rest []).1 = true
      · rw [if_pos hq] at ht
        cases ht
        exact ⟨c, (), _, rfl, h⟩
      · rw [if_neg hq] at ht
        exact Moves.bindLU (f := fun _ => _) (fun _ => AM.respond hO (foreign_error _ _)) hreg c s s' h a t ht

end

/-! ## Messages -/

/-- The message is one of ours. -/
structure Parts.Keeps (P : Parts) (m : Msg) : Prop where
  worker : m.key = keyWorkers → P.mine m.identity = true
  init : m.key = keyWorkers → ∀ g rest, m.data = "init" :: g :: rest →
    ∀ a d w, Worker.create a m.identity g (initHeaders rest []).1 d = .ok w → P.own w
  eval : m.key = keyClients → m.data.head? = some "eval" →
    ∀ hs md ex, evalHeaders (m.data.drop 2) [] [] = .ok (some (hs, md, ex)) → P.reqA hs
  stats : m.key = keyClients → m.data.head? ≠ some "get-runtime-stats"

/-- The message is one of the others. -/
structure Parts.Drops (P : Parts) (m : Msg) : Prop where
  key : m.key = keyWorkers ∨ m.key = keyClients ∧
    (m.data.head? = some "eval" ∨ m.data.head? = some "get-runtime-stats")
  worker : m.key = keyWorkers → P.mine m.identity = false
  init : m.key = keyWorkers → ∀ g rest, m.data = "init" :: g :: rest →
    ∀ a d w, Worker.create a m.identity g (initHeaders rest []).1 d = .ok w → P.oth w
  job : m.key = keyWorkers → ∀ g rest, m.data = "init" :: g :: rest →
    ∀ j, (initExtra (initHeaders rest []).2 "" none).2 = some j → P.jobB j
  eval : m.key = keyClients → m.data.head? = some "eval" →
    ∀ hs md ex, evalHeaders (m.data.drop 2) [] [] = .ok (some (hs, md, ex)) → P.reqB hs
  evalJob : m.key = keyClients → m.data.head? = some "eval" → ∀ j, m.data[1]? = some j → P.jobB j

/-- A message that is neither to our workers nor about the end of one of our jobs. -/
def Parts.Outside (P : Parts) (m : Msg) : Prop :=
  (m.key = keyWorkers → P.mine m.identity = false) ∧
  (m.key = keyNotifier → ∀ j, m.data.take 4 = ["type", "job-status", "id", j] → P.jobB j)

/-- Corresponding states between messages. -/
abbrev SR0 (P : Parts) (c : Corr) (s s' : HState Q) : Prop :=
  SR P (fun _ _ => True) noAddr noAddr c s s'

theorem SR.start {P : Parts} {c : Corr} {s s' : HState Q} (h : SR0 P c s s')
    {O : List Msg → List Msg → Prop} (hO : O [] []) :
    SR P O noAddr noAddr c { s with outs := [] } { s' with outs := [] } :=
  { h with outs := hO }

theorem SR.stop {P : Parts} {c : Corr} {s s' : HState Q} {O : List Msg → List Msg → Prop}
    (h : SR P O noAddr noAddr c s s') : SR0 P c s s' := { h with outs := trivial }

theorem SR.init (P : Parts) : SR0 P Corr.none (HState.init Q) (HState.init Q) where
  ok := ⟨⟨fun h => h.elim, fun h => h.elim⟩, fun h => h.elim, ⟨fun h => h.elim, fun h => h.elim⟩,
    fun h => h.elim⟩
  good := ApartQM.good_empty
  dom := fun _ _ h => h.elim
  domF := fun _ h => h.elim
  rdom := fun _ _ h => h.elim
  rdomF := fun _ h => h.elim
  workers := .nil
  queue := ApartQM.empty _ _
  sorted := List.Pairwise.nil
  sorted' := List.Pairwise.nil
  timers := fun _ => rfl
  live := fun _ _ _ => rfl
  fc := fun _ _ _ => rfl
  frozen := rfl
  outs := trivial

theorem Moves.request {P : Parts} {O : List Msg → List Msg → Prop} (hO : Same O) (cfg : HConfig)
    {env env' : Env} (he : ApartQM.EnvR Q env env') {m : Msg} (hm : P.Keeps m) (hk : m.key ≠ keyTimer) :
    Moves P O (onRequest cfg env m : HM Q _) (onRequest cfg env' m) := by
  obtain ⟨key, i, d⟩ := m
  unfold onRequest
  simp only at hk ⊢
  by_cases h1 : key = keyWorkers
  · rw [if_pos h1, if_pos h1]
    have hi : P.mine i = true := hm.worker h1
    refine Moves.bindU (fun _ => RM.touchWorker cfg hi) ?_
    cases d with
    | nil => exact Moves.of (A := fun _ _ => True) fun _ => RM.raise _ _
    | cons k rest =>
      simp only
      unfold workerCommand
      split
      · rename_i hk
        refine Moves.processInit hO he hi _ ?_
        rintro k' g rest' e
        refine hm.init h1 g rest' ?_
        show k :: rest = _
        rw [← hk, e]
        congr 1
        exact (List.cons.inj e).1.symm
      · refine Moves.of (A := fun _ _ => True) fun c => ?_
        split
        · exact RM.processDone hO cfg env env' hi _
        · split
          · exact RM.processPing hO hi
          · split
            · exact RM.respond hO _ _ _
            · exact RM.pure trivial
  · rw [if_neg h1, if_neg h1]
    by_cases h2 : key = keyClients
    · rw [if_pos h2, if_pos h2]
      cases d with
      | nil => exact Moves.of (A := fun _ _ => True) fun _ => RM.raise _ _
      | cons k rest =>
        simp only
        unfold clientCommand
        split
        · rename_i hk
          exact Moves.processEval hO env env' i _ (hm.eval h2 (by simp [hk]))
        · split
          · rename_i hk
            exact absurd (by simp [hk]) (hm.stats h2)
          · refine Moves.of (A := fun _ _ => True) fun c => ?_
            split
            · exact RM.bindU (RM.modify fun _ _ h => { h with frozen := rfl }) (RM.respond hO _ _ _)
            · split
              · exact RM.bindU (RM.modify fun _ _ h => { h with frozen := rfl }) (RM.respond hO _ _ _)
              · exact RM.pure trivial
    · rw [if_neg h2, if_neg h2, if_neg hk, if_neg hk]
      exact Moves.of (A := fun _ _ => True) fun _ => RM.pure trivial

theorem Moves.requestF {P : Parts} {O : List Msg → List Msg → Prop} (hO : More P O)
    (hP : ∀ l l' m, m.key = keyMonitor → O l l' → O (l ++ [m]) l') (cfg : HConfig) (env : Env) {m : Msg}
    (hm : P.Drops m) : Moves P O (onRequest cfg env m : HM Q _) (Pure.pure () : HM Q Unit) := by
  obtain ⟨key, i, d⟩ := m
  unfold onRequest
  simp only
  by_cases h1 : key = keyWorkers
  · rw [if_pos h1]
    have hi : P.mine i = false := hm.worker h1
    refine Moves.bindLU (fun _ => AM.touchWorker cfg hi) ?_
    cases d with
    | nil => exact Moves.of (A := fun _ _ => True) fun _ => RM.raise _ _
    | cons k rest =>
      simp only
      unfold workerCommand
      have hd : ∀ k' g rest', k = "init" → k :: rest = k' :: g :: rest' → k :: rest = "init" :: g :: rest' := by
        intro k' g rest' hk e
        rw [← hk, e]
        congr 1
        exact (List.cons.inj e).1.symm
      split
      · rename_i hk
        exact Moves.processInitF hO env _ (fun k' g rest' e => hm.init h1 g rest' (hd k' g rest' hk e))
          (fun k' g rest' e => hm.job h1 g rest' (hd k' g rest' hk e))
      · refine Moves.of (A := fun _ _ => True) fun c => ?_
        split
        · exact AM.processDone hO cfg env hi _
        · split
          · exact AM.processPing hO hi
          · split
            · exact AM.modify fun s s' h => { h with outs := hP _ _ _ rfl h.outs }
            · exact RM.pure trivial
  · rw [if_neg h1]
    obtain ⟨h2, h3⟩ := hm.key.resolve_left h1
    have h2 : key = keyClients := h2
    rw [if_pos h2]
    cases d with
    | nil => exact Moves.of (A := fun _ _ => True) fun _ => RM.raise _ _
    | cons k rest =>
      simp only
      unfold clientCommand
      split
      · rename_i hk
        exact Moves.processEvalF hO env i _ (hm.eval h2 (by simp [hk])) (hm.evalJob h2 (by simp [hk]))
      · rename_i hk
        have hk' : k = "get-runtime-stats" := by
          rcases h3 with h3 | h3
          · exact absurd (by simpa using h3) hk
          · simpa using h3
        rw [if_pos hk']
        refine Moves.of (A := fun _ _ => True) fun c => ?_
        exact RM.getL fun s s' h => AM.respond hO (foreign_client _ _)

/-- What was left out: messages that do not concern us. -/
inductive LeftOut (F : Msg → Prop) : List Msg → List Msg → Prop
  | nil : LeftOut F [] []
  | both {l l' : List Msg} (m : Msg) (h : LeftOut F l l') : LeftOut F (l ++ [m]) (l' ++ [m])
  | more {l l' : List Msg} (m : Msg) (hm : F m) (h : LeftOut F l l') : LeftOut F (l ++ [m]) l'

/-- **One message of ours.** -/
theorem step_ours {P : Parts} (cfg : HConfig) {env env' : Env} (he : ApartQM.EnvR Q env env') {m : Msg}
    (hm : P.Keeps m) (hk : m.key ≠ keyTimer) {c : Corr} {s s' t : HState Q} (h : SR0 P c s s')
    (hs : step cfg env m s = .ok () t) :
    ∃ c' t', step cfg env' m s' = .ok () t' ∧ SR0 P c' t t' ∧ t'.outs = t.outs := by
  obtain ⟨c', _, t', h1, h2⟩ := Moves.request (O := fun l l' => l' = l)
    (fun {l l'} m e => by rw [e]) cfg he hm hk c _ _ (h.start rfl) () t hs
  exact ⟨c', t', h1, h2.stop, h2.outs⟩

/-- **One message of the others.** -/
theorem step_others {P : Parts} (cfg : HConfig) (env : Env) {m : Msg}
    (hm : P.Drops m) {c : Corr} {s s' t : HState Q} (h : SR0 P c s s')
    (hs : step cfg env m s = .ok () t) : ∃ c', SR0 P c' t s' ∧ ∀ x ∈ t.outs, P.Outside x := by
  have h0 : SR P (fun l _ => ∀ x ∈ l, P.Outside x) noAddr noAddr c { s with outs := [] } s' :=
    { h with outs := by simp }
  have hO : More P (fun l _ => ∀ x ∈ l, P.Outside x) := by
    intro l l' x hx h y hy
    rcases List.mem_append.1 hy with hy | hy
    · exact h y hy
    · rw [List.mem_singleton.1 hy]; exact ⟨hx.worker, hx.status⟩
  have hP : ∀ (l l' : List Msg) m, m.key = keyMonitor → (∀ x ∈ l, P.Outside x) →
      ∀ x ∈ l ++ [m], P.Outside x := by
    intro l l' x hx h y hy
    rcases List.mem_append.1 hy with hy | hy
    · exact h y hy
    · rw [List.mem_singleton.1 hy]
      exact ⟨fun e => absurd (hx.symm.trans e) (by decide), fun e => absurd (hx.symm.trans e) (by decide)⟩
  obtain ⟨c', _, t', h1, h2⟩ := Moves.requestF @hO hP cfg env hm c _ _ h0 () t hs
  cases h1
  exact ⟨c', h2.stop, h2.outs⟩

/-- **A message of the timer.** -/
theorem step_timer {P : Parts} (cfg : HConfig) (env env' : Env) {m : Msg}
    (hk : m.key = keyTimer) {c : Corr} {s s' t : HState Q} (h : SR0 P c s s')
    (hs : step cfg env m s = .ok () t) :
    ∃ t', step cfg env' m s' = .ok () t' ∧ SR0 P c t t' ∧ LeftOut P.Foreign t.outs t'.outs := by
  have hx : ∀ e : Env, (onRequest cfg e m : HM Q Unit) = processTimer cfg e m.data := by
    intro e
    unfold onRequest
    rw [hk]
    rfl
  unfold step at hs ⊢
  rw [hx] at hs ⊢
  obtain ⟨b, t', h1, -, h2⟩ := RM.processTimer (O := LeftOut P.Foreign) (fun {l l'} m h => .both m h)
    (fun {l l'} m hm h => .more m hm h) cfg env env' m.data _ _ (h.start .nil) () t hs
  exact ⟨t', h1, h2.stop, h2.outs⟩

end Broker
