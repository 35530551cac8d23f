import Verif.Proof.Journal
import Verif.Props.Log
import Verif.Props.Fatal

/-!
# C109: what is in the log
-/

set_option linter.unusedSectionVars false

namespace Broker

open LawfulQM

variable {Q : Type} [QueueManager Q] [LawfulQM Q] [Carries Q] [Refers Q] [Steady Q]

/-- **C109.**  At every level, the entries in the log, except those about the dispatch of jobs, are
    those the messages call for, message by message and in order, as far as the level admits them. -/
theorem C109_journal {lv : Level} {cfg : HConfig} {env : Env} {h : List (Tr Q)} {s : HState Q}
    {log : List LogEntry} (hr : LRun lv cfg env h log s) :
    (log.filter fun e => !Spec.isDispatch e) =
      (h.flatMap Spec.journal).filter fun e => decide (lv.toNat ≤ e.level.toNat) := by
  obtain ⟨full, hf⟩ := (C80_histories (lv := .trace)).2 hr.run
  rw [C80_filter hr hf, List.filter_filter]
  have hcore : core full = h.flatMap Spec.journal := by
    clear hr
    induction hf with
    | nil => rfl
    | @snoc h log es s s' m hr hst ih =>
      have hrun := LRun.run (.snoc hr hst)
      rw [core_append, ih, List.flatMap_append,
        stepLog_core hrun.inv.1.qinv hr.run.inv.1.addr_nodup hst]
      simp
  rw [← hcore, core, List.filter_filter]
  refine List.filter_congr fun e _ => ?_
  rw [Bool.and_comm]

/-- **C109, from `info` on.**  A logger of level `info` or above writes nothing else. -/
theorem C109_info {lv : Level} {cfg : HConfig} {env : Env} {h : List (Tr Q)} {s : HState Q}
    {log : List LogEntry} (hr : LRun lv cfg env h log s) (hl : Level.info.toNat ≤ lv.toNat) :
    log = (h.flatMap Spec.journal).filter fun e => decide (lv.toNat ≤ e.level.toNat) := by
  rw [← C109_journal hr]
  symm
  rw [List.filter_eq_self]
  obtain ⟨full, hf⟩ := (C80_histories (lv := .trace)).2 hr.run
  rw [C80_filter hr hf]
  intro e he
  have h1 := of_decide_eq_true (List.mem_filter.1 he).2
  cases e <;> first | rfl | (exfalso; revert h1 hl; simp only [LogEntry.level, Level.toNat]; omega)

/-! ## Messages that end the broker -/

section

omit [LawfulQM Q] [Carries Q] [Refers Q] [Steady Q]

/-- If the computation fails, this has been written. -/
def Fails {α : Type} (x : LM Q α) (s : LState Q) (l : List LogEntry) : Prop :=
  ∀ e t, x s = .error e t → t.log = l

theorem fails_bind {α β : Type} {x : LM Q α} {f : α → LM Q β} {s : LState Q} {l : List LogEntry}
    (h : Fails x s l) (hf : Ends x s fun a t => Fails (f a) t l) : Fails (x >>= f) s l := by
  intro e t he
  simp only [bind, EStateM.bind] at he
  cases hx : x s with
  | error e' u => rw [hx] at he; cases he; exact h _ _ hx
  | ok a u => rw [hx] at he; exact hf a u hx e t he

theorem fails_quiet {α : Type} {y : HM Q α} {s : LState Q} : Fails (quiet y) s s.log := by
  intro e t he
  simp only [quiet] at he
  cases hy : y s.h with
  | error e' u => rw [hy] at he; cases he; rfl
  | ok b u => rw [hy] at he; cases he

theorem fails_write {en : LogEntry} {s : LState Q} {l : List LogEntry} :
    Fails (write .trace en) s l := by
  intro e t he
  cases he

theorem fails_pure {α : Type} {a : α} {s : LState Q} {l : List LogEntry} :
    Fails (pure a : LM Q α) s l := by
  intro e t he
  cases he

theorem fails_write_bind {β : Type} {en : LogEntry} {f : Unit → LM Q β} {s : LState Q}
    {l : List LogEntry} (h : Fails (f ()) ⟨s.h, s.log ++ [en]⟩ l) :
    Fails (write .trace en >>= f) s l :=
  fails_bind fails_write (ends_write h)

theorem fails_quiet_bind {α β : Type} {y : HM Q α} {f : α → LM Q β} {s : LState Q}
    (h : EndsH y s.h fun a h' => Fails (f a) ⟨h', s.log⟩ s.log) :
    Fails (quiet y >>= f) s s.log :=
  fails_bind fails_quiet (ends_quiet h)

end

/-- **C109, the end.**  The entries about a message that ends the broker are those about its receipt;
    nothing of level `warn` or above is written. -/
theorem C109_fatal {lv : Level} {cfg : HConfig} {env : Env} {h : List (Tr Q)} {s s' : HState Q}
    (hr : Run cfg env h s) {m : Msg} {e : Err} {es : List LogEntry}
    (hs : stepLog lv cfg env m s = .error e ⟨s', es⟩) :
    es = (Spec.lastEntries m).filter fun e => decide (lv.toNat ≤ e.level.toNat) := by
  obtain ⟨full, hall⟩ := C80_same hr m
  have hst : step cfg env m s = .error e s' ∧
      es = full.filter fun e => decide (lv.toNat ≤ e.level.toNat) := by
    have := hall lv
    rw [hs] at this
    cases hx : step cfg env m s with
    | ok _ _ => rw [hx] at this; cases this
    | error x t => rw [hx] at this; cases this; exact ⟨rfl, rfl⟩
  rw [hst.2]
  congr 1
  have htr : stepLog .trace cfg env m s = .error e ⟨s', full⟩ := by
    have := hall .trace
    rw [hst.1] at this
    rw [this]
    have : (full.filter fun e => decide (Level.trace.toNat ≤ e.level.toNat)) = full :=
      List.filter_eq_self.2 fun _ _ => by simp [Level.toNat]
    simp only [this]
  have hfatal := fatal_of_error hr hst.1
  obtain ⟨k, i, d⟩ := m
  suffices hx : Fails (onRequestL .trace cfg env ⟨k, i, d⟩) ⟨{ s with outs := [] }, []⟩
      (Spec.lastEntries ⟨k, i, d⟩) from hx _ _ htr
  have ht : EndsH (touchWorker cfg i) { s with outs := [] } fun _ h' =>
      h'.workers = s.workers ∧ h'.queue = s.queue := by
    unfold touchWorker
    refine endsH_bind (endsH_get ?_)
    split
    · exact endsH_pure ⟨rfl, rfl⟩
    · exact endsH_set ⟨rfl, rfl⟩
  have htF : ∀ (u : LState Q) (l : List LogEntry), Fails (quiet (touchWorker cfg i)) u l := by
    intro u l e t he
    unfold touchWorker quiet at he
    simp only [bind, EStateM.bind, get, getThe, MonadStateOf.get, EStateM.get] at he
    cases hx : regFind i u.h.workers with
    | none => rw [hx] at he; cases he
    | some w => rw [hx] at he; cases he
  have k1 : ¬ ("clients" : String) = keyWorkers := by decide
  have k2 : ¬ ("timer" : String) = keyWorkers := by decide
  have k3 : ¬ ("timer" : String) = keyClients := by decide
  clear htr hs hall hst
  unfold onRequestL
  dsimp only
  cases hfatal with
  | empty hk hd =>
    dsimp only at hk hd
    subst hd
    rcases hk with rfl | rfl
    · rw [if_pos (by rfl)]
      exact fails_quiet_bind fun _ _ _ => fails_quiet
    · rw [if_neg k1, if_pos (by rfl)]
      exact fails_quiet
  | @init g fs x hk hd hx =>
    dsimp only at hk hd
    subst hk hd
    rw [if_pos (by rfl)]
    refine fails_bind (htF _ _) (ends_quiet (ht.mono fun _ h0 _ => ?_))
    dsimp only
    unfold workerCommandL processInitL
    rw [if_pos rfl]
    refine fails_write_bind ?_
    refine fails_quiet_bind (endsH_get ?_)
    have hreg : ∀ h1 : HState Q, Fails (registerWorkerL .trace env i g (initHeaders fs []).1
        (initHeaders fs []).2 (g :: fs)) ⟨h1, [.initReceived]⟩ [.initReceived] := by
      intro h1
      unfold registerWorkerL
      refine fails_quiet_bind (endsH_get (fails_quiet_bind ?_))
      rw [create_error_iff.2 hx]
      exact endsH_raise
    dsimp only
    split
    · split
      · exact fails_pure
      · exact fails_quiet_bind (endsH_modify (hreg _))
    · exact hreg _
  | @done w j st rest hk hd hw hi =>
    dsimp only at hk hd hw
    subst hk hd
    rw [if_pos (by rfl)]
    refine fails_bind (htF _ _) (ends_quiet (ht.mono fun _ h0 ⟨h1, h2⟩ => ?_))
    dsimp only
    unfold workerCommandL processDoneL
    rw [if_neg (by decide), if_pos rfl]
    refine fails_write_bind (fails_quiet_bind (endsH_get ?_))
    unfold regFind
    dsimp only
    rw [h1, hw]
    dsimp only
    refine fails_quiet_bind ?_
    have hq : EndsH (qCurrent w) h0 fun o _ => o = none := by
      unfold qCurrent
      rw [← h2] at hi
      exact endsH_bind (endsH_get (endsH_bind (endsH_modify (endsH_pure hi))))
    refine hq.mono fun o _ ho => ?_
    subst ho
    exact fails_quiet
  | evalAlone hk hd =>
    dsimp only at hk hd
    subst hk hd
    rw [if_neg k1, if_pos (by rfl)]
    dsimp only
    unfold clientCommandL processEvalL
    rw [if_pos rfl]
    exact fails_write_bind (fails_quiet_bind (endsH_modify fails_quiet))
  | evalShort hk hd =>
    dsimp only at hk hd
    subst hk hd
    rw [if_neg k1, if_pos (by rfl)]
    dsimp only
    unfold clientCommandL processEvalL
    rw [if_pos rfl]
    exact fails_write_bind (fails_quiet_bind (endsH_modify fails_quiet))
  | @eval j fs x w hk hd hdel hf hw hx =>
    dsimp only at hk hd
    subst hk hd
    have hl : Spec.lastEntries ⟨"clients", i, "eval" :: j :: fs⟩ = [.evalReceived, .incoming j] := by
      simp [Spec.lastEntries, hdel]
    rw [hl, if_neg k1, if_pos (by rfl)]
    dsimp only
    unfold clientCommandL processEvalL
    rw [if_pos rfl]
    refine fails_write_bind (fails_bind ?_ (ends_quiet (endsH_modify ?_)))
    · intro e t he
      cases he
    have hdrop : ("eval" :: j :: fs).drop 2 = fs := rfl
    dsimp only [List.getElem?_cons_succ, List.getElem?_cons_zero]
    rw [hdrop]
    obtain ⟨⟨hd, md, ad⟩, he⟩ := evalHeaders_exists [] [] hdel
    rw [he]
    dsimp only
    refine fails_bind (fun e t he => by cases he) (ends_quiet (endsH_get ?_))
    dsimp only
    rw [if_neg (by rw [hf]; decide)]
    unfold submitL
    refine fails_write_bind (fails_quiet_bind (endsH_get (fails_quiet_bind (endsH_set
      (fails_quiet_bind fun res h1 _ => ?_)))))
    have hresp : ∀ {s : LState Q} {k i : String} {d : List String} {l : List LogEntry},
        Fails (quiet (respond k i d)) s l := fun _ _ he => by cases he
    dsimp only
    split
    · split
      · exact fails_bind (fails_bind hresp fun _ _ _ => fails_write) fun _ _ _ => hresp
      · exact fails_bind fails_write fun _ _ _ => hresp
    · refine fails_bind fails_write fun _ _ _ => fails_bind ?_ fun _ _ _ =>
        fails_bind hresp fun _ _ _ => hresp
      have : ∀ (l : List LogEntry) (hd : Headers) (u : LState Q),
          Fails (writeHeaders .trace hd) u l := by
        intro l hd
        induction hd with
        | nil => exact fun u => fails_pure
        | cons x t ih => exact fun u => fails_write_bind (ih _)
      exact this _ _ _
  | timerEmpty hk hd =>
    dsimp only at hk hd
    subst hk hd
    rw [if_neg k2, if_neg k3, if_pos (by rfl)]
    unfold processTimerL
    exact fails_quiet
  | timer hk hd hx =>
    dsimp only at hk hd
    subst hk hd
    rw [if_neg k2, if_neg k3, if_pos (by rfl)]
    unfold processTimerL
    refine fails_quiet_bind ?_
    rw [(stoll_error_iff _ _).2 hx]
    exact endsH_raise

/-! ## Examples -/

/-- A worker that is idle, gets jobs and reports nonsense; requests that are cut short, refused by the
    frozen broker and refused for their headers; strangers; expiry. -/
def journalMsgs : List Msg :=
  [fromW "w" ["init"], fromW "w" ["init", "g", "env=c"], fromW "w" ["init", "g", "env=c"],
   fromC "c" ["eval", "J", "env=c", ""], fromC "c" ["eval", "K", "env=c", ""],
   fromC "c" ["eval", "L", "zone=b", "meta.x=1", "env=c", "zone=a", ""], fromC "c" ["eval", "L", "env=c"],
   fromC "c" ["freeze"], fromC "c" ["eval", "L", "env=c", ""], fromC "c" ["unfreeze"],
   fromC "c" ["get-runtime-stats"], fromC "c" ["hello"], fromW "v" ["done", "J", "OK"],
   fromW "w" ["done", "J"], fromW "w" ["done", "K", "OK"], fromW "w" ["done", "J", "FAILED"],
   fromW "w" ["done", "J", "INTERNAL_ERROR", "a", "b"], fromW "w" ["done", "J", "DONE"],
   fromW "w" ["done", "J", "OK"], fromW "w" ["done", "K", "FAILED", "x"], fromW "w" ["ping"],
   tick "1001", tick "1001", tick "1001", tick "1001"]

/-- What they leave in the log, up to the dispatch of jobs. -/
def journalLog : List LogEntry :=
  [.initReceived, .initNoArgument, .initReceived, .added "77" "g env=c ", .initReceived,
   .evalReceived, .incoming "J", .evalReceived, .incoming "K", .saved,
   .evalReceived, .incoming "L", .rejectedHeaders "L", .rejectedHeader "env" "c",
   .rejectedHeader "zone" "b", .rejectedHeader "zone" "a", .evalReceived, .unexpectedEnd,
   .frozen, .evalReceived, .rejectedFrozen "L", .unfrozen, .statsRequested,
   .doneReceived, .doneUnknown, .doneReceived, .doneShort "77", .doneReceived,
   .doneMismatch "77" "K" "J", .doneReceived, .failedArgs "77", .doneReceived, .internalArgs "77",
   .doneReceived, .unexpectedStatus "DONE" "77", .doneReceived, .doneReceived, .free "77",
   .expired "77"]

/-- A history in which every kind of entry occurs. -/
example : ∃ (h : List (Tr Multi)) (log : List LogEntry) (s : HState Multi),
    LRun .debug cfg0 env0 h log s ∧ h.flatMap Spec.journal = journalLog ∧
    log.filterMap Spec.sentEntry = [("J", "77"), ("K", "77")] := by
  obtain ⟨h, log, s, hr, hp⟩ := exists_lrun (Q := Multi) (lv := .debug) (cfg := cfg0) (env := env0)
    journalMsgs (fun h log _ => h.flatMap Spec.journal == journalLog &&
      log.filterMap Spec.sentEntry == [("J", "77"), ("K", "77")]) (by decide +kernel)
  rw [Bool.and_eq_true, beq_iff_eq, beq_iff_eq] at hp
  exact ⟨h, log, s, hr, hp.1, hp.2⟩

/-- What a logger of level `err` writes in that history. -/
example : ∃ (h : List (Tr Single)) (log : List LogEntry) (s : HState Single),
    LRun .err cfg0 env0 h log s ∧ log = [.rejectedHeaders "L", .rejectedHeader "env" "c",
      .rejectedHeader "zone" "b", .rejectedHeader "zone" "a", .rejectedFrozen "L", .doneShort "77",
      .doneMismatch "77" "K" "J"] := by
  obtain ⟨h, log, s, hr, hp⟩ := exists_lrun (Q := Single) (lv := .err) (cfg := cfg0) (env := env0)
    journalMsgs (fun _ log _ => log == [.rejectedHeaders "L", .rejectedHeader "env" "c",
      .rejectedHeader "zone" "b", .rejectedHeader "zone" "a", .rejectedFrozen "L", .doneShort "77",
      .doneMismatch "77" "K" "J"]) (by decide +kernel)
  exact ⟨h, log, s, hr, beq_iff_eq.1 hp⟩

/-- A message that ends the broker and what is in the log about it. -/
example : ∃ (h : List (Tr Multi)) (s s' : HState Multi) (e : Err), Run cfg0 env0 h s ∧
    stepLog .debug cfg0 env0 (fromC "c" ["eval", "J", "threads=two", ""]) s =
      .error e ⟨s', [.evalReceived, .incoming "J"]⟩ := by
  obtain ⟨h, s, hr, hp⟩ := exists_run (Q := Multi) (cfg := cfg0) (env := env0)
    [fromW "w" ["init", "g", "threads=4"]]
    (fun _ s => match stepLog .debug cfg0 env0 (fromC "c" ["eval", "J", "threads=two", ""]) s with
      | .error _ t => t.log == [.evalReceived, .incoming "J"]
      | .ok _ _ => false) (by decide +kernel)
  split at hp
  · rename_i e t ht
    refine ⟨h, s, t.h, e, hr, ?_⟩
    rw [ht]
    rw [← beq_iff_eq.1 hp]
  · cases hp

end Broker
