import Verif.Props.Progress
import Verif.Props.Liveness
import Verif.Props.Robustness
import Verif.Proof.Expiry

/-! # A worker in the registry keeps what it is processing until it reports -/

set_option linter.unusedSectionVars false
set_option linter.unusedSimpArgs false

namespace Broker

open QueueManager LawfulQM

variable {Q : Type} [QueueManager Q] [LawfulQM Q]

/-- A step that is no `done` of the worker's identity keeps its job, even if it is an `init`. -/
theorem StepInfo.keeps_init {cfg : HConfig} {env : Env} {m : Msg} {s s' : HState Q} {evs : List Ev}
    (hi : StepInfo cfg env m s s' evs) (h : HInv s) {w : Worker} {r : Req}
    (hb : (w, r) ∈ busy s.queue)
    (hm : ¬ (m.key = keyWorkers ∧ m.identity = w.identity ∧ m.data.head? = some "done"))
    (hw : w ∈ s'.workers) : (w, r) ∈ busy s'.queue := by
  by_cases hinit : m.key = keyWorkers ∧ m.identity = w.identity ∧ m.data.head? = some "init"
  · obtain ⟨hk, hid, hd⟩ := hinit
    have hne := hi.no_expire (by rw [hk]; exact wkey_ne_tkey)
    refine hi.steps.keeps (LawfulQM.reg_nodup h.qinv) hb ?_ ?_ (hi.inv.mem_reg.1 hw)
    · intro e he hx
      have hs := hi.script.init_inv hk hd
      have reg : ∀ {w' cur evs'}, RegScript w' cur evs' → e ∈ evs' → False := by
        intro w' cur evs' hr he'
        cases hr <;> simp at he' <;> rcases he' with rfl | rfl <;> simp [Ev.ends] at hx
      cases hs with
      | short => simp at he
      | same => simp at he
      | fresh hm hw hn hf hr => exact reg hr he
      | again hm hw hne hn hf hr =>
        rcases List.mem_cons.1 he with rfl | he
        · simp [Ev.ends] at hx
        · exact reg hr he
    · intro e he hx
      obtain ⟨a, b, rfl⟩ := List.append_of_mem he
      obtain ⟨L1, h1, h2⟩ := hi.steps.append_inv
      rw [List.countP_append] at hne
      have hw1 := h1.reg_mono (by omega) (busy_reg h.qinv _ hb)
      cases h2 with
      | cons h3 _ =>
        cases h3 with
        | register w' cur hwf hf hcur =>
          simp only [Ev.registers, Option.some.injEq] at hx
          subst hx
          exact hf (Multiset.mem_map.2 ⟨_, hw1, rfl⟩)
        | _ => simp [Ev.registers] at hx
  · refine hi.keeps h hb ?_ hw
    rintro ⟨h1, h2, h3 | h3⟩
    · exact hm ⟨h1, h2, h3⟩
    · exact hinit ⟨h1, h2, h3⟩

omit [QueueManager Q] [LawfulQM Q] in
/-- The first worker with an identity stays the first when others are removed. -/
theorem find_sublist {α β : Type} {f : α → β} {p : α → Bool} {w : α} : ∀ {l' l : List α},
    l'.Sublist l → (l.map f).Nodup → l.find? p = some w → w ∈ l' → l'.find? p = some w := by
  intro l' l h
  induction h with
  | slnil => intro _ _ h; simp at h
  | @cons l1 l2 a h ih =>
    intro hn hf hw
    rw [List.map_cons, List.nodup_cons] at hn
    rw [List.find?_cons] at hf
    split at hf
    · cases hf
      exact absurd (List.mem_map.2 ⟨_, h.subset hw, rfl⟩) hn.1
    · exact ih hn.2 hf hw
  | @cons_cons l1 l2 a h ih =>
    intro hn hf hw
    rw [List.map_cons, List.nodup_cons] at hn
    rw [List.find?_cons] at hf ⊢
    split at hf
    · exact hf
    · rename_i hp
      rcases List.mem_cons.1 hw with rfl | hw
      · have := List.find?_some hf
        rw [this] at hp; cases hp
      · exact ih hn.2 hf hw

theorem removeAll_sublist : ∀ (xs ws : List Worker), (removeAll xs ws).Sublist ws
  | [], _ => List.Sublist.refl _
  | x :: xs, ws => by
    rw [removeAll]
    refine (removeAll_sublist xs _).trans ?_
    clear xs
    induction ws with
    | nil => exact List.Sublist.refl _
    | cons a t ih =>
      rw [regRemove]
      split
      · exact List.sublist_cons_self _ _
      · exact ih.cons_cons _

/-- What a timer message leaves of the registry. -/
theorem tick_find {cfg : HConfig} {env : Env} {m : Msg} {s s' : HState Q} (h : HInv s)
    (hs : step cfg env m s = .ok () s') (hk : m.key = "timer") {i : String} {w : Worker}
    (hf : s.workers.find? (fun w => w.identity == i) = some w) (hw : w ∈ s'.workers) :
    s'.workers.find? (fun w => w.identity == i) = some w := by
  obtain ⟨evs, hi⟩ := step_info h hs
  obtain ⟨f, rest, time, xs, _, _, hc⟩ := hi.script.timer_inv hk
  refine find_sublist (f := (·.addr)) (l := s.workers) ?_ h.addr_nodup hf hw
  rw [hc.workers]
  exact removeAll_sublist xs _

/-- A ping leaves registry and queues alone. -/
theorem ping_step {cfg : HConfig} {env : Env} {i : String} {s s' : HState Q} (h : HInv s)
    (hs : step cfg env ⟨"workers", i, ["ping"]⟩ s = .ok () s') :
    s'.workers = s.workers ∧ s'.queue = s.queue := by
  obtain ⟨evs, hi⟩ := step_info h hs
  have := hi.script.ping_inv rfl (rest := []) rfl
  rw [this]
  constructor
  · show (HState.heard cfg i { s with outs := [] }).workers = _
    rw [heard_frame]
  · show (HState.heard cfg i { s with outs := [] }).queue = _
    rw [heard_frame]

end Broker
