import Verif.Proof.ApartStep
import Verif.Proof.Capability
import Verif.Proof.Frames
import Verif.Spec.Apart

/-! # Executions with and without the others -/

namespace Broker

/-- The parts according to the specification. -/
def parts (mine : String → Bool) (asks : Msg → Bool) (ms : List Msg) : Parts where
  mine := mine
  reqA hs := ∃ m ∈ ms, Spec.ours mine asks m = true ∧ m.key = keyClients ∧ m.data.head? = some "eval" ∧
    ∃ md ex, evalHeaders (m.data.drop 2) [] [] = .ok (some (hs, md, ex))
  reqB hs := ∃ m ∈ ms, Spec.ours mine asks m = false ∧ m.key = keyClients ∧ m.data.head? = some "eval" ∧
    ∃ md ex, evalHeaders (m.data.drop 2) [] [] = .ok (some (hs, md, ex))
  jobB := Spec.Theirs mine asks ms

theorem create_identity {a : Nat} {i g : String} {hs : Headers} {d : String} {w : Worker}
    (h : Worker.create a i g hs d = .ok w) : w.identity = i := by
  unfold Worker.create at h
  cases hm : addMatchers hs (mmEmplace "hwgroup" (.multi g) []) with
  | error e => rw [hm] at h; cases h
  | ok l => rw [hm] at h; cases h; rfl

variable {mine : String → Bool} {asks : Msg → Bool} {ms : List Msg}

theorem ours_worker {m : Msg} (h : m.key = keyWorkers) : Spec.ours mine asks m = mine m.identity := by
  unfold Spec.ours
  rw [if_pos (show m.key = "workers" from h)]

theorem ours_eval {m : Msg} (h : m.key = keyClients) (he : m.data.head? = some "eval") :
    Spec.ours mine asks m = asks m := by
  unfold Spec.ours
  have h' : m.key = "clients" := h
  rw [if_neg (by rw [h']; decide), if_pos h', if_pos he]

theorem apart_not_can (ha : Spec.Apart mine asks ms) {m x : Msg} (hm : m ∈ ms) (hx : x ∈ ms)
    (hk : m.key = keyWorkers) {g : String} {rest : List String} (hd : m.data = "init" :: g :: rest)
    (hxk : x.key = keyClients) (hxe : x.data.head? = some "eval") (hne : mine m.identity ≠ asks x)
    {hs : Headers} {md : Metadata} {ex : List String}
    (hp : evalHeaders (x.data.drop 2) [] [] = .ok (some (hs, md, ex))) {a : Nat} {d : String} {w : Worker}
    (hw : Worker.create a m.identity g (initHeaders rest []).1 d = .ok w) : w.checkHeaders hs ≠ .ok true := by
  obtain ⟨mk, mi, mdata⟩ := m
  obtain ⟨xk, xi, xd⟩ := x
  cases hk
  cases hd
  cases hxk
  match xd, hxe, hp with
  | [], hxe, _ => cases hxe
  | [_], _, hp => cases hp
  | e :: j :: fs, hxe, hp =>
    cases hxe
    intro hc
    exact ha mi g rest hm xi j fs hx hne ((can_iff hw hp).1 hc)

theorem parts_keeps (ha : Spec.Apart mine asks ms) {m : Msg} (hm : m ∈ ms)
    (ho : Spec.ours mine asks m = true) : (parts mine asks ms).Keeps m where
  worker h := by rw [ours_worker h] at ho; exact ho
  init h g rest hd a d w hw := by
    rw [ours_worker h] at ho
    refine ⟨by rw [create_identity hw]; exact ho, ?_⟩
    rintro hs ⟨x, hx, hxo, hxk, hxe, md, ex, hp⟩
    refine apart_not_can ha hm hx h hd hxk hxe ?_ hp hw
    rw [ours_eval hxk hxe] at hxo
    rw [ho, hxo]
    decide
  eval h he hs md ex hp := ⟨m, hm, ho, h, he, md, ex, hp⟩
  stats h he := by
    unfold Spec.ours at ho
    have h' : m.key = "clients" := h
    rw [if_neg (by rw [h']; decide), if_pos h', he, if_neg (by decide)] at ho
    revert ho
    decide

theorem parts_drops (ha : Spec.Apart mine asks ms) {m : Msg} (hm : m ∈ ms)
    (ho : Spec.ours mine asks m = false) : (parts mine asks ms).Drops m where
  key := by
    by_cases h1 : m.key = "workers"
    · exact .inl h1
    · right
      have ho' := ho
      unfold Spec.ours at ho'
      rw [if_neg h1] at ho'
      by_cases h2 : m.key = "clients"
      · rw [if_pos h2] at ho'
        refine ⟨h2, ?_⟩
        by_cases h3 : m.data.head? = some "eval"
        · exact .inl h3
        · rw [if_neg h3] at ho'
          exact .inr (by simpa using ho')
      · rw [if_neg h2] at ho'
        cases ho'
  worker h := by rw [ours_worker h] at ho; exact ho
  init h g rest hd a d w hw := by
    rw [ours_worker h] at ho
    refine ⟨by rw [create_identity hw]; exact ho, ?_⟩
    rintro hs ⟨x, hx, hxo, hxk, hxe, md, ex, hp⟩
    refine apart_not_can ha hm hx h hd hxk hxe ?_ hp hw
    rw [ours_eval hxk hxe] at hxo
    rw [ho, hxo]
    decide
  job h g rest hd j hj := by
    refine ⟨m, hm, ho, .inr ⟨h, by rw [hd]; rfl, ?_⟩⟩
    rw [hd, currentJob_eq]
    exact hj
  eval h he hs md ex hp := ⟨m, hm, ho, h, he, md, ex, hp⟩
  evalJob h he j hj := by
    refine ⟨m, hm, ho, .inl ⟨h, ?_⟩⟩
    match hd : m.data with
    | [] => rw [hd] at he; cases he
    | [_] => rw [hd] at hj; cases hj
    | e :: k :: fs =>
      rw [hd] at he hj
      cases he
      cases hj
      rfl

theorem LeftOut.toSpec {F G : Msg → Prop} (hF : ∀ m, F m → G m) {l l' : List Msg} (h : LeftOut F l l') :
    Spec.LeavesOut G l l' := by
  have happ : ∀ {a a' b b' : List Msg}, Spec.LeavesOut G a a' → Spec.LeavesOut G b b' →
      Spec.LeavesOut G (a ++ b) (a' ++ b') := by
    intro a a' b b' h1 h2
    induction h1 with
    | nil => exact h2
    | keep m _ ih => exact .keep m ih
    | drop hm _ ih => exact .drop hm ih
  induction h with
  | nil => exact .nil
  | both m _ ih => exact happ ih (.keep m .nil)
  | @more l l' m hm _ ih =>
    have := happ ih (.drop (hF m hm) .nil)
    rwa [List.append_nil] at this

variable {Q : Type} [QueueManager Q] [ApartQM Q]

/-- **Executions with and without the others.** -/
theorem apart_transcript (cfg : HConfig) {env env' : Env} (he : ApartQM.EnvR Q env env') {P : Parts}
    {o : Msg → Bool} (l : List Msg) : (∀ m ∈ l, o m = true → P.Keeps m) → (∀ m ∈ l, o m = false → P.Drops m) →
    ∀ {c : Corr} {s s' : HState Q}, SR0 P c s s' → (∀ x ∈ transcript cfg env s l, x.2 = none) →
    List.Forall₂ (fun x y => y.2 = none ∧
        if x.1.key = keyTimer then LeftOut P.Foreign x.2.1 y.1 else y.1 = x.2.1)
      ((l.zip (transcript cfg env s l)).filter fun x => o x.1) (transcript cfg env' s' (l.filter o)) ∧
    ∀ x ∈ l.zip (transcript cfg env s l), o x.1 = false → ∀ m ∈ x.2.1, P.Outside m := by
  induction l with
  | nil => intro _ _ c s s' _ _; exact ⟨.nil, by simp⟩
  | cons m l ih =>
    intro hk hd c s s' h hok
    have hk' := fun x hx => hk x (List.mem_cons_of_mem _ hx)
    have hd' := fun x hx => hd x (List.mem_cons_of_mem _ hx)
    cases hs : step cfg env m s with
    | error e t =>
      have e1 : transcript cfg env s (m :: l) = [(t.outs, some e)] := by simp only [transcript, hs]
      rw [e1] at hok
      exact nomatch hok (t.outs, some e) (by simp)
    | ok u t =>
      have e1 : transcript cfg env s (m :: l) = (t.outs, none) :: transcript cfg env t l := by
        simp only [transcript, hs]
      rw [e1] at hok ⊢
      rw [List.zip_cons_cons]
      have hok' := fun x hx => hok x (List.mem_cons_of_mem _ hx)
      cases ho : o m with
      | true =>
        rw [List.filter_cons_of_pos (by exact ho), List.filter_cons_of_pos ho]
        have hmain : ∃ c' t', step cfg env' m s' = .ok () t' ∧ SR0 P c' t t' ∧
            if m.key = keyTimer then LeftOut P.Foreign t.outs t'.outs else t'.outs = t.outs := by
          by_cases hkey : m.key = keyTimer
          · obtain ⟨t', h1, h2, h3⟩ := step_timer cfg env env' hkey h hs
            exact ⟨c, t', h1, h2, by rw [if_pos hkey]; exact h3⟩
          · obtain ⟨c', t', h1, h2, h3⟩ := step_ours cfg he (hk m (by simp) ho) hkey h hs
            exact ⟨c', t', h1, h2, by rw [if_neg hkey]; exact h3⟩
        obtain ⟨c', t', h1, h2, h3⟩ := hmain
        have e2 : transcript cfg env' s' (m :: l.filter o) = (t'.outs, none) :: transcript cfg env' t' (l.filter o) := by
          simp only [transcript, h1]
        rw [e2]
        obtain ⟨i1, i2⟩ := ih hk' hd' h2 hok'
        refine ⟨.cons ⟨rfl, h3⟩ i1, ?_⟩
        intro x hx hxo
        rcases List.mem_cons.1 hx with rfl | hx
        · rw [show o m = false from hxo] at ho; cases ho
        · exact i2 x hx hxo
      | false =>
        rw [List.filter_cons_of_neg (by simp [ho]), List.filter_cons_of_neg (by simp [ho])]
        obtain ⟨c', h2, h3⟩ := step_others cfg env (hd m (by simp) ho) h hs
        obtain ⟨i1, i2⟩ := ih hk' hd' h2 hok'
        refine ⟨i1, ?_⟩
        intro x hx hxo
        rcases List.mem_cons.1 hx with rfl | hx
        · exact h3
        · exact i2 x hx hxo

theorem same_for_us (cfg : HConfig) {env env' : Env} (he : ApartQM.EnvR Q env env')
    (ha : Spec.Apart mine asks ms) (hok : ∀ x ∈ observed Q cfg env ms, x.2 = none) :
    Spec.SameForUs mine asks ms (observed Q cfg env ms)
      (observed Q cfg env' (ms.filter (Spec.ours mine asks))) := by
  obtain ⟨h1, h2⟩ := apart_transcript (Q := Q) cfg he (P := parts mine asks ms) (o := Spec.ours mine asks) ms
    (fun m hm ho => parts_keeps ha hm ho) (fun m hm ho => parts_drops ha hm ho) (SR.init _) hok
  refine ⟨h1.imp ?_, h2⟩
  rintro x y ⟨h3, h4⟩
  refine ⟨h3, ?_⟩
  by_cases hk : x.1.key = keyTimer
  · rw [if_pos hk] at h4
    rw [if_pos (show x.1.key = "timer" from hk)]
    exact h4.toSpec fun m hm => ⟨⟨hm.worker, hm.status⟩, hm.monitor⟩
  · rw [if_neg hk] at h4
    rw [if_neg (show ¬ x.1.key = "timer" from hk)]
    exact h4

/-- What everybody of ours sees is the same. -/
theorem same_filter {full part : List (List Msg × Option Err)} (h : Spec.SameForUs mine asks ms full part)
    (hl : full.length = ms.length) (p : Msg → Bool)
    (hp : ∀ m, Spec.Unseen mine (Spec.Theirs mine asks ms) m → p m = false) :
    (part.flatMap (·.1)).filter p = (full.flatMap (·.1)).filter p := by
  obtain ⟨h1, h2⟩ := h
  have key : ∀ (z : List (Msg × (List Msg × Option Err))) (part : List (List Msg × Option Err)),
      List.Forall₂ (fun x y => y.2 = none ∧
        if x.1.key = "timer" then Spec.LeavesOut (Spec.Elsewhere mine (Spec.Theirs mine asks ms)) x.2.1 y.1
        else y.1 = x.2.1) (z.filter fun x => Spec.ours mine asks x.1) part →
      (∀ x ∈ z, Spec.ours mine asks x.1 = false → ∀ m ∈ x.2.1, Spec.Unseen mine (Spec.Theirs mine asks ms) m) →
      (part.flatMap (·.1)).filter p = ((z.map (·.2)).flatMap (·.1)).filter p := by
    intro z
    induction z with
    | nil => intro part h _; cases h; rfl
    | cons x z ih =>
      intro part h hu
      have hu' := fun y hy => hu y (List.mem_cons_of_mem _ hy)
      rw [List.map_cons, List.flatMap_cons, List.filter_append]
      cases ho : Spec.ours mine asks x.1 with
      | true =>
        rw [List.filter_cons_of_pos (by exact ho)] at h
        cases h with
        | @cons _ y _ part hxy h =>
          rw [List.flatMap_cons, List.filter_append, ih part h hu']
          congr 1
          have := hxy.2
          by_cases hk : x.1.key = "timer"
          · rw [if_pos hk] at this
            generalize x.2.1 = a at this
            generalize y.1 = b at this
            induction this with
            | nil => rfl
            | keep m _ ih => simp only [List.filter_cons, ih]
            | drop hm _ ih => rw [List.filter_cons_of_neg (by simp [hp _ hm.1]), ih]
          · rw [if_neg hk] at this
            rw [this]
      | false =>
        rw [List.filter_cons_of_neg (by simp [ho])] at h
        have hn : x.2.1.filter p = [] :=
          List.filter_eq_nil_iff.2 fun m hm => by simp [hp m (hu x (by simp) ho m hm)]
        rw [ih part h hu', hn]
        rfl
  have := key _ _ h1 h2
  rw [List.map_snd_zip (by omega)] at this
  exact this

omit [ApartQM Q] in
theorem transcript_length (cfg : HConfig) (env : Env) : ∀ (l : List Msg) (s : HState Q),
    (∀ x ∈ transcript cfg env s l, x.2 = none) → (transcript cfg env s l).length = l.length := by
  intro l
  induction l with
  | nil => intro s _; rfl
  | cons m l ih =>
    intro s h
    cases hs : step cfg env m s with
    | error e t =>
      have e1 : transcript cfg env s (m :: l) = [(t.outs, some e)] := by simp only [transcript, hs]
      rw [e1] at h
      exact nomatch h (t.outs, some e) (by simp)
    | ok u t =>
      have e1 : transcript cfg env s (m :: l) = (t.outs, none) :: transcript cfg env t l := by
        simp only [transcript, hs]
      rw [e1] at h ⊢
      rw [List.length_cons, List.length_cons, ih t fun x hx => h x (List.mem_cons_of_mem _ hx)]

end Broker
