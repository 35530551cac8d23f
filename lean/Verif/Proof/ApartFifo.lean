import Verif.Proof.Apart
import Verif.Proof.LayoutQueues
import Verif.Spec.Fifo

/-! # The queue manager without a clock treats the parts independently -/

namespace Broker
namespace Fifo

/-- One of our entries of `worker_jobs_` and its counterpart. -/
def CA (P : Parts) (c : Corr) (p p' : Worker × Option Req) : Prop :=
  WA P c p.1 p'.1 ∧ Option.Rel (RA P c) p.2 p'.2

/-- An entry of the others. -/
def CB (P : Parts) (c : Corr) (p : Worker × Option Req) : Prop := WB P c p.1 ∧ ∀ r ∈ p.2, RB P c r

/-- One of the workers can process the request. -/
def Fits (ws : List Worker) (r : Req) : Prop := ∃ x ∈ ws, x.checkHeaders r.headers = .ok true

/-- Corresponding states. -/
structure QR (P : Parts) (c : Corr) (q q' : Fifo) : Prop where
  waiting : Proj (fun r r' => RA P c r r' ∧ r.complete = true) (fun r => RB P c r ∧ r.complete = true)
    q.waiting q'.waiting
  current : Proj (CA P c) (CB P c) q.current q'.current
  workers : Proj (WA P c) (WB P c) q.workers q'.workers
  sorted : q.current.Sorted
  fits : ∀ r ∈ q.waiting, Fits q.workers r

variable {P : Parts} {c : Corr} {q q' : Fifo}

/-! ## What the workers do -/

theorem put_first {V : Type} {m : WMap V} {w : Worker} {v : V} (h : ∀ p ∈ m, w.addr < p.1.addr) :
    m.put w v = (w, v) :: m := by
  match m with
  | [] => rfl
  | (x, u) :: t =>
    have : w.addr < x.addr := h (x, u) (by simp)
    simp only [WMap.put]
    rw [if_neg (by omega), if_pos this]

theorem emplace_first {V : Type} {m : WMap V} {w : Worker} {v : V} (h : ∀ p ∈ m, w.addr < p.1.addr) :
    m.emplace w v = (w, v) :: m := by
  match m with
  | [] => rfl
  | (x, u) :: t =>
    have : w.addr < x.addr := h (x, u) (by simp)
    simp only [WMap.emplace]
    rw [if_neg (by omega), if_pos this]

theorem after {m m' : WMap (Option Req)} (hm : c.ρ.Mono) (h : Proj (CA P c) (CB P c) m m') {w w' : Worker}
    (hw : WA P c w w') (hl : ∀ p ∈ m, w.addr < p.1.addr) : ∀ p ∈ m', w'.addr < p.1.addr := by
  intro p hp
  obtain ⟨y, hy, hr⟩ := h.mem' hp
  exact (hm _ _ _ _ hw.1.rel hr.1.1.rel).1 (hl y hy)

theorem put_ours (hc : c.Ok) (hm : c.ρ.Mono) {m m' : WMap (Option Req)} (h : Proj (CA P c) (CB P c) m m') :
    m.Sorted → ∀ {w w' : Worker}, WA P c w w' → ∀ {v v' : Option Req}, Option.Rel (RA P c) v v' →
      Proj (CA P c) (CB P c) (m.put w v) (m'.put w' v') := by
  induction h with
  | nil => intro _ w w' hw v v' hv; exact .both ⟨hw, hv⟩ .nil
  | @both p p' t t' hp ht ih =>
    intro hs w w' hw v v' hv
    obtain ⟨x, u⟩ := p
    obtain ⟨x', u'⟩ := p'
    have h1 := hw.1.addr_iff hc.one hp.1.1
    have h2 := hm _ _ _ _ hw.1.rel hp.1.1.rel
    simp only at h1 h2
    simp only [WMap.put, ← h1, ← h2]
    split
    · exact .both ⟨hp.1, hv⟩ ht
    · split
      · exact .both ⟨hw, hv⟩ (.both hp ht)
      · exact .both hp (ih (List.pairwise_cons.1 hs).2 hw hv)
  | @skip p t t' hp ht ih =>
    intro hs w w' hw v v' hv
    obtain ⟨x, u⟩ := p
    obtain ⟨h1, h2⟩ := List.pairwise_cons.1 hs
    simp only [WMap.put]
    have hne : x.addr ≠ w.addr := hw.ne hc hp.1.1
    rw [if_neg hne]
    split
    · rename_i hlt
      rw [put_first (after hm ht hw fun y hy => Nat.lt_trans hlt (h1 y hy))]
      exact .both ⟨hw, hv⟩ (.skip hp ht)
    · exact .skip hp (ih h2 hw hv)

theorem emplace_ours (hc : c.Ok) (hm : c.ρ.Mono) {m m' : WMap (Option Req)} (h : Proj (CA P c) (CB P c) m m') :
    m.Sorted → ∀ {w w' : Worker}, WA P c w w' → ∀ {v v' : Option Req}, Option.Rel (RA P c) v v' →
      Proj (CA P c) (CB P c) (m.emplace w v) (m'.emplace w' v') := by
  induction h with
  | nil => intro _ w w' hw v v' hv; exact .both ⟨hw, hv⟩ .nil
  | @both p p' t t' hp ht ih =>
    intro hs w w' hw v v' hv
    obtain ⟨x, u⟩ := p
    obtain ⟨x', u'⟩ := p'
    have h1 := hw.1.addr_iff hc.one hp.1.1
    have h2 := hm _ _ _ _ hw.1.rel hp.1.1.rel
    simp only at h1 h2
    simp only [WMap.emplace, ← h1, ← h2]
    split
    · exact .both hp ht
    · split
      · exact .both ⟨hw, hv⟩ (.both hp ht)
      · exact .both hp (ih (List.pairwise_cons.1 hs).2 hw hv)
  | @skip p t t' hp ht ih =>
    intro hs w w' hw v v' hv
    obtain ⟨x, u⟩ := p
    obtain ⟨h1, h2⟩ := List.pairwise_cons.1 hs
    simp only [WMap.emplace]
    have hne : x.addr ≠ w.addr := hw.ne hc hp.1.1
    rw [if_neg hne]
    split
    · rename_i hlt
      rw [emplace_first (after hm ht hw fun y hy => Nat.lt_trans hlt (h1 y hy))]
      exact .both ⟨hw, hv⟩ (.skip hp ht)
    · exact .skip hp (ih h2 hw hv)

theorem erase_ours (hc : c.Ok) {m m' : WMap (Option Req)} (h : Proj (CA P c) (CB P c) m m')
    {w w' : Worker} (hw : WA P c w w') : Proj (CA P c) (CB P c) (m.erase w) (m'.erase w') := by
  induction h with
  | nil => exact .nil
  | @both p p' t t' hp ht ih =>
    obtain ⟨x, u⟩ := p
    obtain ⟨x', u'⟩ := p'
    have h1 := hw.1.addr_iff hc.one hp.1.1
    simp only at h1
    simp only [WMap.erase, ← h1]
    split
    · exact ht
    · exact .both hp ih
  | @skip p t t' hp ht ih =>
    obtain ⟨x, u⟩ := p
    simp only [WMap.erase]
    have hne : x.addr ≠ w.addr := hw.ne hc hp.1.1
    rw [if_neg hne]
    exact .skip hp ih

theorem getD_ours (hc : c.Ok) {m m' : WMap (Option Req)} (h : Proj (CA P c) (CB P c) m m')
    {w w' : Worker} (hw : WA P c w w') : Option.Rel (RA P c) (m.getD w none) (m'.getD w' none) := by
  unfold WMap.getD
  induction h with
  | nil => exact .none
  | @both p p' t t' hp ht ih =>
    obtain ⟨x, u⟩ := p
    obtain ⟨x', u'⟩ := p'
    have h1 := hw.1.addr_iff hc.one hp.1.1
    simp only at h1
    simp only [WMap.find, ← h1]
    split
    · exact hp.2
    · exact ih
  | @skip p t t' hp ht ih =>
    obtain ⟨x, u⟩ := p
    simp only [WMap.find]
    have hne : x.addr ≠ w.addr := hw.ne hc hp.1.1
    rw [if_neg hne]
    exact ih

theorem put_others (hc : c.Ok) {m m' : WMap (Option Req)} (h : Proj (CA P c) (CB P c) m m')
    {w : Worker} (hw : WB P c w) {v : Option Req} (hv : ∀ r ∈ v, RB P c r) :
    Proj (CA P c) (CB P c) (m.put w v) m' := by
  induction h with
  | nil => exact .skip ⟨hw, hv⟩ .nil
  | @both p p' t t' hp ht ih =>
    obtain ⟨x, u⟩ := p
    simp only [WMap.put]
    rw [if_neg (hp.1.ne hc hw.1).symm]
    split
    · exact .skip ⟨hw, hv⟩ (.both hp ht)
    · exact .both hp ih
  | @skip p t t' hp ht ih =>
    obtain ⟨x, u⟩ := p
    simp only [WMap.put]
    split
    · exact .skip ⟨hp.1, hv⟩ ht
    · split
      · exact .skip ⟨hw, hv⟩ (.skip hp ht)
      · exact .skip hp ih

theorem emplace_others (hc : c.Ok) {m m' : WMap (Option Req)} (h : Proj (CA P c) (CB P c) m m')
    {w : Worker} (hw : WB P c w) {v : Option Req} (hv : ∀ r ∈ v, RB P c r) :
    Proj (CA P c) (CB P c) (m.emplace w v) m' := by
  induction h with
  | nil => exact .skip ⟨hw, hv⟩ .nil
  | @both p p' t t' hp ht ih =>
    obtain ⟨x, u⟩ := p
    simp only [WMap.emplace]
    rw [if_neg (hp.1.ne hc hw.1).symm]
    split
    · exact .skip ⟨hw, hv⟩ (.both hp ht)
    · exact .both hp ih
  | @skip p t t' hp ht ih =>
    obtain ⟨x, u⟩ := p
    simp only [WMap.emplace]
    split
    · exact .skip hp ht
    · split
      · exact .skip ⟨hw, hv⟩ (.skip hp ht)
      · exact .skip hp ih

theorem erase_others (hc : c.Ok) {m m' : WMap (Option Req)} (h : Proj (CA P c) (CB P c) m m')
    {w : Worker} (hw : WB P c w) : Proj (CA P c) (CB P c) (m.erase w) m' := by
  induction h with
  | nil => exact .nil
  | @both p p' t t' hp ht ih =>
    obtain ⟨x, u⟩ := p
    simp only [WMap.erase]
    rw [if_neg (hp.1.ne hc hw.1).symm]
    exact .both hp ih
  | @skip p t t' hp ht ih =>
    obtain ⟨x, u⟩ := p
    simp only [WMap.erase]
    split
    · exact ht
    · exact .skip hp ih

theorem getD_others (hc : c.Ok) {m m' : WMap (Option Req)} (h : Proj (CA P c) (CB P c) m m')
    {w : Worker} (hw : WB P c w) : ∀ r ∈ m.getD w none, RB P c r := by
  unfold WMap.getD
  induction h with
  | nil => intro r hr; cases hr
  | @both p p' t t' hp ht ih =>
    obtain ⟨x, u⟩ := p
    simp only [WMap.find]
    rw [if_neg (hp.1.ne hc hw.1).symm]
    exact ih
  | @skip p t t' hp ht ih =>
    obtain ⟨x, u⟩ := p
    simp only [WMap.find]
    split
    · exact hp.2
    · exact ih

/-! ## Who can process a request -/

theorem assignable_fits {r : Req} {l : List Worker} {b : Bool} (h : assignable r l = .ok b) :
    b = true ↔ Fits l r := by
  induction l with
  | nil => cases h; simp [Fits]
  | cons w l ih =>
    unfold assignable at h
    cases hk : w.checkHeaders r.headers with
    | error e => rw [hk] at h; cases h
    | ok d =>
      rw [hk] at h
      cases d with
      | true => cases h; exact ⟨fun _ => ⟨w, by simp, hk⟩, fun _ => rfl⟩
      | false =>
        rw [ih h]
        constructor
        · rintro ⟨x, hx, e⟩; exact ⟨x, by simp [hx], e⟩
        · rintro ⟨x, hx, e⟩
          rcases List.mem_cons.1 hx with rfl | hx
          · rw [hk] at e; cases e
          · exact ⟨x, hx, e⟩

theorem assignable_ours {r r' : Req} (hr : RA P c r r') (hcm : r.complete = true) {l l' : List Worker}
    (h : Proj (WA P c) (WB P c) l l') : ∀ b, assignable r l = .ok b → assignable r' l' = .ok b := by
  induction h with
  | nil => intro b hb; exact hb
  | @both w w' l l' hw ht ih =>
    intro o ho
    unfold assignable at ho ⊢
    rw [hw.1.checkHeaders, hr.headers]
    cases hk : w.checkHeaders r.headers with
    | error e => rw [hk] at ho; cases ho
    | ok b =>
      rw [hk] at ho
      cases b with
      | true => exact ho
      | false => exact ih o ho
  | @skip w l l' hw ht ih =>
    intro o ho
    unfold assignable at ho
    cases hk : w.checkHeaders r.headers with
    | error e => rw [hk] at ho; cases ho
    | ok b =>
      rw [hk] at ho
      cases b with
      | true => exact absurd hk (hw.2.2 _ (hr.req hcm))
      | false => exact ih o ho

theorem idle_ours {r r' : Req} (hr : RA P c r r') (hcm : r.complete = true) {m m' : WMap (Option Req)}
    (h : Proj (CA P c) (CB P c) m m') : ∀ o, idle r m = .ok o →
      ∃ o', idle r' m' = .ok o' ∧ Option.Rel (WA P c) o o' := by
  induction h with
  | nil => intro o ho; cases ho; exact ⟨_, rfl, .none⟩
  | @both p p' t t' hp ht ih =>
    obtain ⟨w, u⟩ := p
    obtain ⟨w', u'⟩ := p'
    obtain ⟨hw, hu⟩ := hp
    intro o ho
    cases hu with
    | some _ => exact ih o ho
    | none =>
      unfold idle at ho ⊢
      rw [WR.checkHeaders (w := w) hw.1, hr.headers]
      cases hk : w.checkHeaders r.headers with
      | error e => rw [hk] at ho; cases ho
      | ok b =>
        rw [hk] at ho
        cases b with
        | true => cases ho; exact ⟨_, rfl, .some hw⟩
        | false => exact ih o ho
  | @skip p t t' hp ht ih =>
    obtain ⟨w, u⟩ := p
    intro o ho
    cases u with
    | some _ => exact ih o ho
    | none =>
      unfold idle at ho
      cases hk : w.checkHeaders r.headers with
      | error e => rw [hk] at ho; cases ho
      | ok b =>
        rw [hk] at ho
        cases b with
        | true => exact absurd hk (hp.1.2.2 _ (hr.req hcm))
        | false => exact ih o ho

theorem idle_others {r : Req} (hr : RB P c r) (hcm : r.complete = true) {m m' : WMap (Option Req)}
    (h : Proj (CA P c) (CB P c) m m') : ∀ w, idle r m = .ok (some w) → WB P c w := by
  induction h with
  | nil => intro o ho; cases ho
  | @both p p' t t' hp ht ih =>
    obtain ⟨w, u⟩ := p
    intro o ho
    cases u with
    | some _ => exact ih o ho
    | none =>
      unfold idle at ho
      cases hk : w.checkHeaders r.headers with
      | error e => rw [hk] at ho; cases ho
      | ok b =>
        rw [hk] at ho
        cases b with
        | true => exact absurd hk (hp.1.2.2 _ (hr.req hcm))
        | false => exact ih o ho
  | @skip p t t' hp ht ih =>
    obtain ⟨w, u⟩ := p
    intro o ho
    cases u with
    | some _ => exact ih o ho
    | none =>
      unfold idle at ho
      cases hk : w.checkHeaders r.headers with
      | error e => rw [hk] at ho; cases ho
      | ok b =>
        rw [hk] at ho
        cases b with
        | true => cases ho; exact hp.1
        | false => exact ih o ho

/-! ## Waiting requests -/

/-- Corresponding lists of waiting requests. -/
abbrev Wait (P : Parts) (c : Corr) : List Req → List Req → Prop :=
  Proj (fun r r' => RA P c r r' ∧ r.complete = true) (fun r => RB P c r ∧ r.complete = true)

theorem oldest_cons (w : Worker) (r : Req) (rs : List Req) : oldest w (r :: rs) =
    (w.checkHeaders r.headers).bind fun b => if b then .ok (some r, rs) else
      (oldest w rs).bind fun x => .ok (x.1, r :: x.2) := by
  rfl

theorem oldest_ours {w w' : Worker} (hw : WA P c w w') {l l' : List Req} (h : Wait P c l l') :
    ∀ o rest, oldest w l = .ok (o, rest) → ∃ o' rest', oldest w' l' = .ok (o', rest') ∧
      Option.Rel (RA P c) o o' ∧ Wait P c rest rest' ∧ ∀ r ∈ rest, r ∈ l := by
  induction h with
  | nil => intro o rest ho; cases ho; exact ⟨_, _, rfl, .none, .nil, by simp⟩
  | @both r r' l l' hr ht ih =>
    intro o rest ho
    rw [oldest_cons] at ho ⊢
    rw [hw.1.checkHeaders, hr.1.headers]
    cases hk : w.checkHeaders r.headers with
    | error e => rw [hk] at ho; cases ho
    | ok b =>
      rw [hk] at ho
      cases b with
      | true => cases ho; exact ⟨_, _, rfl, .some hr.1, ht, fun x hx => by simp [hx]⟩
      | false =>
        cases hx : oldest w l with
        | error e => simp only [Except.bind, hx, Bool.false_eq_true, if_false] at ho; cases ho
        | ok x =>
          simp only [Except.bind, hx, Bool.false_eq_true, if_false] at ho
          cases ho
          obtain ⟨o', rest', h1, h2, h3, h4⟩ := ih x.1 x.2 hx
          simp only [Except.bind, h1, Bool.false_eq_true, if_false]
          exact ⟨_, _, rfl, h2, .both hr h3, fun y hy => by
            rcases List.mem_cons.1 hy with rfl | hy
            · simp
            · simp [h4 y hy]⟩
  | @skip r l l' hr ht ih =>
    intro o rest ho
    rw [oldest_cons] at ho
    cases hk : w.checkHeaders r.headers with
    | error e => rw [hk] at ho; cases ho
    | ok b =>
      rw [hk] at ho
      cases b with
      | true => exact absurd hk (hw.2.2 _ (hr.1.req hr.2))
      | false =>
        cases hx : oldest w l with
        | error e => simp only [Except.bind, hx, Bool.false_eq_true, if_false] at ho; cases ho
        | ok x =>
          simp only [Except.bind, hx, Bool.false_eq_true, if_false] at ho
          cases ho
          obtain ⟨o', rest', h1, h2, h3, h4⟩ := ih x.1 x.2 hx
          exact ⟨_, _, h1, h2, .skip hr h3, fun y hy => by
            rcases List.mem_cons.1 hy with rfl | hy
            · simp
            · simp [h4 y hy]⟩

theorem oldest_others {w : Worker} (hw : WB P c w) {l l' : List Req} (h : Wait P c l l') :
    ∀ o rest, oldest w l = .ok (o, rest) →
      (∀ r ∈ o, RB P c r) ∧ Wait P c rest l' ∧ ∀ r ∈ rest, r ∈ l := by
  induction h with
  | nil => intro o rest ho; cases ho; exact ⟨by simp, .nil, by simp⟩
  | @both r r' l l' hr ht ih =>
    intro o rest ho
    rw [oldest_cons] at ho
    cases hk : w.checkHeaders r.headers with
    | error e => rw [hk] at ho; cases ho
    | ok b =>
      rw [hk] at ho
      cases b with
      | true => exact absurd hk (hw.2.2 _ (hr.1.req hr.2))
      | false =>
        cases hx : oldest w l with
        | error e => simp only [Except.bind, hx, Bool.false_eq_true, if_false] at ho; cases ho
        | ok x =>
          simp only [Except.bind, hx, Bool.false_eq_true, if_false] at ho
          cases ho
          obtain ⟨h2, h3, h4⟩ := ih x.1 x.2 hx
          exact ⟨h2, .both hr h3, fun y hy => by
            rcases List.mem_cons.1 hy with rfl | hy
            · simp
            · simp [h4 y hy]⟩
  | @skip r l l' hr ht ih =>
    intro o rest ho
    rw [oldest_cons] at ho
    cases hk : w.checkHeaders r.headers with
    | error e => rw [hk] at ho; cases ho
    | ok b =>
      rw [hk] at ho
      cases b with
      | true => cases ho; exact ⟨by intro x hx; cases hx; exact hr.1, ht, fun x hx => by simp [hx]⟩
      | false =>
        cases hx : oldest w l with
        | error e => simp only [Except.bind, hx, Bool.false_eq_true, if_false] at ho; cases ho
        | ok x =>
          simp only [Except.bind, hx, Bool.false_eq_true, if_false] at ho
          cases ho
          obtain ⟨h2, h3, h4⟩ := ih x.1 x.2 hx
          exact ⟨h2, .skip hr h3, fun y hy => by
            rcases List.mem_cons.1 hy with rfl | hy
            · simp
            · simp [h4 y hy]⟩

theorem orphans_cons {ws : List Worker} {r : Req} {rs out keep : List Req}
    (h : orphans ws (r :: rs) = .ok (out, keep)) : ∃ b x, assignable r ws = .ok b ∧
      orphans ws rs = .ok x ∧ (b = true ∧ out = x.1 ∧ keep = r :: x.2 ∨
        b = false ∧ out = r :: x.1 ∧ keep = x.2) := by
  unfold orphans at h
  cases ha : assignable r ws with
  | error e => rw [ha] at h; cases h
  | ok b =>
    rw [ha] at h
    cases ho : orphans ws rs with
    | error e => rw [ho] at h; cases h
    | ok x =>
      rw [ho] at h
      refine ⟨b, x, rfl, rfl, ?_⟩
      cases b with
      | true => cases h; exact .inl ⟨rfl, rfl, rfl⟩
      | false => cases h; exact .inr ⟨rfl, rfl, rfl⟩

theorem orphans_mk {ws : List Worker} {r : Req} {rs : List Req} {b : Bool} {x : List Req × List Req}
    (ha : assignable r ws = .ok b) (ho : orphans ws rs = .ok x) :
    orphans ws (r :: rs) = .ok (if b then (x.1, r :: x.2) else (r :: x.1, x.2)) := by
  unfold orphans
  rw [ha, ho]
  cases b <;> rfl

theorem orphans_ours {ws ws' : List Worker} (hws : Proj (WA P c) (WB P c) ws ws') {l l' : List Req}
    (h : Wait P c l l') : ∀ out keep, (∀ r ∈ l, RB P c r → Fits ws r) → orphans ws l = .ok (out, keep) →
      ∃ out' keep', orphans ws' l' = .ok (out', keep') ∧ List.Forall₂ (RA P c) out out' ∧
        Wait P c keep keep' ∧ ∀ r ∈ keep, Fits ws r := by
  induction h with
  | nil => intro out keep _ ho; cases ho; exact ⟨_, _, rfl, .nil, .nil, by simp⟩
  | @both r r' l l' hr ht ih =>
    intro out keep hf ho
    obtain ⟨b, x, h1, h2, h3⟩ := orphans_cons ho
    obtain ⟨out', keep', i1, i2, i3, i4⟩ := ih x.1 x.2 (fun y hy => hf y (by simp [hy])) h2
    have h1' := assignable_ours hr.1 hr.2 hws b h1
    rw [orphans_mk h1' i1]
    rcases h3 with ⟨rfl, rfl, rfl⟩ | ⟨rfl, rfl, rfl⟩
    · refine ⟨_, _, rfl, i2, .both hr i3, ?_⟩
      intro y hy
      rcases List.mem_cons.1 hy with rfl | hy
      · exact (assignable_fits h1).1 rfl
      · exact i4 y hy
    · exact ⟨_, _, rfl, .cons hr.1 i2, i3, i4⟩
  | @skip r l l' hr ht ih =>
    intro out keep hf ho
    obtain ⟨b, x, h1, h2, h3⟩ := orphans_cons ho
    obtain ⟨out', keep', i1, i2, i3, i4⟩ := ih x.1 x.2 (fun y hy => hf y (by simp [hy])) h2
    have hfit := hf r (by simp) hr.1
    have hb := (assignable_fits h1).2 hfit
    rcases h3 with ⟨-, rfl, rfl⟩ | ⟨rfl, rfl, rfl⟩
    · refine ⟨_, _, i1, i2, .skip hr i3, ?_⟩
      intro y hy
      rcases List.mem_cons.1 hy with rfl | hy
      · exact hfit
      · exact i4 y hy
    · cases hb

theorem orphans_others {ws : List Worker} {l l' : List Req}
    (h : Wait P c l l') : ∀ out keep, (∀ r ∈ l, ∀ r', RA P c r r' → Fits ws r) → orphans ws l = .ok (out, keep) →
      (∀ r ∈ out, RB P c r) ∧ Wait P c keep l' ∧ ∀ r ∈ keep, Fits ws r := by
  induction h with
  | nil => intro out keep _ ho; cases ho; exact ⟨by simp, .nil, by simp⟩
  | @both r r' l l' hr ht ih =>
    intro out keep hf ho
    obtain ⟨b, x, h1, h2, h3⟩ := orphans_cons ho
    obtain ⟨i2, i3, i4⟩ := ih x.1 x.2 (fun y hy => hf y (by simp [hy])) h2
    have hfit := hf r (by simp) r' hr.1
    have hb := (assignable_fits h1).2 hfit
    rcases h3 with ⟨-, rfl, rfl⟩ | ⟨rfl, rfl, rfl⟩
    · refine ⟨i2, .both hr i3, ?_⟩
      intro y hy
      rcases List.mem_cons.1 hy with rfl | hy
      · exact hfit
      · exact i4 y hy
    · cases hb
  | @skip r l l' hr ht ih =>
    intro out keep hf ho
    obtain ⟨b, x, h1, h2, h3⟩ := orphans_cons ho
    obtain ⟨i2, i3, i4⟩ := ih x.1 x.2 (fun y hy => hf y (by simp [hy])) h2
    rcases h3 with ⟨rfl, rfl, rfl⟩ | ⟨rfl, rfl, rfl⟩
    · refine ⟨i2, .skip hr i3, ?_⟩
      intro y hy
      rcases List.mem_cons.1 hy with rfl | hy
      · exact (assignable_fits h1).1 rfl
      · exact i4 y hy
    · refine ⟨?_, i3, i4⟩
      intro y hy
      rcases List.mem_cons.1 hy with rfl | hy
      · exact hr.1
      · exact i2 y hy

/-! ## Operations -/

theorem QR.next (hc : c.Ok) (hm : c.ρ.Mono) (h : QR P c q q') {w w' : Worker} (hw : WA P c w w')
    {o : Option Req} {q1 : Fifo} (hx : q.next w = .ok (o, q1)) : ∃ o' q1', q'.next w' = .ok (o', q1') ∧
      Option.Rel (RA P c) o o' ∧ QR P c q1 q1' := by
  unfold Fifo.next at hx ⊢
  cases ho : oldest w q.waiting with
  | error e => rw [ho] at hx; cases hx
  | ok x =>
    rw [ho] at hx
    obtain ⟨o', rest', h1, h2, h3, h4⟩ := oldest_ours hw h.waiting x.1 x.2 ho
    rw [h1]
    cases hx
    exact ⟨_, _, rfl, h2, h3, put_ours hc hm h.current h.sorted hw h2, h.workers, h.sorted.put _ _,
      fun r hr => h.fits r (h4 r hr)⟩

theorem QR.nextF (hc : c.Ok) (h : QR P c q q') {w : Worker} (hw : WB P c w)
    {o : Option Req} {q1 : Fifo} (hx : q.next w = .ok (o, q1)) :
    (∀ r ∈ o, RB P c r) ∧ QR P c q1 q' := by
  unfold Fifo.next at hx
  cases ho : oldest w q.waiting with
  | error e => rw [ho] at hx; cases hx
  | ok x =>
    rw [ho] at hx
    obtain ⟨h2, h3, h4⟩ := oldest_others hw h.waiting x.1 x.2 ho
    cases hx
    exact ⟨h2, h3, put_others hc h.current hw h2, h.workers, h.sorted.put _ _,
      fun r hr => h.fits r (h4 r hr)⟩

theorem QR.put (hc : c.Ok) (hm : c.ρ.Mono) (h : QR P c q q') {w w' : Worker} (hw : WA P c w w')
    {v v' : Option Req} (hv : Option.Rel (RA P c) v v') :
    QR P c { q with current := q.current.put w v } { q' with current := q'.current.put w' v' } :=
  ⟨h.waiting, put_ours hc hm h.current h.sorted hw hv, h.workers, h.sorted.put _ _, h.fits⟩

theorem QR.putF (hc : c.Ok) (h : QR P c q q') {w : Worker} (hw : WB P c w)
    {v : Option Req} (hv : ∀ r ∈ v, RB P c r) : QR P c { q with current := q.current.put w v } q' :=
  ⟨h.waiting, put_others hc h.current hw hv, h.workers, h.sorted.put _ _, h.fits⟩

theorem fits_more {ws : List Worker} (w : Worker) {r : Req} (h : Fits ws r) : Fits (ws ++ [w]) r := by
  obtain ⟨x, hx, e⟩ := h
  exact ⟨x, by simp [hx], e⟩

theorem QR.come (h : QR P c q q') {w w' : Worker} (hw : WA P c w w') :
    QR P c { q with workers := q.workers ++ [w] } { q' with workers := q'.workers ++ [w'] } :=
  ⟨h.waiting, h.current, h.workers.append (.both hw .nil), h.sorted, fun r hr => fits_more w (h.fits r hr)⟩

theorem QR.comeF (h : QR P c q q') {w : Worker} (hw : WB P c w) :
    QR P c { q with workers := q.workers ++ [w] } q' := by
  have := h.workers.append (l2 := [w]) (l2' := []) (.skip hw .nil)
  rw [List.append_nil] at this
  exact ⟨h.waiting, h.current, this, h.sorted, fun r hr => fits_more w (h.fits r hr)⟩

theorem QR.add (hc : c.Ok) (hm : c.ρ.Mono) (h : QR P c q q') {w w' : Worker} (hw : WA P c w w')
    {cur cur' o : Option Req} {q1 : Fifo} (hcur : Option.Rel (RA P c) cur cur')
    (hx : q.add w cur = .ok (o, q1)) : ∃ o' q1', q'.add w' cur' = .ok (o', q1') ∧
      Option.Rel (RA P c) o o' ∧ QR P c q1 q1' := by
  have h1 := (h.put hc hm hw hcur).come hw
  unfold Fifo.add at hx ⊢
  cases hcur with
  | none => exact h1.next hc hm hw hx
  | some hr => cases hx; exact ⟨_, _, rfl, .some hr, h1⟩

theorem QR.addF (hc : c.Ok) (h : QR P c q q') {w : Worker} (hw : WB P c w)
    {cur o : Option Req} {q1 : Fifo} (hcur : ∀ r ∈ cur, RB P c r)
    (hx : q.add w cur = .ok (o, q1)) : (∀ r ∈ o, RB P c r) ∧ QR P c q1 q' := by
  have h1 := (h.putF hc hw hcur).comeF hw
  unfold Fifo.add at hx
  cases cur with
  | none => exact h1.nextF hc hw hx
  | some r => cases hx; exact ⟨hcur, h1⟩

theorem submit_eq (q : Fifo) (r : Req) : q.submit r = (idle r q.current).bind fun
    | some w => .ok (⟨some w, true⟩, { q with current := q.current.put w (some r) })
    | none => (assignable r q.workers).bind fun b =>
        .ok (if b then (⟨none, true⟩, { q with waiting := q.waiting ++ [r] }) else (⟨none, false⟩, q)) := by
  unfold Fifo.submit
  cases idle r q.current with
  | error e => rfl
  | ok o =>
    cases o with
    | some w => rfl
    | none =>
      show (assignable r q.workers >>= fun b => _ : Except Exn (EnqResult × Fifo)) = _
      cases assignable r q.workers with
      | error e => rfl
      | ok b => cases b <;> rfl

theorem QR.submit (hc : c.Ok) (hm : c.ρ.Mono) (h : QR P c q q') {r r' : Req} (hr : RA P c r r')
    (hcm : r.complete = true) {x : EnqResult} {q1 : Fifo} (hx : q.submit r = .ok (x, q1)) : ∃ x' q1',
      q'.submit r' = .ok (x', q1') ∧ Option.Rel (WA P c) x.assignedTo x'.assignedTo ∧
        x'.enqueued = x.enqueued ∧ QR P c q1 q1' := by
  rw [submit_eq] at hx ⊢
  cases hi : idle r q.current with
  | error e => rw [hi] at hx; cases hx
  | ok o =>
    rw [hi] at hx
    obtain ⟨o', h1, h2⟩ := idle_ours hr hcm h.current o hi
    rw [h1]
    cases h2 with
    | some hw => cases hx; exact ⟨_, _, rfl, .some hw, rfl, h.put hc hm hw (.some hr)⟩
    | none =>
      cases ha : assignable r q.workers with
      | error e => simp only [Except.bind, ha] at hx; cases hx
      | ok b =>
        simp only [Except.bind, ha] at hx
        simp only [Except.bind, assignable_ours hr hcm h.workers b ha]
        cases b with
        | false => cases hx; exact ⟨_, _, rfl, .none, rfl, h⟩
        | true =>
          cases hx
          refine ⟨_, _, rfl, .none, rfl, h.waiting.append (.both ⟨hr, hcm⟩ .nil), h.current, h.workers, h.sorted, ?_⟩
          intro y hy
          rcases List.mem_append.1 hy with hy | hy
          · exact h.fits y hy
          · rw [List.mem_singleton.1 hy]; exact (assignable_fits ha).1 rfl

theorem QR.submitF (hc : c.Ok) (h : QR P c q q') {r : Req} (hr : RB P c r)
    (hcm : r.complete = true) {x : EnqResult} {q1 : Fifo} (hx : q.submit r = .ok (x, q1)) :
    (∀ w ∈ x.assignedTo, WB P c w) ∧ QR P c q1 q' := by
  rw [submit_eq] at hx
  cases hi : idle r q.current with
  | error e => rw [hi] at hx; cases hx
  | ok o =>
    rw [hi] at hx
    cases o with
    | some w =>
      have hw := idle_others hr hcm h.current w hi
      have h1 : ∀ y ∈ some w, WB P c y := by intro y hy; cases hy; exact hw
      have h2 : ∀ y ∈ some r, RB P c y := by intro y hy; cases hy; exact hr
      cases hx
      exact ⟨h1, h.putF hc hw h2⟩
    | none =>
      cases ha : assignable r q.workers with
      | error e => simp only [Except.bind, ha] at hx; cases hx
      | ok b =>
        simp only [Except.bind, ha] at hx
        cases b with
        | false => cases hx; exact ⟨by simp, h⟩
        | true =>
          cases hx
          have := h.waiting.append (l2 := [r]) (l2' := []) (.skip ⟨hr, hcm⟩ .nil)
          rw [List.append_nil] at this
          refine ⟨by simp, this, h.current, h.workers, h.sorted, ?_⟩
          intro y hy
          rcases List.mem_append.1 hy with hy | hy
          · exact h.fits y hy
          · rw [List.mem_singleton.1 hy]; exact (assignable_fits ha).1 rfl

theorem sorted_erase {m : WMap (Option Req)} (h : m.Sorted) (w : Worker) : (m.erase w).Sorted :=
  h.sublist (WMap.erase_sublist m w)

theorem QR.remove (hc : c.Ok) (h : QR P c q q') {w w' : Worker} (hw : WA P c w w')
    {rs : List Req} {q1 : Fifo} (hx : q.remove w = .ok (rs, q1)) : ∃ rs' q1', q'.remove w' = .ok (rs', q1') ∧
      List.Forall₂ (RA P c) rs rs' ∧ QR P c q1 q1' := by
  have hws : Proj (WA P c) (WB P c) (q.workers.filter fun x => x.addr ≠ w.addr)
      (q'.workers.filter fun x => x.addr ≠ w'.addr) :=
    (h.workers.filter (p := fun x => decide (x.addr ≠ w.addr)) (p' := fun x => decide (x.addr ≠ w'.addr))
      fun x x' hx => by simp only [ne_eq, hw.1.addr_iff hc.one hx.1]).mono (fun _ _ h => h) fun _ h => h.1
  unfold Fifo.remove at hx ⊢
  simp only at hx ⊢
  cases ho : orphans (q.workers.filter fun x => x.addr ≠ w.addr) q.waiting with
  | error e => rw [ho] at hx; cases hx
  | ok x =>
    rw [ho] at hx
    have hf : ∀ r ∈ q.waiting, RB P c r → Fits (q.workers.filter fun x => x.addr ≠ w.addr) r := by
      intro r hr hb
      obtain ⟨y, hy, e⟩ := h.fits r hr
      refine ⟨y, List.mem_filter.2 ⟨hy, decide_eq_true ?_⟩, e⟩
      intro hadr
      rcases h.workers.mem hy with ⟨y', -, hyw⟩ | hyw
      · rcases h.waiting.mem hr with ⟨r', -, hrr⟩ | hrr
        · exact hc.disr hrr.1.rel hb.rel
        · exact hyw.2.2 _ (hrr.1.req hrr.2) e
      · exact hc.dis hw.1.rel (hadr ▸ hyw.1)
    obtain ⟨out', keep', h1, h2, h3, h4⟩ := orphans_ours hws h.waiting x.1 x.2 hf ho
    rw [h1]
    cases hx
    refine ⟨_, _, rfl, List.rel_append ?_ h2, h3, erase_ours hc h.current hw, hws, sorted_erase h.sorted w, h4⟩
    have hj := getD_ours hc h.current hw
    generalize q.current.getD w none = x at hj
    generalize q'.current.getD w' none = y at hj
    cases hj with
    | none => exact .nil
    | some h => exact .cons h .nil

theorem QR.removeF (hc : c.Ok) (h : QR P c q q') {w : Worker} (hw : WB P c w)
    {rs : List Req} {q1 : Fifo} (hx : q.remove w = .ok (rs, q1)) :
    (∀ r ∈ rs, RB P c r) ∧ QR P c q1 q' := by
  have hws : Proj (WA P c) (WB P c) (q.workers.filter fun x => x.addr ≠ w.addr) q'.workers :=
    h.workers.filterF (p := fun x => decide (x.addr ≠ w.addr)) fun _ _ hx => decide_eq_true (hx.ne hc hw.1).symm
  unfold Fifo.remove at hx
  simp only at hx
  cases ho : orphans (q.workers.filter fun x => x.addr ≠ w.addr) q.waiting with
  | error e => rw [ho] at hx; cases hx
  | ok x =>
    rw [ho] at hx
    have hf : ∀ r ∈ q.waiting, ∀ r', RA P c r r' → Fits (q.workers.filter fun x => x.addr ≠ w.addr) r := by
      intro r hr r' hb
      obtain ⟨y, hy, e⟩ := h.fits r hr
      refine ⟨y, List.mem_filter.2 ⟨hy, decide_eq_true ?_⟩, e⟩
      intro hadr
      rcases h.workers.mem hy with ⟨y', -, hyw⟩ | hyw
      · exact hc.dis hyw.1.rel (hadr ▸ hw.1)
      · rcases h.waiting.mem hr with ⟨r'', -, hrr⟩ | hrr
        · exact hyw.2.2 _ (hrr.1.req hrr.2) e
        · exact hc.disr hb.rel hrr.1.rel
    obtain ⟨h2, h3, h4⟩ := orphans_others h.waiting x.1 x.2 hf ho
    cases hx
    refine ⟨?_, h3, erase_others hc h.current hw, hws, sorted_erase h.sorted w, h4⟩
    intro r hr
    rcases List.mem_append.1 hr with hr | hr
    · exact getD_others hc h.current hw r (by simpa using hr)
    · exact h2 r hr

theorem QR.grow {c' : Corr} (hg : c.Grows c') (h : QR P c q q') : QR P c' q q' where
  waiting := h.waiting.mono (fun _ _ h => ⟨h.1.mono hg, h.2⟩) fun _ h => ⟨h.1.mono hg, h.2⟩
  current := h.current.mono
    (fun p p' h => ⟨h.1.mono hg, by
      have := h.2
      generalize p.2 = x at this
      generalize p'.2 = y at this
      cases this with
      | none => exact .none
      | some h => exact .some (h.mono hg)⟩)
    fun _ h => ⟨h.1.mono hg, fun r hr => (h.2 r hr).mono hg⟩
  workers := h.workers.mono (fun _ _ h => h.mono hg) fun _ h => h.mono hg
  sorted := h.sorted
  fits := h.fits

instance : ApartQM Fifo where
  EnvR env env' := (∀ n l a, a ∈ l → a < env.alloc n l) ∧ ∀ n l a, a ∈ l → a < env'.alloc n l
  Good ρ := ρ.Mono
  QR := QR
  good_empty := fun _ _ _ _ h => h.elim
  good_ext {env env' ρ n n' l l'} he hg hd := by
    rintro a b a' b' (h1 | ⟨rfl, rfl⟩) (h2 | ⟨rfl, rfl⟩)
    · exact hg _ _ _ _ h1 h2
    · have := he.1 n l a (hd _ _ h1).1
      have := he.2 n' l' b (hd _ _ h1).2
      constructor <;> intro <;> assumption
    · have := he.1 n l a' (hd _ _ h2).1
      have := he.2 n' l' b' (hd _ _ h2).2
      omega
    · simp
  empty _ _ := ⟨.nil, .nil, .nil, List.Pairwise.nil, fun _ h => nomatch h⟩
  grow := QR.grow
  addWorker _ _ hc hm h hw hcur hx := h.add hc hm hw hcur hx
  assignRequest _ _ hc hm h hw hx := h.next hc hm hw hx
  workerFinished _ _ hc hm h hw hx := h.next hc hm hw hx
  workerTerminated hc _ h hw hx := h.remove hc hw hx
  enqueueRequest _ _ hc hm h hr hcm hx := h.submit hc hm hr hcm hx
  currentRequest hc hm h hw := ⟨getD_ours hc h.current hw,
    ⟨h.waiting, emplace_ours hc hm h.current h.sorted hw .none, h.workers, h.sorted.emplace _ _, h.fits⟩⟩
  workerCancelled hc hm h hw := ⟨getD_ours hc h.current hw, h.put hc hm hw .none⟩
  addWorkerF _ hc _ h hw hcur hx := h.addF hc hw hcur hx
  assignRequestF _ hc _ h hw hx := h.nextF hc hw hx
  workerFinishedF _ hc _ h hw hx := h.nextF hc hw hx
  workerTerminatedF hc _ h hw hx := h.removeF hc hw hx
  enqueueRequestF _ hc _ h hr hcm hx := h.submitF hc hr hcm hx
  currentRequestF hc _ h hw := ⟨getD_others hc h.current hw,
    ⟨h.waiting, emplace_others hc h.current hw (by simp), h.workers, h.sorted.emplace _ _, h.fits⟩⟩
  workerCancelledF hc _ h hw := ⟨getD_others hc h.current hw, h.putF hc hw (by simp)⟩

end Fifo
end Broker
