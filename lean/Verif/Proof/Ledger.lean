import Verif.Proof.Enter
import Verif.Proof.LifeInv

/-!
# How often a job was given to workers, and its failure count
-/

set_option linter.unusedSectionVars false
set_option linter.unusedSimpArgs false

namespace Broker

/-- How many times an event gives job `j` to a worker. -/
def Ev.givesJob (j : String) : Ev → Nat
  | .send _ r => if r.jobId = j then 1 else 0
  | .pull _ r => if r.jobId = j then 1 else 0
  | .resend _ r => if r.jobId = j then 1 else 0
  | _ => 0

/-- The same for a sequence. -/
def giving (j : String) (evs : List Ev) : Nat := (evs.map (Ev.givesJob j)).sum

/-- A job that has entered the broker `N` times and was given to workers `S` times: its failure count
    is the number of those attempts, less the one in progress. -/
structure Ledger (j : String) (N S : Nat) (L : LS) : Prop where
  le : L.held.countP (fun r => r.jobId = j) ≤ N
  zero : N = 0 → S = 0
  idle : ∀ r, r ∈ L.que + L.hand → r.jobId = j → r.complete = true → L.fc r.rid = S
  work : ∀ w r, (w, r) ∈ L.busy → r.jobId = j → r.complete = true → L.fc r.rid + 1 = S

/-- The only request for a job. -/
theorem only_one {j : String} {X rest : Multiset Req} {r : Req} (h : X = r ::ₘ rest)
    (hc : X.countP (fun r => r.jobId = j) ≤ 1) (hj : r.jobId = j) {x : Req} (hx : x ∈ rest) :
    x.jobId ≠ j := by
  intro hxj
  rw [h, Multiset.countP_cons_of_pos (p := fun r => r.jobId = j) rest hj] at hc
  have : 0 < rest.countP (fun r => r.jobId = j) := Multiset.countP_pos.2 ⟨x, hx, hxj⟩
  omega

theorem LStep.ledger {M : Nat} (hM : M < SZ) {L L' : LS} {e : Ev} (h : LStep M L e L')
    (hi : LInv M L) {j : String} {N S : Nat} (hl : Ledger j N S L)
    (hN : N + e.enters.countP (fun r => r.jobId = j) ≤ 1) :
    Ledger j (N + e.enters.countP (fun r => r.jobId = j)) (S + e.givesJob j) L' := by
  have hle : L'.held.countP (fun r => r.jobId = j) ≤ N + e.enters.countP (fun r => r.jobId = j) := by
    have := congrArg (Multiset.countP (fun r : Req => r.jobId = j)) h.held_eq
    simp only [Multiset.countP_add] at this
    have := hl.le
    omega
  have hlt : ∀ r ∈ L.held, L'.fc r.rid = match e.counts with
      | some r' => if r.rid = r'.rid then szInc (L.fc r.rid) else L.fc r.rid
      | none => L.fc r.rid := fun r hr => h.fc_eq (hi.lt r hr)
  have hne : ∀ {r rest}, L.held = r ::ₘ rest → ∀ x ∈ rest, x.rid ≠ r.rid :=
    fun hh x hx => hi.rid_ne hh hx
  have hone : L.held.countP (fun r => r.jobId = j) ≤ 1 := le_trans hl.le (by omega)
  have hnone : N = 0 → ∀ x ∈ L.held, x.jobId ≠ j := by
    intro h0 x hx hxj
    have h1 := hl.le
    have : 0 < L.held.countP (fun r => r.jobId = j) := Multiset.countP_pos.2 ⟨x, hx, hxj⟩
    omega
  have mB : ∀ {w r}, (w, r) ∈ L.busy → r ∈ L.held := fun hb => LS.mem_held.2 (.inl ⟨_, hb⟩)
  have mQ : ∀ {r}, r ∈ L.que → r ∈ L.held := fun hb => LS.mem_held.2 (.inr (.inl hb))
  have mH : ∀ {r}, r ∈ L.hand → r ∈ L.held := fun hb => LS.mem_held.2 (.inr (.inr hb))
  have mQH : ∀ {r}, r ∈ L.que + L.hand → r ∈ L.held := fun hb =>
    (Multiset.mem_add.1 hb).elim mQ mH
  cases h with
  | say m => simpa [Ev.givesJob, Ev.enters] using hl
  | drop =>
    refine ⟨hle, by simpa [Ev.givesJob, Ev.enters] using hl.zero, fun r hr hj hc => ?_,
      fun w r hb hj hc => ?_⟩
    · rw [hlt r (mQH hr)]; simpa [Ev.givesJob, Ev.counts] using hl.idle r hr hj hc
    · rw [hlt r (mB hb)]; simpa [Ev.givesJob, Ev.counts] using hl.work w r hb hj hc
  | resend w r hb hcc hf =>
    by_cases hj : r.jobId = j
    · -- then the job is not one that clients brought
      obtain ⟨b, hbb⟩ := Multiset.exists_cons_of_mem hb
      have hheld : L.held = r ::ₘ (b.map (·.2) + L.que + L.hand) := by
        simp [LS.held, hbb]
      have ho : ∀ x ∈ L.held, x.jobId = j → x.complete = true → False := by
        intro x hx hxj hxc
        rw [hheld] at hx
        rcases Multiset.mem_cons.1 hx with rfl | hx
        · rw [hcc] at hxc; cases hxc
        · exact only_one hheld hone hj hx hxj
      refine ⟨hle, fun h0 => ?_, fun x hx hxj hxc => (ho x (mQH hx) hxj hxc).elim,
        fun w' x hx hxj hxc => (ho x (mB hx) hxj hxc).elim⟩
      exact (hnone (by simpa [Ev.enters] using h0) r (mB hb) hj).elim
    · simpa [Ev.givesJob, Ev.enters, hj] using hl
  | accept r hid hcomp hcan =>
    have hgives : S + (Ev.accept r).givesJob j = S := by simp [Ev.givesJob]
    rw [hgives]
    by_cases hj : r.jobId = j
    · have hN0 : N = 0 := by
        have : (Ev.accept r).enters.countP (fun r => r.jobId = j) = 1 := by
          simp [Ev.enters, hj, countP_one]
        omega
      have hS0 := hl.zero hN0
      subst hS0
      refine ⟨hle, fun _ => rfl, fun x hx hxj hxc => ?_, fun w x hb hxj hxc =>
        (hnone hN0 x (mB hb) hxj).elim⟩
      have : x = r := by
        rcases Multiset.mem_add.1 hx with hx | hx
        · exact (hnone hN0 x (mQ hx) hxj).elim
        · rcases Multiset.mem_cons.1 hx with rfl | hx
          · rfl
          · exact (hnone hN0 x (mH hx) hxj).elim
      subst this
      show upd L.fc L.nextRid 0 x.rid = 0
      simp [upd, hid]
    · have hen : (Ev.accept r).enters.countP (fun r => r.jobId = j) = 0 := by
        simp [Ev.enters, hj, countP_one]
      refine ⟨hle, by rw [hen]; exact hl.zero, fun x hx hxj hxc => ?_, fun w x hb hxj hxc => ?_⟩
      · have hx' : x ∈ L.que + L.hand := by
          rcases Multiset.mem_add.1 hx with hx | hx
          · exact Multiset.mem_add.2 (.inl hx)
          · rcases Multiset.mem_cons.1 hx with rfl | hx
            · exact (hj hxj).elim
            · exact Multiset.mem_add.2 (.inr hx)
        rw [hlt x (mQH hx')]
        exact hl.idle x hx' hxj hxc
      · rw [hlt x (mB hb)]
        exact hl.work w x hb hxj hxc
  | register w cur hw hf hcur =>
    have hgives : S + (Ev.register w cur).givesJob j = S := by simp [Ev.givesJob]
    rw [hgives]
    have hbusy : ∀ w' x, (w', x) ∈ ((cur.map (fun r => (w, r))).toList : Multiset (Worker × Req)) + L.busy →
        x.complete = true → (w', x) ∈ L.busy := by
      intro w' x hx hxc
      rcases Multiset.mem_add.1 hx with hx | hx
      · cases hcu : cur with
        | none => rw [hcu] at hx; simp at hx
        | some r0 =>
          rw [hcu] at hx
          have : x = r0 := by simp at hx; exact hx.2
          obtain ⟨k, hk⟩ := hcur r0 hcu
          rw [this, hk] at hxc
          cases hxc
      · exact hx
    by_cases h0 : N + (Ev.register w cur).enters.countP (fun r => r.jobId = j) = 0
    · refine ⟨hle, fun _ => hl.zero (by omega), fun x hx hxj hxc => ?_, fun w' x hb hxj hxc => ?_⟩
      · exact (hnone (by omega) x (mQH hx) hxj).elim
      · exact (hnone (by omega) x (mB (hbusy w' x hb hxc)) hxj).elim
    · refine ⟨hle, fun h1 => (h0 h1).elim, fun x hx hxj hxc => ?_, fun w' x hb hxj hxc => ?_⟩
      · rw [hlt x (mQH hx)]
        exact hl.idle x hx hxj hxc
      · have hb' := hbusy w' x hb hxc
        rw [hlt x (mB hb')]
        exact hl.work w' x hb' hxj hxc
  | send w r hnd hh hw hidle hcan hcomp hfc =>
    have hheld : L.held = r ::ₘ (L.busy.map (·.2) + L.que + hnd) := by
      simp [LS.held, hh, Multiset.add_cons]
    have hr : r ∈ L.hand := by rw [hh]; simp
    by_cases hj : r.jobId = j
    · have hg : (Ev.send w r).givesJob j = 1 := by simp [Ev.givesJob, hj]
      rw [hg]
      refine ⟨hle, fun h0 => (hnone (by simpa [Ev.enters] using h0) r (mH hr) hj).elim,
        fun x hx hxj hxc => ?_, fun w' x hb hxj hxc => ?_⟩
      · refine (only_one hheld hone hj ?_ hxj).elim
        rcases Multiset.mem_add.1 hx with hx | hx
        · simp [hx]
        · simp only [Multiset.mem_add]; exact .inr hx
      · rcases Multiset.mem_cons.1 hb with he | hb
        · cases he
          show L.fc r.rid + 1 = S + 1
          rw [hl.idle r (Multiset.mem_add.2 (.inr hr)) hj hxc]
        · refine (only_one hheld hone hj ?_ hxj).elim
          simp only [Multiset.mem_add, Multiset.mem_map]
          exact .inl (.inl ⟨_, hb, rfl⟩)
    · have hg : (Ev.send w r).givesJob j = 0 := by simp [Ev.givesJob, hj]
      rw [hg]
      refine ⟨hle, by simpa [Ev.enters] using hl.zero, fun x hx hxj hxc => ?_,
        fun w' x hb hxj hxc => ?_⟩
      · refine hl.idle x ?_ hxj hxc
        rcases Multiset.mem_add.1 hx with hx | hx
        · exact Multiset.mem_add.2 (.inl hx)
        · refine Multiset.mem_add.2 (.inr ?_)
          rw [hh]; exact Multiset.mem_cons_of_mem hx
      · rcases Multiset.mem_cons.1 hb with he | hb
        · cases he; exact (hj hxj).elim
        · exact hl.work w' x hb hxj hxc
  | park r hnd hh hcan hcomp hfc =>
    refine ⟨hle, by simpa [Ev.enters, Ev.givesJob] using hl.zero, fun x hx hxj hxc => ?_,
      fun w' x hb hxj hxc => hl.work w' x hb hxj hxc⟩
    refine hl.idle x ?_ hxj hxc
    rw [hh]
    simp only [Multiset.mem_add, Multiset.mem_cons] at hx ⊢
    tauto
  | pull w r q hq hw hidle hcan =>
    have hheld : L.held = r ::ₘ (L.busy.map (·.2) + q + L.hand) := by
      simp [LS.held, hq, Multiset.add_cons]
    have hr : r ∈ L.que := by rw [hq]; simp
    by_cases hj : r.jobId = j
    · have hg : (Ev.pull w r).givesJob j = 1 := by simp [Ev.givesJob, hj]
      rw [hg]
      refine ⟨hle, fun h0 => (hnone (by simpa [Ev.enters] using h0) r (mQ hr) hj).elim,
        fun x hx hxj hxc => ?_, fun w' x hb hxj hxc => ?_⟩
      · refine (only_one hheld hone hj ?_ hxj).elim
        rcases Multiset.mem_add.1 hx with hx | hx
        · simp only [Multiset.mem_add]; exact .inl (.inr hx)
        · simp only [Multiset.mem_add]; exact .inr hx
      · rcases Multiset.mem_cons.1 hb with he | hb
        · cases he
          show L.fc r.rid + 1 = S + 1
          rw [hl.idle r (Multiset.mem_add.2 (.inl hr)) hj hxc]
        · refine (only_one hheld hone hj ?_ hxj).elim
          simp only [Multiset.mem_add, Multiset.mem_map]
          exact .inl (.inl ⟨_, hb, rfl⟩)
    · have hg : (Ev.pull w r).givesJob j = 0 := by simp [Ev.givesJob, hj]
      rw [hg]
      refine ⟨hle, by simpa [Ev.enters] using hl.zero, fun x hx hxj hxc => ?_,
        fun w' x hb hxj hxc => ?_⟩
      · refine hl.idle x ?_ hxj hxc
        rcases Multiset.mem_add.1 hx with hx | hx
        · refine Multiset.mem_add.2 (.inl ?_)
          rw [hq]; exact Multiset.mem_cons_of_mem hx
        · exact Multiset.mem_add.2 (.inr hx)
      · rcases Multiset.mem_cons.1 hb with he | hb
        · cases he; exact (hj hxj).elim
        · exact hl.work w' x hb hxj hxc
  | done w r b hb =>
    refine ⟨hle, by simpa [Ev.enters, Ev.givesJob] using hl.zero, hl.idle, fun w' x hx hxj hxc => ?_⟩
    exact hl.work w' x (by rw [hb]; exact Multiset.mem_cons_of_mem hx) hxj hxc
  | failed w r text b hb =>
    have hheld : L.held = r ::ₘ (b.map (·.2) + L.que + L.hand) := by simp [LS.held, hb]
    have hfc : ∀ x ∈ b.map (·.2) + L.que + L.hand, bump L.fc r x.rid = L.fc x.rid := by
      intro x hx
      simp [bump, upd, hne hheld x hx]
    refine ⟨hle, by simpa [Ev.enters, Ev.givesJob] using hl.zero, fun x hx hxj hxc => ?_,
      fun w' x hx hxj hxc => ?_⟩
    · show bump L.fc r x.rid = S
      rw [hfc x (by simp only [Multiset.mem_add] at hx ⊢; tauto)]
      exact hl.idle x hx hxj hxc
    · show bump L.fc r x.rid + 1 = S
      rw [hfc x (by simp only [Multiset.mem_add, Multiset.mem_map]; exact .inl (.inl ⟨_, hx, rfl⟩))]
      exact hl.work w' x (by rw [hb]; exact Multiset.mem_cons_of_mem hx) hxj hxc
  | cancel w r b hb =>
    have hheld : L.held = r ::ₘ (b.map (·.2) + L.que + L.hand) := by simp [LS.held, hb]
    have hfc : ∀ x ∈ b.map (·.2) + L.que + L.hand, bump L.fc r x.rid = L.fc x.rid := by
      intro x hx
      simp [bump, upd, hne hheld x hx]
    have hrb : (w, r) ∈ L.busy := by rw [hb]; simp
    refine ⟨hle, by simpa [Ev.enters, Ev.givesJob] using hl.zero, fun x hx hxj hxc => ?_,
      fun w' x hx hxj hxc => ?_⟩
    · show bump L.fc r x.rid = S
      by_cases hxr : x = r
      · subst hxr
        rw [← hl.work w x hrb hxj hxc]
        simp only [bump, upd, if_true]
        exact (szInc_le_max hM (hi.aliveB _ hrb hxc)).1
      · have hx' : x ∈ L.que + L.hand := by
          rcases Multiset.mem_add.1 hx with hx | hx
          · exact Multiset.mem_add.2 (.inl hx)
          · exact Multiset.mem_add.2 (.inr ((Multiset.mem_cons.1 hx).resolve_left hxr))
        rw [hfc x (by simp only [Multiset.mem_add] at hx' ⊢; tauto)]
        exact hl.idle x hx' hxj hxc
    · show bump L.fc r x.rid + 1 = S
      rw [hfc x (by simp only [Multiset.mem_add, Multiset.mem_map]; exact .inl (.inl ⟨_, hx, rfl⟩))]
      exact hl.work w' x (by rw [hb]; exact Multiset.mem_cons_of_mem hx) hxj hxc
  | expire w cur qs g b q hg hb hq =>
    have hgives : S + (Ev.expire w cur qs).givesJob j = S := by simp [Ev.givesJob]
    rw [hgives]
    have hheld : L.held = (cur.toList : Multiset Req) + (b.map (·.2) + L.que + L.hand) := by
      rw [LS.held, hb]
      cases cur <;> simp
    have hfc : ∀ x ∈ b.map (·.2) + L.que + L.hand, bumpOpt L.fc cur x.rid = L.fc x.rid := by
      intro x hx
      cases cur with
      | none => rfl
      | some r => simp [bumpOpt, bump, upd, hne (by simpa using hheld) x hx]
    refine ⟨hle, by simpa [Ev.enters] using hl.zero, fun x hx hxj hxc => ?_,
      fun w' x hx hxj hxc => ?_⟩
    · show bumpOpt L.fc cur x.rid = S
      by_cases hxr : cur = some x
      · have hrb : (w, x) ∈ L.busy := by rw [hb, hxr]; simp
        rw [← hl.work w x hrb hxj hxc, hxr]
        simp only [bumpOpt, bump, upd, if_true]
        exact (szInc_le_max hM (hi.aliveB _ hrb hxc)).1
      · have hx' : x ∈ L.que + L.hand := by
          simp only [Multiset.mem_add, Multiset.mem_coe, List.mem_append, Option.mem_toList] at hx
          rw [hq]
          simp only [Multiset.mem_add, Multiset.mem_coe]
          rcases hx with hx | (hx | hx) | hx
          · exact .inl (.inr hx)
          · exact (hxr hx).elim
          · exact .inl (.inl hx)
          · exact .inr hx
        rw [hfc x (by simp only [Multiset.mem_add] at hx' ⊢; tauto)]
        exact hl.idle x hx' hxj hxc
    · show bumpOpt L.fc cur x.rid + 1 = S
      rw [hfc x (by simp only [Multiset.mem_add, Multiset.mem_map]; exact .inl (.inl ⟨_, hx, rfl⟩))]
      exact hl.work w' x (by rw [hb]; exact Multiset.mem_add.2 (.inr hx)) hxj hxc
  | giveUp r text hnd hh hwhy =>
    refine ⟨hle, by simpa [Ev.enters, Ev.givesJob] using hl.zero, fun x hx hxj hxc => ?_,
      fun w' x hb hxj hxc => hl.work w' x hb hxj hxc⟩
    refine hl.idle x ?_ hxj hxc
    rw [hh]
    simp only [Multiset.mem_add, Multiset.mem_cons] at hx ⊢
    tauto

theorem LSteps.ledger {M : Nat} (hM : M < SZ) {L L' : LS} {evs : List Ev} (h : LSteps M L evs L')
    (hi : LInv M L) {j : String} {N S : Nat} (hl : Ledger j N S L) (hN : N + entering j evs ≤ 1) :
    Ledger j (N + entering j evs) (S + giving j evs) L' := by
  induction h generalizing N S with
  | nil => simpa [entering, giving] using hl
  | @cons L L1 L2 e es h ht ih =>
    have h2 : entering j (e :: es) = e.enters.countP (fun r => r.jobId = j) + entering j es := by
      simp [entering]
    have h3 : giving j (e :: es) = e.givesJob j + giving j es := by simp [giving]
    rw [h2] at hN
    rw [h2, h3, ← Nat.add_assoc, ← Nat.add_assoc]
    exact ih (h.linv hM hi) (h.ledger hM hi hl (by omega)) (by omega)

end Broker
