import Verif.Proof.Peer
import Verif.Spec.Restart

/-!
# Workers that outlive the broker: the invariant

As in `Proof/Peer.lean`, except that messages may get lost.
-/

set_option linter.unusedSectionVars false

namespace Broker

open QueueManager LawfulQM Spec

variable {Q : Type} [QueueManager Q] [LawfulQM Q]

/-- The situation of a worker the broker does not know. -/
inductive Unheard (p : Peer) : Prop
  | hello {A B : List Said} {a : Option String} (ho : p.outbox = A ++ .init a :: B)
      (hA : A.countP isInit = 0) (hB : B.countP isInit = 0) (hAp : A.countP isPing = 0)
      (hi : p.inbox.countP isIntro = 0) (he : inEvals p.inbox = [])
      (hj : (outDones B ++ p.job.toList).Sublist a.toList)
  | asked {X Y : List (List String)} {f : List String} (hi : p.inbox = X ++ f :: Y)
      (hf : isIntro f = true) (hX : X.countP isIntro = 0) (hY : Y.countP isIntro = 0)
      (hYe : inEvals Y = []) (ho : p.outbox.countP isInit = 0) (hop : p.outbox.countP isPing = 0)
      (hj : (p.job.toList ++ inEvals X).length ≤ 1)
  | lost (ho : p.outbox.countP isInit = 0) (hi : p.inbox.countP isIntro = 0)
      (hj : (p.job.toList ++ inEvals p.inbox).length ≤ 1)

/-- The invariant; `v` is the view of the broker on the worker. -/
structure OInv (p : Peer) (v : View) : Prop where
  pings : p.outbox.countP isPing + p.inbox.countP isAnswer ≤ if p.waiting then 1 else 0
  before : p.started = false → p.outbox = [] ∧ p.inbox = [] ∧ p.job = none ∧ v = none
  known : ∀ c, v = some c → p.outbox.countP isInit = 0 ∧ p.inbox.countP isIntro = 0 ∧
    (outDones p.outbox ++ p.job.toList ++ inEvals p.inbox).Sublist c.toList
  unknown : v = none → Unheard p

theorem OInv.init : OInv {} none :=
  ⟨Nat.le_refl _, fun _ => ⟨rfl, rfl, rfl, rfl⟩, nofun, fun _ => .lost rfl rfl (by simp [inEvals])⟩

theorem OInv.started {p : Peer} {v : View} (h : OInv p v) (hs : p.started = false) :
    OInv { p with started := true, outbox := p.outbox ++ [.init none] } v := by
  obtain ⟨h1, h2, h3, rfl⟩ := h.before hs
  have hp := h.pings
  refine ⟨?_, nofun, nofun, fun _ => ?_⟩
  · simp [h1, h2, isPing]
  · exact .hello (A := []) (B := []) (a := none) (by simp [h1]) rfl rfl rfl (by simp [h2])
      (by simp [h2, inEvals]) (by simp [h3, outDones])

theorem OInv.finish {p : Peer} {v : View} (h : OInv p v) {j : String} (hj : p.job = some j)
    (o : Outcome) : OInv { p with job := none, outbox := p.outbox ++ [.done j o] } v := by
  have hd : outDones [Said.done j o] = [j] := rfl
  refine ⟨?_, ?_, ?_, ?_⟩
  · simpa [isPing] using h.pings
  · intro hs
    rw [(h.before hs).2.2.1] at hj
    cases hj
  · intro c hc
    obtain ⟨k1, k2, k3⟩ := h.known c hc
    refine ⟨by simp [k1, isInit], k2, ?_⟩
    rw [hj] at k3
    simpa [outDones_append, hd] using k3
  · intro hv
    cases h.unknown hv with
    | @hello A B a ho hA hB hAp hi he hjj =>
      refine .hello (A := A) (B := B ++ [.done j o]) (a := a) (by simp [ho]) hA
        (by simp [hB, isInit]) hAp hi he ?_
      rw [hj] at hjj
      simpa [outDones_append, hd] using hjj
    | @asked X Y f hi hf hX hY hYe ho hop hjj =>
      refine .asked (X := X) (Y := Y) (f := f) hi hf hX hY hYe (by simp [ho, isInit])
        (by simp [hop, isPing]) ?_
      rw [hj] at hjj
      simp at hjj
      simp [hjj]
    | lost ho hi hjj =>
      refine .lost (by simp [ho, isInit]) hi ?_
      rw [hj] at hjj
      simp at hjj
      simp [hjj]

theorem OInv.ping {p : Peer} {v : View} (h : OInv p v) (hs : p.started = true)
    (hw : p.waiting = false) :
    OInv { p with waiting := true, outbox := p.outbox ++ [.ping] } v := by
  have hp := h.pings
  rw [hw] at hp
  simp only [Bool.false_eq_true, if_false] at hp
  refine ⟨?_, ?_, ?_, ?_⟩
  · simp [isPing]; omega
  · intro h'; rw [hs] at h'; cases h'
  · intro c hc
    obtain ⟨k1, k2, k3⟩ := h.known c hc
    exact ⟨by simp [k1, isInit], k2, by simpa [outDones_append, outDones] using k3⟩
  · intro hv
    cases h.unknown hv with
    | @hello A B a ho hA hB hAp hi he hjj =>
      exact .hello (A := A) (B := B ++ [.ping]) (a := a) (by simp [ho]) hA
        (by simp [hB, isInit]) hAp hi he (by simpa [outDones_append, outDones] using hjj)
    | @asked X Y f hi hf hX hY hYe ho hop hjj =>
      exfalso
      have : isAnswer f = true := by
        simp only [isIntro, beq_iff_eq] at hf
        simp [isAnswer, hf]
      rw [hi, List.countP_append, List.countP_cons_of_pos this] at hp
      omega
    | lost ho hi hjj => exact .lost (by simp [ho, isInit]) hi hjj

theorem OInv.progress {p : Peer} {v : View} (h : OInv p v) (hs : p.started = true)
    (fs : List String) : OInv { p with outbox := p.outbox ++ [.progress fs] } v := by
  refine ⟨?_, ?_, ?_, ?_⟩
  · simpa [isPing] using h.pings
  · intro h'; rw [hs] at h'; cases h'
  · intro c hc
    obtain ⟨k1, k2, k3⟩ := h.known c hc
    exact ⟨by simp [k1, isInit], k2, by simpa [outDones_append, outDones] using k3⟩
  · intro hv
    cases h.unknown hv with
    | @hello A B a ho hA hB hAp hi he hjj =>
      exact .hello (A := A) (B := B ++ [.progress fs]) (a := a) (by simp [ho]) hA
        (by simp [hB, isInit]) hAp hi he (by simpa [outDones_append, outDones] using hjj)
    | @asked X Y f hi hf hX hY hYe ho hop hjj =>
      exact .asked (X := X) (Y := Y) (f := f) hi hf hX hY hYe (by simp [ho, isInit])
        (by simp [hop, isPing]) hjj
    | lost ho hi hjj => exact .lost (by simp [ho, isInit]) hi hjj

theorem OInv.read {p : Peer} {v : View} (h : OInv p v) {f : List String}
    {rest : List (List String)} (hi : p.inbox = f :: rest) :
    OInv ({ p with inbox := rest }.react f) v := by
  have hst : p.started = true := by
    cases hs : p.started with
    | true => rfl
    | false => rw [(h.before hs).2.1] at hi; cases hi
  have hp := h.pings
  rw [hi] at hp
  rcases frame_kind f with ⟨j, x, rfl⟩ | ⟨x, rfl⟩ | ⟨x, rfl⟩ | ⟨hr, he, hin, han⟩
  · have e1 : ({ p with inbox := rest } : Peer).react ("eval" :: j :: x) =
        { p with inbox := rest, job := some j } := rfl
    have e2 : ∀ l, inEvals (("eval" :: j :: x) :: l) = j :: inEvals l := fun l => rfl
    rw [e1]
    refine ⟨?_, ?_, ?_, ?_⟩
    · simpa [isAnswer] using hp
    · intro h'; rw [show p.started = false from h'] at hst; cases hst
    · intro c hc
      obtain ⟨k1, k2, k3⟩ := h.known c hc
      rw [hi] at k2 k3
      refine ⟨k1, by simpa [isIntro] using k2, ?_⟩
      rw [e2] at k3
      have hl := k3.length_le
      have hj : p.job = none := by
        cases hj : p.job with
        | none => rfl
        | some j' => rw [hj] at hl; cases c <;> simp at hl; omega
      rw [hj] at k3
      simpa using k3
    · intro hv
      cases h.unknown hv with
      | @hello A B a ho hA hB hAp hii hee hjj =>
        rw [hi, e2] at hee
        cases hee
      | @asked X Y f hii hf hX hY hYe ho hop hjj =>
        cases X with
        | nil =>
          rw [hi] at hii
          simp at hii
          rw [← hii.1] at hf
          simp [isIntro] at hf
        | cons f' X =>
          rw [hi] at hii
          simp at hii
          obtain ⟨rfl, rfl⟩ := hii
          rw [e2] at hjj
          refine .asked (X := X) (Y := Y) (f := f) rfl hf (by simpa [isIntro] using hX) hY hYe ho hop ?_
          rw [List.length_append, List.length_cons] at hjj
          show ([j] ++ inEvals X).length ≤ 1
          rw [List.length_append, List.length_singleton]
          omega
      | lost ho hii hjj =>
        rw [hi] at hii
        rw [hi, e2] at hjj
        refine .lost ho (by simpa [isIntro] using hii) ?_
        rw [List.length_append, List.length_cons] at hjj
        show ([j] ++ inEvals rest).length ≤ 1
        rw [List.length_append, List.length_singleton]
        omega
  · have e1 : ({ p with inbox := rest } : Peer).react ("intro" :: x) =
        { p with inbox := rest, waiting := false, outbox := p.outbox ++ [.init p.job] } := rfl
    rw [e1]
    have hii : isIntro ("intro" :: x) = true := rfl
    cases v with
    | some c =>
      obtain ⟨_, k2, _⟩ := h.known c rfl
      rw [hi, List.countP_cons_of_pos hii] at k2
      omega
    | none =>
      refine ⟨?_, ?_, nofun, fun _ => ?_⟩
      · rw [List.countP_cons_of_pos (by rfl)] at hp
        have : p.outbox.countP isPing + rest.countP isAnswer = 0 := by
          split at hp <;> omega
        show (p.outbox ++ [Said.init p.job]).countP isPing + rest.countP isAnswer ≤ 0
        rw [List.countP_append, List.countP_cons_of_neg (by simp [isPing]), List.countP_nil]
        exact this.le
      · intro h'; rw [show p.started = false from h'] at hst; cases hst
      · cases h.unknown rfl with
        | @hello A B a ho hA hB hAp hii' hee hjj =>
          rw [hi, List.countP_cons_of_pos hii] at hii'
          omega
        | lost ho hii' hjj =>
          rw [hi, List.countP_cons_of_pos hii] at hii'
          omega
        | @asked X Y f hii' hf hX hY hYe ho hop hjj =>
          cases X with
          | cons f' X =>
            rw [hi] at hii'
            simp at hii'
            obtain ⟨rfl, rfl⟩ := hii'
            rw [List.countP_cons_of_pos hii] at hX
            omega
          | nil =>
            rw [hi] at hii'
            simp at hii'
            obtain ⟨rfl, rfl⟩ := hii'
            exact .hello (A := p.outbox) (B := []) (a := p.job) rfl ho rfl hop hY hYe
              (by simp [outDones])
  · have e1 : ({ p with inbox := rest } : Peer).react ("pong" :: x) =
        { p with inbox := rest, waiting := false } := rfl
    rw [e1]
    have e2 : ∀ l, inEvals (("pong" :: x) :: l) = inEvals l := fun l => rfl
    have e3 : ∀ l : List (List String), (("pong" :: x) :: l).countP isIntro = l.countP isIntro :=
      fun l => List.countP_cons_of_neg (by simp [isIntro])
    refine ⟨?_, ?_, ?_, ?_⟩
    · rw [List.countP_cons_of_pos (by rfl)] at hp
      have : p.outbox.countP isPing + rest.countP isAnswer = 0 := by
        split at hp <;> omega
      exact this.le
    · intro h'; rw [show p.started = false from h'] at hst; cases hst
    · intro c hc
      obtain ⟨k1, k2, k3⟩ := h.known c hc
      rw [hi] at k2 k3
      exact ⟨k1, by rw [e3] at k2; exact k2, by rw [e2] at k3; exact k3⟩
    · intro hv
      cases h.unknown hv with
      | @hello A B a ho hA hB hAp hii hee hjj =>
        rw [hi] at hii hee
        exact .hello ho hA hB hAp (by rw [e3] at hii; exact hii) (by rw [e2] at hee; exact hee) hjj
      | @asked X Y f hii hf hX hY hYe ho hop hjj =>
        cases X with
        | nil =>
          rw [hi] at hii
          simp at hii
          rw [← hii.1] at hf
          simp [isIntro] at hf
        | cons f' X =>
          rw [hi] at hii
          simp at hii
          obtain ⟨rfl, rfl⟩ := hii
          exact .asked (X := X) (Y := Y) (f := f) rfl hf (by rw [e3] at hX; exact hX) hY hYe ho hop
            (by rw [e2] at hjj; exact hjj)
      | lost ho hii hjj =>
        rw [hi] at hii hjj
        exact .lost ho (by rw [e3] at hii; exact hii) (by rw [e2] at hjj; exact hjj)
  · rw [hr]
    have e2 : ∀ l, inEvals (f :: l) = inEvals l := fun l => by rw [inEvals_cons, he]; rfl
    have e3 : ∀ l : List (List String), (f :: l).countP isIntro = l.countP isIntro :=
      fun l => List.countP_cons_of_neg (by simp [hin])
    refine ⟨?_, ?_, ?_, ?_⟩
    · rw [List.countP_cons_of_neg (by simp [han])] at hp
      exact hp
    · intro h'; rw [show p.started = false from h'] at hst; cases hst
    · intro c hc
      obtain ⟨k1, k2, k3⟩ := h.known c hc
      rw [hi] at k2 k3
      exact ⟨k1, by rw [e3] at k2; exact k2, by rw [e2] at k3; exact k3⟩
    · intro hv
      cases h.unknown hv with
      | @hello A B a ho hA hB hAp hii hee hjj =>
        rw [hi] at hii hee
        exact .hello ho hA hB hAp (by rw [e3] at hii; exact hii) (by rw [e2] at hee; exact hee) hjj
      | @asked X Y f' hii hf hX hY hYe ho hop hjj =>
        cases X with
        | nil =>
          rw [hi] at hii
          simp at hii
          rw [← hii.1, hin] at hf
          cases hf
        | cons f'' X =>
          rw [hi] at hii
          simp at hii
          obtain ⟨rfl, rfl⟩ := hii
          exact .asked (X := X) (Y := Y) (f := f') rfl hf (by rw [e3] at hX; exact hX) hY hYe ho hop
            (by rw [e2] at hjj; exact hjj)
      | lost ho hii hjj =>
        rw [hi] at hii hjj
        exact .lost ho (by rw [e3] at hii; exact hii) (by rw [e2] at hjj; exact hjj)

/-- Something the broker does on its own. -/
theorem OInv.recv {p : Peer} {v v' : View} {sent : List (List String)} (h : OInv p v)
    (ht : Tamed v sent v') : OInv { p with inbox := p.inbox ++ sent } v' := by
  rcases ht with ⟨rfl, h1⟩ | ⟨rfl, j, x, rfl, h1⟩
  · have e : ({ p with inbox := p.inbox ++ [] } : Peer) = p := by simp
    rw [e]
    rcases h1 with rfl | rfl
    · exact h
    · cases v with
      | none => exact h
      | some c =>
        obtain ⟨k1, k2, k3⟩ := h.known c rfl
        refine ⟨h.pings, fun hs => ?_, nofun, fun _ => .lost k1 k2 ?_⟩
        · have := (h.before hs).2.2.2; cases this
        · have := k3.length_le
          rw [List.length_append, List.length_append] at this
          rw [List.length_append]
          have hc : c.toList.length ≤ 1 := by cases c <;> simp
          omega
  · obtain ⟨k1, k2, k3⟩ := h.known none rfl
    have k4 : outDones p.outbox = [] ∧ p.job = none ∧ inEvals p.inbox = [] := by
      simp at k3
      exact ⟨k3.1, by simpa using k3.2.1, k3.2.2⟩
    have e2 : inEvals (p.inbox ++ ["eval" :: j :: x]) = [j] := by
      rw [inEvals_append, k4.2.2]; rfl
    have hp : p.outbox.countP isPing + (p.inbox ++ ["eval" :: j :: x]).countP isAnswer ≤
        if p.waiting then 1 else 0 := by
      simpa [isAnswer] using h.pings
    have hb : p.started = false → False := fun hs => by
      have := (h.before hs).2.2.2; cases this
    rcases h1 with rfl | rfl
    · refine ⟨hp, fun hs => (hb hs).elim, ?_, nofun⟩
      intro c hc
      cases hc
      refine ⟨k1, by simpa [isIntro] using k2, ?_⟩
      show (outDones p.outbox ++ p.job.toList ++ inEvals (p.inbox ++ ["eval" :: j :: x])).Sublist [j]
      rw [e2, k4.1, k4.2.1]; exact List.Sublist.refl _
    · refine ⟨hp, fun hs => (hb hs).elim, nofun, fun _ => .lost k1 (by simpa [isIntro] using k2) ?_⟩
      show (p.job.toList ++ inEvals (p.inbox ++ ["eval" :: j :: x])).length ≤ 1
      rw [e2, k4.2.1]; simp

/-- The broker ignores or merely relays the first message of the worker. -/
theorem OInv.skip {p : Peer} {v : View} {x : Said} {rest : List Said} (h : OInv p v)
    (ho : p.outbox = x :: rest) (h1 : isPing x = false) (h2 : isInit x = false)
    (h3 : v ≠ none → outDones [x] = []) : OInv { p with outbox := rest } v := by
  have e1 : ∀ l : List Said, (x :: l).countP isPing = l.countP isPing :=
    fun l => List.countP_cons_of_neg (by simp [h1])
  have e2 : ∀ l : List Said, (x :: l).countP isInit = l.countP isInit :=
    fun l => List.countP_cons_of_neg (by simp [h2])
  refine ⟨?_, ?_, ?_, ?_⟩
  · have := h.pings
    rw [ho, e1] at this
    exact this
  · intro hs
    have := (h.before hs).1
    rw [ho] at this
    cases this
  · intro c hc
    obtain ⟨k1, k2, k3⟩ := h.known c hc
    rw [ho, e2] at k1
    rw [ho, show x :: rest = [x] ++ rest from rfl, outDones_append, h3 (by simp [hc])] at k3
    exact ⟨k1, k2, by simpa using k3⟩
  · intro hv
    cases h.unknown hv with
    | @hello A B a ho' hA hB hAp hii hee hjj =>
      cases A with
      | nil =>
        rw [ho] at ho'
        simp at ho'
        rw [ho'.1] at h2
        cases h2
      | cons y A =>
        rw [ho] at ho'
        simp at ho'
        obtain ⟨rfl, rfl⟩ := ho'
        exact .hello (A := A) (B := B) (a := a) rfl (by rw [e2] at hA; exact hA) hB
          (by rw [e1] at hAp; exact hAp) hii hee hjj
    | @asked X Y f hii hf hX hY hYe ho' hop hjj =>
      rw [ho] at ho' hop
      exact .asked hii hf hX hY hYe (by rw [e2] at ho'; exact ho') (by rw [e1] at hop; exact hop) hjj
    | lost ho' hii hjj =>
      rw [ho] at ho'
      exact .lost (by rw [e2] at ho'; exact ho') hii hjj

/-- A report of a known worker is about the job the broker expects. -/
theorem OInv.report {p : Peer} {c : Option String} {j : String} {o : Outcome} {rest : List Said}
    (h : OInv p (some c)) (ho : p.outbox = .done j o :: rest) :
    c = some j ∧ OInv { p with outbox := rest } (some none) := by
  obtain ⟨k1, k2, k3⟩ := h.known c rfl
  rw [ho] at k1 k3
  have e : outDones (Said.done j o :: rest) = j :: outDones rest := rfl
  rw [e] at k3
  cases c with
  | none => simp at k3
  | some j' =>
    simp at k3
    obtain ⟨rfl, k3⟩ := k3
    refine ⟨rfl, ?_, ?_, ?_, nofun⟩
    · have := h.pings
      rw [ho] at this
      simpa [isPing] using this
    · intro hs
      have := (h.before hs).1
      rw [ho] at this
      cases this
    · intro c hc
      cases hc
      refine ⟨by simpa [isInit] using k1, k2, ?_⟩
      simpa using k3

/-- The answer to a ping. -/
theorem OInv.answer {p : Peer} {v : View} {rest : List Said} (h : OInv p v)
    (ho : p.outbox = .ping :: rest) :
    OInv { p with outbox := rest,
                  inbox := p.inbox ++ [[if v = none then "intro" else "pong"]] } v := by
  have e2 : ∀ l : List Said, (Said.ping :: l).countP isInit = l.countP isInit :=
    fun l => List.countP_cons_of_neg (by simp [isInit])
  have hp := h.pings
  rw [ho, List.countP_cons_of_pos (by rfl)] at hp
  have hp0 : rest.countP isPing = 0 ∧ p.inbox.countP isAnswer = 0 ∧ p.waiting = true := by
    split at hp
    · rename_i hw; exact ⟨by omega, by omega, hw⟩
    · omega
  have hb : p.started = false → False := fun hs => by
    have := (h.before hs).1; rw [ho] at this; cases this
  refine ⟨?_, fun hs => (hb hs).elim, ?_, ?_⟩
  · rw [hp0.2.2]
    show rest.countP isPing + (p.inbox ++ _).countP isAnswer ≤ _
    rw [List.countP_append, hp0.1, hp0.2.1]
    cases v <;> simp [isAnswer]
  · intro c hc
    subst hc
    obtain ⟨k1, k2, k3⟩ := h.known c rfl
    rw [ho, e2] at k1
    rw [ho] at k3
    refine ⟨k1, by simpa [isIntro] using k2, ?_⟩
    show (outDones rest ++ p.job.toList ++ inEvals (p.inbox ++ _)).Sublist _
    rw [inEvals_append]
    have e3 : outDones (Said.ping :: rest) = outDones rest := rfl
    rw [e3] at k3
    simpa [inEvals] using k3
  · intro hv
    subst hv
    cases h.unknown rfl with
    | @hello A B a ho' hA hB hAp hii hee hjj =>
      cases A with
      | nil => rw [ho] at ho'; simp at ho'
      | cons y A =>
        rw [ho] at ho'
        simp at ho'
        rw [← ho'.1, List.countP_cons_of_pos (by rfl)] at hAp
        omega
    | @asked X Y f hii hf hX hY hYe ho' hop hjj =>
      rw [ho, List.countP_cons_of_pos (by rfl)] at hop
      omega
    | lost ho' hii hjj =>
      rw [ho, e2] at ho'
      exact .asked (X := p.inbox) (Y := []) (f := ["intro"]) rfl rfl hii rfl rfl ho' hp0.1 hjj

/-- The broker learns about the worker. -/
theorem OInv.hello {p : Peer} {a : Option String} {rest : List Said} (h : OInv p none)
    (ho : p.outbox = .init a :: rest) :
    OInv { p with outbox := rest } (some a) := by
  have e1 : ∀ l : List Said, (Said.init a :: l).countP isInit = l.countP isInit + 1 :=
    fun l => List.countP_cons_of_pos (by rfl)
  have hp := h.pings
  rw [ho, List.countP_cons_of_neg (by simp [isPing])] at hp
  have hb : p.started = false → False := fun hs => by
    have := (h.before hs).1; rw [ho] at this; cases this
  refine ⟨hp, fun hs => (hb hs).elim, ?_, nofun⟩
  intro c hc
  cases hc
  cases h.unknown rfl with
  | @hello A B a' ho' hA hB hAp hii hee hjj =>
    cases A with
    | nil =>
      rw [ho] at ho'
      simp at ho'
      obtain ⟨rfl, rfl⟩ := ho'
      refine ⟨hB, hii, ?_⟩
      show (outDones rest ++ p.job.toList ++ inEvals p.inbox).Sublist _
      rw [hee]; simpa using hjj
    | cons y A =>
      rw [ho] at ho'
      simp at ho'
      rw [← ho'.1, e1] at hA
      omega
  | @asked X Y f hii hf hX hY hYe ho' hop hjj => rw [ho, e1] at ho'; omega
  | lost ho' hii hjj => rw [ho, e1] at ho'; omega

/-- A known worker does not introduce itself. -/
theorem OInv.no_init {p : Peer} {v : View} {a : Option String} {rest : List Said} (h : OInv p v)
    (ho : p.outbox = .init a :: rest) : v = none := by
  cases v with
  | none => rfl
  | some c =>
    have := (h.known c rfl).1
    rw [ho, List.countP_cons_of_pos (by rfl)] at this
    omega

/-- Messages that are neither invitations nor evaluations nor answers change nothing. -/
theorem OInv.noise {p : Peer} {v : View} (h : OInv p v) (hst : p.started = true) (a : List (List String))
    (ha : a = [] ∨ a = [[]]) : OInv { p with inbox := p.inbox ++ a } v := by
  rcases ha with rfl | rfl
  · simpa using h
  · refine ⟨by simpa [isAnswer] using h.pings, ?_, ?_, ?_⟩
    · intro hs
      rw [show p.started = false from hs] at hst
      cases hst
    · intro c hc
      obtain ⟨k1, k2, k3⟩ := h.known c hc
      exact ⟨k1, by simpa [isIntro] using k2, by simpa [inEvals_append, inEvals] using k3⟩
    · intro hv
      cases h.unknown hv with
      | hello ho hA hB hAp hi he hj =>
        exact .hello ho hA hB hAp (by simpa [isIntro] using hi) (by simpa [inEvals_append, inEvals] using he) hj
      | @asked X Y f hi hf hX hY hYe ho hop hj =>
        exact .asked (X := X) (Y := Y ++ [[]]) (f := f) (by simp [hi]) hf hX
          (by simpa [isIntro] using hY) (by simpa [inEvals_append, inEvals] using hYe) ho hop hj
      | lost ho hi hj =>
        exact .lost ho (by simpa [isIntro] using hi) (by simpa [inEvals_append, inEvals] using hj)

theorem OInv.running {p : Peer} {v : View} (h : OInv p v) {x : Said} {rest : List Said}
    (ho : p.outbox = x :: rest) : p.started = true := by
  cases hs : p.started with
  | true => rfl
  | false => rw [(h.before hs).1] at ho; cases ho


theorem inEvals_sublist {a b : List (List String)} (h : a.Sublist b) :
    (inEvals a).Sublist (inEvals b) := h.filterMap _

theorem outDones_sublist {a b : List Said} (h : a.Sublist b) :
    (outDones a).Sublist (outDones b) := h.filterMap _

theorem countP_zero_sublist {α : Type} {p : α → Bool} {a b : List α} (h : a.Sublist b)
    (hb : b.countP p = 0) : a.countP p = 0 := by
  have := h.countP_le (p := p)
  omega

/-- Sublists of a list with a marked element. -/
theorem sublist_mark {α : Type} {l A B : List α} {x : α} (h : l.Sublist (A ++ x :: B)) :
    l.Sublist (A ++ B) ∨ ∃ A' B', l = A' ++ x :: B' ∧ A'.Sublist A ∧ B'.Sublist B := by
  obtain ⟨l1, l2, rfl, h1, h2⟩ := List.sublist_append_iff.1 h
  rcases List.sublist_cons_iff.1 h2 with h3 | ⟨r, rfl, h3⟩
  · exact .inl (h1.append h3)
  · exact .inr ⟨l1, r, rfl, h1, h3⟩

/-- Messages get lost. -/
theorem OInv.lose {p : Peer} {v : View} (h : OInv p v) {out : List Said}
    {inb : List (List String)} (ho : out.Sublist p.outbox) (hi : inb.Sublist p.inbox) :
    OInv { p with outbox := out, inbox := inb } v := by
  refine ⟨?_, ?_, ?_, ?_⟩
  · have h1 := ho.countP_le (p := isPing)
    have h2 := hi.countP_le (p := isAnswer)
    have h3 := h.pings
    show out.countP isPing + inb.countP isAnswer ≤ _
    exact le_trans (Nat.add_le_add h1 h2) h3
  · intro hs
    obtain ⟨h1, h2, h3, h4⟩ := h.before hs
    rw [h1] at ho
    rw [h2] at hi
    exact ⟨List.sublist_nil.1 ho, List.sublist_nil.1 hi, h3, h4⟩
  · intro c hc
    obtain ⟨k1, k2, k3⟩ := h.known c hc
    exact ⟨countP_zero_sublist ho k1, countP_zero_sublist hi k2,
      (((outDones_sublist ho).append (List.Sublist.refl _)).append (inEvals_sublist hi)).trans k3⟩
  · intro hv
    cases h.unknown hv with
    | @hello A B a ho' hA hB hAp hii hee hjj =>
      have he : inEvals inb = [] := List.sublist_nil.1 (hee ▸ inEvals_sublist hi)
      rw [ho'] at ho
      rcases sublist_mark ho with h1 | ⟨A', B', rfl, h1, h2⟩
      · refine .lost (countP_zero_sublist h1 (by rw [List.countP_append]; omega))
          (countP_zero_sublist hi hii) ?_
        show (p.job.toList ++ inEvals inb).length ≤ 1
        rw [he]
        cases p.job <;> simp
      · exact .hello (A := A') (B := B') (a := a) rfl (countP_zero_sublist h1 hA)
          (countP_zero_sublist h2 hB) (countP_zero_sublist h1 hAp) (countP_zero_sublist hi hii) he
          (((outDones_sublist h2).append (List.Sublist.refl _)).trans hjj)
    | @asked X Y f hii hf hX hY hYe ho' hop hjj =>
      rw [hii] at hi
      rw [List.length_append] at hjj
      rcases sublist_mark hi with h1 | ⟨X', Y', rfl, h1, h2⟩
      · refine .lost (countP_zero_sublist ho ho')
          (countP_zero_sublist h1 (by rw [List.countP_append]; omega)) ?_
        have := (inEvals_sublist h1).length_le
        rw [inEvals_append, hYe, List.append_nil] at this
        show (p.job.toList ++ inEvals inb).length ≤ 1
        rw [List.length_append]
        omega
      · refine .asked (X := X') (Y := Y') (f := f) rfl hf (countP_zero_sublist h1 hX)
          (countP_zero_sublist h2 hY) (List.sublist_nil.1 (hYe ▸ inEvals_sublist h2))
          (countP_zero_sublist ho ho') (countP_zero_sublist ho hop) ?_
        have := (inEvals_sublist h1).length_le
        show (p.job.toList ++ inEvals X').length ≤ 1
        rw [List.length_append]
        omega
    | lost ho' hii hjj =>
      refine .lost (countP_zero_sublist ho ho') (countP_zero_sublist hi hii) ?_
      have := (inEvals_sublist hi).length_le
      rw [List.length_append] at hjj
      show (p.job.toList ++ inEvals inb).length ≤ 1
      rw [List.length_append]
      omega

/-- The connection is set up anew. -/
theorem OInv.reconnect {p : Peer} {v : View} (h : OInv p v) :
    OInv { p with outbox := [], inbox := [], waiting := false } v := by
  have h' := h.lose (List.nil_sublist _) (List.nil_sublist _)
  refine ⟨by simp, h'.before, h'.known, ?_⟩
  intro _
  exact .lost rfl rfl (by show (p.job.toList ++ []).length ≤ 1; cases p.job <;> simp)

/-- The broker is started anew. -/
theorem OInv.restart {p : Peer} {v : View} (h : OInv p v) : OInv p none := by
  have := h.recv (sent := []) (v' := none) (.inl ⟨rfl, .inr rfl⟩)
  simpa using this

theorem PInv.restart {p : Peer} {v : View} (h : PInv p v) : PInv p none := by
  have := h.recv (sent := []) (v' := none) (.inl ⟨rfl, .inr rfl⟩)
  simpa using this

/-! ## The world -/

/-- The invariant of the world. -/
def TInv (cfg : HConfig) (env : Env) (me : Me) (w : World Q) : Prop :=
  (∃ h, Run cfg env h w.broker) ∧ ∃ v, LView (ls w.broker 0) me.identity v ∧ OInv w.peer v

theorem TInv.step {cfg : HConfig} {env : Env} {me : Me} {w w' : World Q} (h : TInv cfg env me w)
    (hs : WStep cfg env me true w w') : TInv cfg env me w' := by
  obtain ⟨⟨hist, hr⟩, v, hv, hp⟩ := h
  cases hs with
  | own ho =>
    refine ⟨⟨hist, hr⟩, v, hv, ?_⟩
    cases ho with
    | start hst => exact hp.started hst
    | read hi => exact hp.read hi
    | finish hj o => exact hp.finish hj o
    | ping hst hw => exact hp.ping hst (hw rfl)
    | progress hst fs => exact hp.progress hst fs
  | other hm hs =>
    obtain ⟨v', hv', ht⟩ := view_other hr hs hm hv
    exact ⟨⟨_, .snoc hr hs⟩, v', hv', hp.recv ht⟩
  | @handle b b' p x rest ho hs =>
    refine ⟨⟨_, .snoc hr hs⟩, ?_⟩
    cases x with
    | ping =>
      obtain ⟨h1, h2⟩ := view_ping hr hs hv
      refine ⟨v, h1, ?_⟩
      show OInv { p with outbox := rest, inbox := p.inbox ++ toWorker me.identity b'.outs } v
      rw [h2]
      exact hp.answer ho
    | progress fs =>
      obtain ⟨h1, h2⟩ := view_progress hr hs hv
      refine ⟨v, h1, ?_⟩
      show OInv { p with outbox := rest, inbox := p.inbox ++ toWorker me.identity b'.outs } v
      rw [h2]
      have := hp.skip ho rfl rfl (fun _ => rfl)
      simpa using this
    | done j o =>
      obtain ⟨st, r, hf, hst⟩ := done_status me j o
      have hs' := hs
      rw [Me.msg, hf] at hs'
      cases v with
      | none =>
        obtain ⟨v', h1, h2, _⟩ := view_done hr hs' hst hv (.inl rfl)
        obtain ⟨rfl, h3⟩ := h2 rfl
        refine ⟨none, h1, ?_⟩
        show OInv { p with outbox := rest, inbox := p.inbox ++ toWorker me.identity b'.outs } none
        rw [h3]
        have := hp.skip ho rfl rfl (fun h => absurd rfl h)
        simpa using this
      | some c =>
        obtain ⟨rfl, hp'⟩ := hp.report ho
        obtain ⟨v', h1, _, h2⟩ := view_done hr hs' hst hv (.inr rfl)
        exact ⟨v', h1, hp'.recv (h2 rfl)⟩
    | init a =>
      have hvn := hp.no_init ho
      subst hvn
      obtain ⟨r, hf⟩ := init_frames me a
      have hs' := hs
      rw [Me.msg, hf] at hs'
      have hj := currentJob_init me a
      rw [hf] at hj
      have hh := hp.hello ho
      rcases view_init hr hs' hv with ⟨h1, h2⟩ | ⟨h1, j, x, h2, h3⟩
      · rw [hj] at h1
        refine ⟨some a, h1, ?_⟩
        exact hh.noise (hp.running ho) _ h2
      · rw [hj] at h1
        subst h1
        refine ⟨_, h2, ?_⟩
        show OInv { p with outbox := rest, inbox := p.inbox ++ toWorker me.identity b'.outs } _
        rw [h3]
        exact hh.recv (.inr ⟨rfl, j, x, rfl, .inl rfl⟩)


theorem Spec.Endured.tinv {me : Me} {lossy : Bool} {cfg : HConfig} {env : Env} {os : List Msg}
    {w : World Q} (h : Endured me lossy false cfg env os w) : TInv cfg env me w := by
  induction h with
  | start => exact ⟨⟨[], .nil⟩, none, LView.init _, OInv.init⟩
  | own _ ho ih => exact ih.step (.own ho)
  | handle _ hx hs ih => exact ih.step (.handle hx hs)
  | other _ hm hs ih => exact ih.step (.other hm hs)
  | restart _ _ _ ih =>
    obtain ⟨_, v, _, hp⟩ := ih
    exact ⟨⟨[], .nil⟩, none, LView.init _, hp.restart⟩
  | lose _ _ ho hi ih =>
    obtain ⟨hr, v, hv, hp⟩ := ih
    exact ⟨hr, v, hv, hp.lose ho hi⟩
  | reconnect _ _ ih =>
    obtain ⟨hr, v, hv, hp⟩ := ih
    exact ⟨hr, v, hv, hp.reconnect⟩
  | die _ hm => cases hm

/-- If nothing gets lost. -/
theorem Spec.Endured.winv {me : Me} {cfg : HConfig} {env : Env} {os : List Msg}
    {w : World Q} (h : Endured me false false cfg env os w) : WInv cfg env me w := by
  induction h with
  | start => exact ⟨⟨[], .nil⟩, none, LView.init _, PInv.init⟩
  | own _ ho ih => exact ih.step (.own ho)
  | handle _ hx hs ih => exact ih.step (.handle hx hs)
  | other _ hm hs ih => exact ih.step (.other hm hs)
  | restart _ _ _ ih =>
    obtain ⟨_, v, _, hp⟩ := ih
    exact ⟨⟨[], .nil⟩, none, LView.init _, hp.restart⟩
  | lose _ hl => cases hl
  | reconnect _ hl => cases hl
  | die _ hm => cases hm

/-! ## Deployments -/

theorem Spec.Outlived.world {mes : String → Me} (hid : ∀ i, (mes i).identity = i) {lossy : Bool}
    {cfg : HConfig} {env : Env} {d : Deployment Q} (h : Outlived mes lossy cfg env d) (k : String) :
    ∃ os, Endured (mes k) lossy false cfg env os ⟨d.broker, d.peers k⟩ := by
  induction h with
  | start => exact ⟨[], .start _ _⟩
  | own _ i ho ih =>
    obtain ⟨os, ih⟩ := ih
    by_cases hk : k = i
    · subst hk
      simp only [if_pos]
      exact ⟨os, ih.own ho⟩
    · simp only [if_neg hk]
      exact ⟨os, ih⟩
  | @handle cfg env b b' ps x rest _ i hx hs ih =>
    obtain ⟨os, ih⟩ := ih
    by_cases hk : k = i
    · subst hk
      simp only [if_pos]
      have := ih.handle hx hs
      rw [hid] at this
      exact ⟨_, this⟩
    · simp only [if_neg hk]
      have := ih.other (m := (mes i).msg x) (by
        rintro ⟨_, h⟩
        have h : (mes i).identity = (mes k).identity := h
        rw [hid, hid] at h
        exact hk h.symm) hs
      rw [hid] at this
      exact ⟨_, this⟩
  | other _ hm hs ih =>
    obtain ⟨os, ih⟩ := ih
    have := ih.other (fun h => hm h.1) hs
    rw [hid] at this
    exact ⟨_, this⟩
  | restart _ cfg' env' ih =>
    obtain ⟨os, ih⟩ := ih
    exact ⟨os, ih.restart cfg' env'⟩
  | lose _ hl ho hi ih =>
    obtain ⟨os, ih⟩ := ih
    exact ⟨os, ih.lose hl (ho k) (hi k)⟩
  | reconnect _ hl i ih =>
    obtain ⟨os, ih⟩ := ih
    by_cases hk : k = i
    · simp only [if_pos hk]
      exact ⟨os, ih.reconnect hl⟩
    · simp only [if_neg hk]
      exact ⟨os, ih⟩

end Broker
