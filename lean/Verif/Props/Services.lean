import Verif.Props.Groups
import Verif.Props.Demand
import Verif.Spec.Services

/-!
# C126: what a worker declares matters only by the requests it can process

A worker may introduce itself with any other hardware group and any other headers, if it can process the
same requests of the history.
-/

namespace Broker

open Spec

variable {Q : Type} [QueueManager Q]

/-- Requirements of the requests of the history. -/
def RequestFramesIn (ms : List Msg) (rs : Headers) : Prop :=
  rs = [] ∨ ∃ fs x, evalHeaders fs [] [] = .ok (some x) ∧ rs = x.1 ∧ Numeric (headerFrames fs) ∧
    RequestFrames ms (headerFrames fs)

theorem requested_in {ms : List Msg} (hn : ∀ fs, RequestFrames ms fs → Numeric fs) {m : Msg} (hm : m ∈ ms) :
    m.key = "clients" → m.data.head? = some "eval" →
    ∀ x, evalHeaders (m.data.drop 2) [] [] = .ok (some x) → RequestFramesIn ms x.1 := by
  obtain ⟨k, i, d⟩ := m
  rintro rfl hd x hx
  match d with
  | [] => cases hd
  | [_] => cases hx
  | c :: j :: fs =>
    obtain rfl : c = "eval" := Option.some.inj hd
    have hr : RequestFrames ms (headerFrames fs) := ⟨i, j, fs, hm, rfl⟩
    exact .inr ⟨fs, x, hx, rfl, hn _ hr, hr⟩

theorem headerFrames_plain {hs : List String} (h : ∀ x ∈ hs, x ≠ "") : headerFrames hs = hs := by
  unfold headerFrames
  induction hs with
  | nil => rfl
  | cons x t ih =>
    rw [List.takeWhile_cons, if_pos (by simpa using h x (by simp)), ih fun y hy => h y (by simp [hy])]

theorem sameOffer_service {ms : List Msg} {g g' : String} {hs hs' : List String}
    (hh : ∀ x ∈ hs, x ≠ "") (hh' : ∀ x ∈ hs', x ≠ "") (hn : Numeric hs) (hn' : Numeric hs')
    (h : SameService ms g hs g' hs') :
    SameOffer (RequestFramesIn ms) g g' (initHeaders hs []).1 (initHeaders hs' []).1 := by
  intro a b i j d d'
  obtain ⟨w, hw⟩ := create_counts (a := a) (i := i) (g := g) (d := d) (numeric_declared hn)
  obtain ⟨w', hw'⟩ := create_counts (a := b) (i := j) (g := g') (d := d') (numeric_declared hn')
  rw [hw, hw']
  refine .ok ?_
  rintro rs (rfl | ⟨fs, x, hx, rfl, hf, hr⟩)
  · rfl
  · obtain ⟨c, hc, h1⟩ := C27_matching hw hx hf
    obtain ⟨c', hc', h2⟩ := C27_matching hw' hx hf
    rw [headerFrames_plain hh] at h1
    rw [headerFrames_plain hh'] at h2
    rw [hc, hc', Bool.eq_iff_iff.2 (h1.trans ((h _ hr).trans h2.symm))]

theorem reoffered_retold {ms : List Msg} (hn : ∀ fs, RequestFrames ms fs → Numeric fs)
    {ps : List (Msg × Msg)} {m m' : Msg} (h : Reoffered ms m m') (hm : m ∈ ms) (hp : (m, m') ∈ ps) :
    Retold id Eq (DeclaredIn ps) (RequestFramesIn ms) m m' := by
  cases h with
  | other m h =>
    have h := Retold.same (ν := id) (τ := Eq) (κ := DeclaredIn ps) (ψ := RequestFramesIn ms) m
      (fun h1 h2 => absurd ⟨h1, h2⟩ h) (requested_in hn hm)
    rwa [nameInp_id] at h
  | short i => exact .intro i (.one _)
  | @intro i g g' hs hs' t e hh hh' hn hn' h ht =>
    have h1 := initHeaders_fst_append hs t hh ht []
    have h2 := initHeaders_fst_append hs' t hh' ht []
    refine .intro i (.more ⟨g, g', _, _, hp, rfl, rfl⟩ ?_ ?_ ?_)
    · rw [h1.1, h2.1]
      exact sameOffer_service hh hh' hn hn' h
    · rw [h1.2, h2.2]
    · rw [h1.2, h2.2]

theorem transcript_reoffered [Carries Q] [LayoutQM Q] (cfg : HConfig) {env : Env}
    (he : LayoutQM.EnvR Q True env env) {ms0 : List Msg} (hn : ∀ fs, RequestFrames ms0 fs → Numeric fs)
    {ps : List (Msg × Msg)} {ms ms' : List Msg} (h : List.Forall₂ (Reoffered ms0) ms ms')
    (h0 : ∀ m ∈ ms, m ∈ ms0) (hp : ∀ p ∈ ms.zip ms', p ∈ ps) :
    ∀ {s s' : HState Q}, ToldEq id True Eq (DeclaredIn ps) (RequestFramesIn ms0) s s' →
      transcript cfg env s' ms' = transcript cfg env s ms := by
  induction h with
  | nil => intro s s' _; rfl
  | @cons m m' ms ms' hm _ ih =>
    intro s s' hs
    have hr := step_retold cfg he (reoffered_retold hn hm (h0 _ (.head _)) (hp _ (.head _))) hs
    unfold transcript
    generalize step cfg env m s = x at hr
    generalize step cfg env m' s' = x' at hr
    cases hr with
    | ok ho h2 =>
      have ho := forall2_named_id (ho.imp fun _ _ => told_named)
      simp only [ho, ih (fun m h => h0 m (.tail _ h)) (fun p h => hp p (.tail _ h)) h2]
    | error e ho =>
      have ho := forall2_named_id (ho.imp fun _ _ => told_named)
      simp only [ho]

/-- **C126 (multi-queue manager).** If workers introduce themselves with other hardware groups and headers
    that let them process the same requests of the history, and introductions that repeat the headers of
    an earlier one still do and others still do not, the broker answers every message in the same way, and
    ends in the same way if it ends. -/
theorem C126_multi (cfg : HConfig) (env : Env) {ms ms' : List Msg}
    (hn : ∀ fs, RequestFrames ms fs → Numeric fs) (h : List.Forall₂ (Reoffered ms) ms ms')
    (hr : SameRepeats ms ms') : observed Multi cfg env ms' = observed Multi cfg env ms :=
  transcript_reoffered (Q := Multi) cfg (env := env) trivial hn h (fun _ hm => hm) (fun _ hp => hp)
    (ToldEq.init (fun h => h) _ _ (DeclaredIn.alike hr) (.inl rfl))

/-- **C126 (single-queue manager).** As for the multi-queue manager, for any memory allocator, clock and
    sorting algorithm. -/
theorem C126_single (cfg : HConfig) (env : Env) {ms ms' : List Msg}
    (hn : ∀ fs, RequestFrames ms fs → Numeric fs) (h : List.Forall₂ (Reoffered ms) ms ms')
    (hr : SameRepeats ms ms') : observed Single cfg env ms' = observed Single cfg env ms :=
  have he : LayoutQM.EnvR Single True env env := ⟨rfl, rfl, .inr ⟨trivial, rfl⟩⟩
  transcript_reoffered (Q := Single) cfg he hn h (fun _ hm => hm) (fun _ hp => hp)
    (ToldEq.init (fun h => h) _ _ (DeclaredIn.alike hr) (.inl rfl))

/-! ## Examples -/

/-- Two workers and three requests. -/
def serviceMsgs (g : String) (a b : List String) : List Msg :=
  [⟨"workers", "A", "init" :: g :: (a ++ [])⟩, ⟨"workers", "B", "init" :: "g" :: (b ++ [])⟩,
   fromC "C" ["eval", "J", "env=c", "threads=4", "", "url"],
   fromC "C" ["eval", "K", "hwgroup=g|h", "threads=2", "", "url"],
   fromC "C" ["eval", "L", "env=d", "", "url"]]

/-- Other workers with as many threads as needed. -/
def serviceMsgs' : List Msg := serviceMsgs "h" ["threads=7", "env=c", "env=x"] ["threads=2", "env=e"]

/-- The workers as they were. -/
def serviceMsgs0 : List Msg := serviceMsgs "g" ["env=c", "threads=4"] ["env=c", "threads=3"]

theorem serviceMsgs_requested {fs : List String} (h : RequestFrames serviceMsgs0 fs) :
    fs = ["env=c", "threads=4"] ∨ fs = ["hwgroup=g|h", "threads=2"] ∨ fs = ["env=d"] := by
  obtain ⟨i, j, rest, hm, rfl⟩ := h
  simp only [serviceMsgs0, serviceMsgs, fromC, List.mem_cons, List.not_mem_nil, or_false, Msg.mk.injEq,
    List.cons.injEq, true_and] at hm
  rcases hm with h | h | ⟨-, -, rfl⟩ | ⟨-, -, rfl⟩ | ⟨-, -, rfl⟩
  · exact absurd h.1 (by decide)
  · exact absurd h.1 (by decide)
  · exact .inl (by decide)
  · exact .inr (.inl (by decide))
  · exact .inr (.inr (by decide))

theorem numeric_of_stoul {l : List String} (hl : ∀ f ∈ l, frameKey f = "threads" →
    (stoul (frameValue f)).isOk = true) : Numeric l := by
  intro f hf hk
  have h := hl f hf hk
  cases hs : stoul (frameValue f) with
  | ok n => exact ⟨n, (stoul_iff _ _).1 hs⟩
  | error e => rw [hs] at h; cases h

theorem serviceMsgs_numeric : ∀ fs, RequestFrames serviceMsgs0 fs → Numeric fs := by
  intro fs h
  rcases serviceMsgs_requested h with rfl | rfl | rfl <;> exact numeric_of_stoul (by decide +kernel)

theorem serviceMsgs_reoffered : List.Forall₂ (Reoffered serviceMsgs0) serviceMsgs0 serviceMsgs' := by
  have hc (d : List String) : Reoffered serviceMsgs0 (fromC "C" d) (fromC "C" d) :=
    .other _ (by simp [fromC])
  have key {g g' : String} {hs hs' : List String} (hh : ∀ x ∈ hs, x ≠ "") (hh' : ∀ x ∈ hs', x ≠ "")
      (h : ∀ fs ∈ [["env=c", "threads=4"], ["hwgroup=g|h", "threads=2"], ["env=d"]],
        meets g hs (fs ++ [""]) ≠ none ∧ meets g hs (fs ++ [""]) = meets g' hs' (fs ++ [""]) ∧
        headerFrames (fs ++ [""]) = fs) : SameService serviceMsgs0 g hs g' hs' := by
    intro fs hr
    have hf : fs ∈ [["env=c", "threads=4"], ["hwgroup=g|h", "threads=2"], ["env=d"]] := by
      rcases serviceMsgs_requested hr with rfl | rfl | rfl <;> decide
    obtain ⟨h1, h2, h3⟩ := h fs hf
    obtain ⟨b, hb⟩ := Option.ne_none_iff_exists'.1 h1
    have hN : Numeric (headerFrames (fs ++ [""])) := by rw [h3]; exact serviceMsgs_numeric fs hr
    have e1 := meets_iff hb hN
    have e2 := meets_iff (h2.symm.trans hb) hN
    rw [h3, headerFrames_plain hh] at e1
    rw [h3, headerFrames_plain hh'] at e2
    exact e1.symm.trans e2
  refine .cons (.intro "A" (by decide) (by decide) (numeric_of_stoul (by decide +kernel))
    (numeric_of_stoul (by decide +kernel)) (key (by decide) (by decide) (by decide +kernel)) .none)
    (.cons (.intro "B" (by decide) (by decide) (numeric_of_stoul (by decide +kernel))
    (numeric_of_stoul (by decide +kernel)) (key (by decide) (by decide) (by decide +kernel)) .none)
    (.cons (hc _) (.cons (hc _) (.cons (hc _) .nil))))

theorem serviceMsgs_repeats : SameRepeats serviceMsgs0 serviceMsgs' := by
  intro i g1 g1' g2 g2' hs hs' ks ks' m1 m2
  simp only [serviceMsgs0, serviceMsgs', serviceMsgs, fromC, List.zip_cons_cons, List.zip_nil_right,
    List.mem_cons, Prod.mk.injEq, Msg.mk.injEq, List.cons.injEq, List.not_mem_nil, or_false,
    List.append_nil, true_and] at m1 m2
  have hx : ¬ ("workers" = "clients") := by decide
  have hy : ¬ ("A" = "B") := by decide
  simp only [hx, false_and, or_false] at m1 m2
  rcases m1 with ⟨⟨rfl, rfl, rfl⟩, -, -, rfl⟩ | ⟨⟨rfl, rfl, rfl⟩, -, -, rfl⟩ <;>
    rcases m2 with ⟨⟨e, rfl, rfl⟩, -, -, rfl⟩ | ⟨⟨e, rfl, rfl⟩, -, -, rfl⟩
  · exact ⟨fun _ _ => rfl, fun _ _ => rfl⟩
  · exact absurd e hy
  · exact absurd e.symm hy
  · exact ⟨fun _ _ => rfl, fun _ _ => rfl⟩

/-- What the broker sends. -/
def serviceOuts : List Msg :=
  [⟨"clients", "C", ["ack"]⟩, ⟨"workers", "A", ["eval", "J", "url"]⟩, ⟨"clients", "C", ["accept"]⟩,
   ⟨"clients", "C", ["ack"]⟩, ⟨"workers", "B", ["eval", "K", "url"]⟩, ⟨"clients", "C", ["accept"]⟩,
   ⟨"clients", "C", ["ack"]⟩, ⟨"clients", "C", ["reject", "No worker available for given headers: env=d; "]⟩,
   ⟨"monitor", "recodex-monitor", ["L", "FAILED"]⟩]

example : observed Multi cfg0 env0 serviceMsgs' = observed Multi cfg0 env0 serviceMsgs0 :=
  C126_multi cfg0 env0 serviceMsgs_numeric serviceMsgs_reoffered serviceMsgs_repeats

example : observed Single cfg0 env0 serviceMsgs' = observed Single cfg0 env0 serviceMsgs0 :=
  C126_single cfg0 env0 serviceMsgs_numeric serviceMsgs_reoffered serviceMsgs_repeats

example : (observed Multi cfg0 env0 serviceMsgs').flatMap (·.1) = serviceOuts := by decide +kernel

example : (observed Single cfg0 env0 serviceMsgs').flatMap (·.1) = serviceOuts := by decide +kernel

/-- **C126, numbers.** A request with a number of threads that is not a number can be processed by no
    worker, but it tells apart whether a worker declares threads: the broker ends or refuses it. -/
theorem C126_numeric_needed : ∃ m : Msg,
    (observed Multi cfg0 env0 [listedIntro ["threads=2"], m]).map (·.2) ≠
      (observed Multi cfg0 env0 [listedIntro ["x=1"], m]).map (·.2) ∧
    (observed Single cfg0 env0 [listedIntro ["threads=2"], m]).map (·.2) ≠
      (observed Single cfg0 env0 [listedIntro ["x=1"], m]).map (·.2) ∧
    SameService [m] "g" ["threads=2"] "g" ["x=1"] := by
  refine ⟨fromC "C" ["eval", "J", "threads=many", "", "url"], by decide +kernel, by decide +kernel, ?_⟩
  rintro fs ⟨i, j, rest, hm, rfl⟩
  simp only [fromC, List.mem_singleton, Msg.mk.injEq, List.cons.injEq, true_and] at hm
  obtain ⟨-, -, rfl⟩ := hm
  have hmany : ∀ n, ¬ IsCount "many" n := fun n h => by
    have := (stoul_iff _ _).2 h
    exact absurd this (by rw [show stoul "many" = .error .invalidArgument by decide +kernel]; simp)
  have hno : ∀ ds : List String, ¬ Capable "g" ds (headerFrames ["threads=many", "", "url"]) := by
    intro ds h
    have h := h "threads=many" (by decide) (by decide +kernel)
    rw [show frameKey "threads=many" = "threads" by decide +kernel,
      show frameValue "threads=many" = "many" by decide +kernel] at h
    rcases h with ⟨e, -⟩ | ⟨-, d, -, -, m, n, hm, -⟩ | ⟨e, -⟩
    · exact absurd e (by decide)
    · exact hmany _ hm
    · exact e rfl
  exact ⟨fun h => absurd h (hno _), fun h => absurd h (hno _)⟩

end Broker
