import Verif.Proof.Demand
import Verif.Props.Matching
import Verif.Props.Volume

/-!
# C121: requirements matter only through the workers that meet them
-/

namespace Broker

open QueueManager Spec

/-- The workers that introduce themselves in a history. -/
def admittedIn (ms : List Msg) : Admitted :=
  ⟨fun g rest => ∃ i, (⟨"workers", i, "init" :: g :: rest⟩ : Msg) ∈ ms⟩

theorem sameJudged_of {ms : List Msg} {m m' : Msg} (h : SameWishIn ms m m') :
    @SameJudged (admittedIn ms) m m' := by
  rcases h with rfl | ⟨i, j, fs, fs', rfl, rfl, h1, h2, h3, h4, h5, h6⟩
  · exact .inl rfl
  · obtain ⟨⟨hs, md, ex⟩, hx⟩ := evalHeaders_exists [] [] h1
    obtain ⟨⟨hs', md', ex'⟩, hx'⟩ := evalHeaders_exists [] [] h2
    have e : ex = ex' := by
      obtain ⟨_, a, _⟩ := evalHeaders_some _ _ _ _ hx
      obtain ⟨_, b, _⟩ := evalHeaders_some _ _ _ _ hx'
      simp only at a b
      rw [a, b, h3]
    subst e
    refine .inr ⟨i, j, hs, hs', md, md', ex, fs, fs', rfl, rfl, hx, hx', ?_⟩
    rintro w ⟨a, n, g, rest, d, ⟨i, hi⟩, hc⟩
    obtain ⟨b, hb, hi'⟩ := C27_matching hc hx h4
    obtain ⟨b', hb', hi''⟩ := C27_matching hc hx' h5
    have e : b = b' := by
      rw [Bool.eq_iff_iff, hi', hi'']
      exact h6 g _ ⟨i, rest, hi, rfl⟩
    rw [hb, hb', e]

theorem admitted_all {ms l l' : List Msg} (hl : ∀ m ∈ l, m ∈ ms)
    (h : List.Forall₂ (SameWishIn ms) l l') :
    List.Forall₂ (fun m m' => @SameJudged (admittedIn ms) m m' ∧ @FromAdmitted (admittedIn ms) m ∧
      @FromAdmitted (admittedIn ms) m') l l' := by
  induction h with
  | nil => exact .nil
  | @cons m m' l l' hm _ ih =>
    have h1 : @FromAdmitted (admittedIn ms) m := fun i g rest e => ⟨i, e ▸ hl m (by simp)⟩
    refine .cons ⟨sameJudged_of hm, h1, ?_⟩ (ih fun x hx => hl x (by simp [hx]))
    rcases hm with rfl | ⟨i, j, fs, fs', rfl, rfl, -⟩
    · exact h1
    · intro i g rest e
      have e : "clients" = "workers" := congrArg Msg.key e
      exact absurd e (by decide)

/-- **C121 (multi-queue manager), the workers of the history.** Replace, in any history, the header
    frames of requests by others that exactly the same of the workers meet that introduce themselves in
    this history.  Everybody is told the same in the same order, and the broker ends in the same way;
    only the text of a refusal lists the requirements. -/
theorem C121_multi_here (cfg : HConfig) (env : Env) {ms ms' : List Msg}
    (h : List.Forall₂ (SameWishIn ms) ms ms') :
    (observed Multi cfg env ms).map hushed = (observed Multi cfg env ms').map hushed :=
  letI := admittedIn ms
  transcript_judged (Q := Multi) trivial (admitted_all (fun _ h => h) h)
    ⟨fun _ hw => (by cases hw), JudgeQM.empty⟩ ⟨fun _ hw => (by cases hw), JudgeQM.empty⟩ rfl

/-- **C121 (single-queue manager), the workers of the history.** As for the multi-queue manager; the
    sorting algorithm is one that only looks at arrival times. -/
theorem C121_single_here (cfg : HConfig) {env : Env} (hb : env.srt.Blind) {ms ms' : List Msg}
    (h : List.Forall₂ (SameWishIn ms) ms ms') :
    (observed Single cfg env ms).map hushed = (observed Single cfg env ms').map hushed :=
  letI := admittedIn ms
  transcript_judged (Q := Single) hb (admitted_all (fun _ h => h) h)
    ⟨fun _ hw => (by cases hw), JudgeQM.empty⟩ ⟨fun _ hw => (by cases hw), JudgeQM.empty⟩ rfl

theorem sameWish_in (ms : List Msg) {m m' : Msg} (h : SameWish m m') : SameWishIn ms m m' := by
  rcases h with rfl | ⟨i, j, fs, fs', e, e', h1, h2, h3, h4, h5, h6⟩
  · exact .inl rfl
  · exact .inr ⟨i, j, fs, fs', e, e', h1, h2, h3, h4, h5, fun g ds _ => h6 g ds⟩

/-- **C121 (multi-queue manager).** Replace, in any history, the header frames of requests by others
    that exactly the same workers meet, whatever workers there are.  Everybody is told the same in the
    same order, and the broker ends in the same way; only the text of a refusal lists the
    requirements. -/
theorem C121_multi (cfg : HConfig) (env : Env) {ms ms' : List Msg}
    (h : List.Forall₂ SameWish ms ms') :
    (observed Multi cfg env ms).map hushed = (observed Multi cfg env ms').map hushed :=
  C121_multi_here cfg env (h.imp fun _ _ => sameWish_in ms)

/-- **C121 (single-queue manager).** As for the multi-queue manager; the sorting algorithm is one
    that only looks at arrival times. -/
theorem C121_single (cfg : HConfig) {env : Env} (hb : env.srt.Blind) {ms ms' : List Msg}
    (h : List.Forall₂ SameWish ms ms') :
    (observed Single cfg env ms).map hushed = (observed Single cfg env ms').map hushed :=
  C121_single_here cfg hb (h.imp fun _ _ => sameWish_in ms)

/-- **C121, what makes no difference.** The order and the repetition of header frames and metadata
    make no difference to who meets them; neither does a number of threads next to a larger one. -/
theorem C121_means (fs fs' : List String) :
    ((∀ f, isMeta f = false → (f ∈ fs ↔ f ∈ fs')) → SameMeans fs fs') ∧
    ∀ f f' a b, frameKey f = "threads" → frameKey f' = "threads" → IsCount (frameValue f) a →
      IsCount (frameValue f') b → a ≤ b → f' ∈ fs → SameMeans (f :: fs) fs := by
  refine ⟨fun h g ds => ⟨fun hc f hf hm => hc f ((h f hm).2 hf) hm,
    fun hc f hf hm => hc f ((h f hm).1 hf) hm⟩, ?_⟩
  intro f f' a b hk hk' ha hb hab hmem g ds
  refine ⟨fun hc x hx => hc x (List.mem_cons_of_mem _ hx), fun hc x hx hm => ?_⟩
  rcases List.mem_cons.1 hx with rfl | hx
  · have hm' : isMeta f' = false := by unfold isMeta; rw [hk']; decide
    have h := hc f' hmem hm'
    rw [hk'] at h
    rw [hk]
    rcases h with ⟨h, _⟩ | ⟨_, d, hd, hdk, w, o, hw, ho, hle⟩ | ⟨h, _⟩
    · exact absurd h (by decide)
    · refine .inr (.inl ⟨rfl, d, hd, hdk, a, o, ha, ho, ?_⟩)
      have e : w = b := by
        have h1 := (stoul_iff _ _).2 hw
        have h2 := (stoul_iff _ _).2 hb
        rw [h1] at h2
        exact Except.ok.inj h2
      omega
    · exact absurd rfl h
  · exact hc x hx hm

/-! ## Examples -/

/-- A small and a large worker; a job that only the large one can process, twice, and one for
    nobody; the header frames are those given. -/
def largeJobs (x y : List String) : List Msg :=
  [fromW "s" ["init", "g", "env=c", "threads=2"], fromW "l" ["init", "g", "env=c", "threads=8"],
   fromC "c" ("eval" :: "J" :: x ++ ["", "x"]), fromC "c" ("eval" :: "K" :: x ++ ["", "x"]),
   fromC "c" ("eval" :: "L" :: y ++ ["", "x"]), fromW "l" ["done", "J", "OK"],
   fromC "a" ["get-runtime-stats"]]

theorem largeJobs_same : List.Forall₂ SameWish
    (largeJobs ["env=c", "threads=4", "meta.user=u"] ["env=d", "threads=9"])
    (largeJobs ["threads=1", "threads=4", "env=c"] ["threads=9", "env=d", "env=d"]) := by
  have hn : ∀ l : List String, (∀ f ∈ l, frameKey f = "threads" →
      (stoul (frameValue f)).isOk = true) → Numeric l := by
    intro l hl f hf hk
    have h := hl f hf hk
    cases hs : stoul (frameValue f) with
    | ok n => exact ⟨n, (stoul_iff _ _).1 hs⟩
    | error e => rw [hs] at h; cases h
  have wish : ∀ (c j : String) (fs fs' : List String), "" ∈ fs → "" ∈ fs' →
      payloadFrames fs = payloadFrames fs' → Numeric (headerFrames fs) →
      Numeric (headerFrames fs') → SameMeans (headerFrames fs) (headerFrames fs') →
      SameWish (fromC c ("eval" :: j :: fs)) (fromC c ("eval" :: j :: fs')) :=
    fun c j fs fs' a b p n n' s => .inr ⟨c, j, fs, fs', rfl, rfl, a, b, p, n, n', s⟩
  have hx : SameMeans ["env=c", "threads=4", "meta.user=u"] ["threads=1", "threads=4", "env=c"] := by
    intro g ds
    refine Iff.trans ((C121_means _ ["threads=4", "env=c"]).1 ?_ g ds)
      ((C121_means ["threads=4", "env=c"] []).2 "threads=1" "threads=4" 1 4 (by decide) (by decide)
        ((stoul_iff _ _).1 (by decide +kernel)) ((stoul_iff _ _).1 (by decide +kernel)) (by decide)
        (by decide) g ds).symm
    intro f hm
    have h1 : f ≠ "meta.user=u" := by
      rintro rfl
      exact absurd hm (by decide)
    simp [h1, or_comm]
  have hy : SameMeans ["env=d", "threads=9"] ["threads=9", "env=d", "env=d"] :=
    (C121_means _ _).1 fun f _ => by simp [or_comm]
  have hr : ∀ m, SameWish m m := fun m => .inl rfl
  refine .cons (hr _) (.cons (hr _) (.cons (wish _ _ _ _ (by decide) (by decide) (by decide)
    (hn _ (by decide +kernel)) (hn _ (by decide +kernel)) hx) (.cons (wish _ _ _ _ (by decide)
    (by decide) (by decide) (hn _ (by decide +kernel)) (hn _ (by decide +kernel)) hx)
    (.cons (wish _ _ _ _ (by decide) (by decide) (by decide) (hn _ (by decide +kernel))
    (hn _ (by decide +kernel)) hy) (.cons (hr _) (.cons (hr _) .nil))))))

example : env0.srt.Blind := insSorter_blind

/-- Whether a worker meets the requirements, computed. -/
def meets (g : String) (rest fs : List String) : Option Bool :=
  match Worker.create 0 "" g (initHeaders rest []).1 "", evalHeaders fs [] [] with
  | .ok w, .ok (some x) => (w.checkHeaders x.1).toOption
  | _, _ => none

theorem meets_iff {g : String} {rest fs : List String} {b : Bool} (h : meets g rest fs = some b)
    (hn : Numeric (headerFrames fs)) : b = true ↔ Capable g (headerFrames rest) (headerFrames fs) := by
  unfold meets at h
  split at h
  · rename_i w x hc hx
    obtain ⟨b', hb, hi⟩ := C27_matching hc hx hn
    rw [hb] at h
    cases h
    exact hi
  · cases h

/-- Both workers offer `env=c`, so it need not be required; and whether four or three threads are
    required makes no difference to them. -/
theorem largeJobs_here : List.Forall₂ (SameWishIn (largeJobs ["env=c", "threads=4"] ["env=d"]))
    (largeJobs ["env=c", "threads=4"] ["env=d"]) (largeJobs ["threads=3"] ["threads=9"]) := by
  have hn : ∀ l : List String, (∀ f ∈ l, frameKey f = "threads" →
      (stoul (frameValue f)).isOk = true) → Numeric l := by
    intro l hl f hf hk
    have h := hl f hf hk
    cases hs : stoul (frameValue f) with
    | ok n => exact ⟨n, (stoul_iff _ _).1 hs⟩
    | error e => rw [hs] at h; cases h
  have key : ∀ fs fs' : List String, Numeric (headerFrames fs) → Numeric (headerFrames fs') →
      (∃ b, meets "g" ["env=c", "threads=2"] fs = some b ∧
        meets "g" ["env=c", "threads=2"] fs' = some b) →
      (∃ b, meets "g" ["env=c", "threads=8"] fs = some b ∧
        meets "g" ["env=c", "threads=8"] fs' = some b) →
      SameMeansIn (largeJobs ["env=c", "threads=4"] ["env=d"]) (headerFrames fs) (headerFrames fs') := by
    rintro fs fs' n n' ⟨b, h1, h2⟩ ⟨c, h3, h4⟩ g ds ⟨i, rest, hm, rfl⟩
    simp only [largeJobs, fromW, fromC, List.mem_cons, Msg.mk.injEq, List.cons.injEq,
      List.not_mem_nil, or_false] at hm
    have : g = "g" ∧ (rest = ["env=c", "threads=2"] ∨ rest = ["env=c", "threads=8"]) := by
      rcases hm with hm | hm | hm | hm | hm | hm | hm
      · exact ⟨hm.2.2.2.1, .inl hm.2.2.2.2⟩
      · exact ⟨hm.2.2.2.1, .inr hm.2.2.2.2⟩
      all_goals exact absurd hm (by simp)
    rcases this with ⟨rfl, rfl | rfl⟩
    · exact (meets_iff h1 n).symm.trans (meets_iff h2 n')
    · exact (meets_iff h3 n).symm.trans (meets_iff h4 n')
  have wish : ∀ (c j : String) (fs fs' : List String), "" ∈ fs → "" ∈ fs' →
      payloadFrames fs = payloadFrames fs' → Numeric (headerFrames fs) →
      Numeric (headerFrames fs') →
      SameMeansIn (largeJobs ["env=c", "threads=4"] ["env=d"]) (headerFrames fs) (headerFrames fs') →
      SameWishIn (largeJobs ["env=c", "threads=4"] ["env=d"]) (fromC c ("eval" :: j :: fs))
        (fromC c ("eval" :: j :: fs')) :=
    fun c j fs fs' a b p n n' s => .inr ⟨c, j, fs, fs', rfl, rfl, a, b, p, n, n', s⟩
  have h1 := hn (headerFrames ["env=c", "threads=4", "", "x"]) (by decide +kernel)
  have h2 := hn (headerFrames ["threads=3", "", "x"]) (by decide +kernel)
  have h3 := hn (headerFrames ["env=d", "", "x"]) (by decide +kernel)
  have h4 := hn (headerFrames ["threads=9", "", "x"]) (by decide +kernel)
  have hx := key _ _ h1 h2 ⟨false, by decide +kernel, by decide +kernel⟩
    ⟨true, by decide +kernel, by decide +kernel⟩
  have hy := key _ _ h3 h4 ⟨false, by decide +kernel, by decide +kernel⟩
    ⟨false, by decide +kernel, by decide +kernel⟩
  exact .cons (.inl rfl) (.cons (.inl rfl)
    (.cons (wish _ _ _ _ (by decide) (by decide) (by decide) h1 h2 hx)
    (.cons (wish _ _ _ _ (by decide) (by decide) (by decide) h1 h2 hx)
    (.cons (wish _ _ _ _ (by decide) (by decide) (by decide) h3 h4 hy)
    (.cons (.inl rfl) (.cons (.inl rfl) .nil))))))

/-- Two jobs are processed by the large worker, the third is refused. -/
example : ((observed Single cfg0 env0
      (largeJobs ["threads=1", "threads=4", "env=c"] ["threads=9", "env=d", "env=d"])).flatMap
        (·.1)).filter (·.key = "workers") =
    [⟨"workers", "l", ["eval", "J", "x"]⟩, ⟨"workers", "l", ["eval", "K", "x"]⟩] := by
  decide +kernel

/-- Another worker would tell these requirements apart. -/
example : ¬ SameMeans ["env=c", "threads=4"] ["threads=3"] := by
  intro h
  have hn : ∀ l : List String, (∀ f ∈ l, frameKey f = "threads" →
      (stoul (frameValue f)).isOk = true) → Numeric l := by
    intro l hl f hf hk
    have h := hl f hf hk
    cases hs : stoul (frameValue f) with
    | ok n => exact ⟨n, (stoul_iff _ _).1 hs⟩
    | error e => rw [hs] at h; cases h
  have h1 := (meets_iff (g := "g") (rest := ["threads=3"]) (fs := ["threads=3", ""]) (b := true)
    (by decide +kernel) (hn _ (by decide +kernel))).1 rfl
  have h2 := (meets_iff (g := "g") (rest := ["threads=3"]) (fs := ["env=c", "threads=4", ""])
    (b := false) (by decide +kernel) (hn _ (by decide +kernel))).2 ((h "g" ["threads=3"]).2 h1)
  cases h2

/-- **C121, the text.** The text of a refusal does tell the requirements. -/
theorem C121_text_needed : ∃ ms ms' : List Msg, List.Forall₂ SameWish ms ms' ∧
    observed Multi cfg0 env0 ms ≠ observed Multi cfg0 env0 ms' ∧
    observed Single cfg0 env0 ms ≠ observed Single cfg0 env0 ms' :=
  ⟨_, _, largeJobs_same, by decide +kernel, by decide +kernel⟩

/-- **C121, numbers.** With a malformed number of threads requirements that no worker meets are not
    all the same: the broker refuses the one request and ends with the other. -/
theorem C121_numeric_needed : ∃ fs fs' : List String, SameMeans fs fs' ∧
    (observed Multi cfg0 env0 (largeJobs fs fs)).map hushed ≠
      (observed Multi cfg0 env0 (largeJobs fs' fs')).map hushed :=
  ⟨["threads=9", "threads=abc"], ["threads=abc", "threads=9"],
    (C121_means _ _).1 fun f _ => by simp [or_comm], by decide +kernel⟩

end Broker
