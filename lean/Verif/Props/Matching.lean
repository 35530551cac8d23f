import Verif.Proof.Erase
import Verif.Props.Queues
import Verif.Props.Robustness
import Mathlib.Data.List.Forall2

/-!
# C24-C27: headers, metadata and matching
-/

set_option linter.unusedSectionVars false

namespace Broker

open LawfulQM

variable {Q : Type} [QueueManager Q] [LawfulQM Q]

namespace Spec

/-- The usual way to write a header: name, `=`, value. -/
def encode (h : String × String) : String := h.1 ++ "=" ++ h.2

/-- Values requested under a name by the header frames of an `eval` message, in order. -/
def wanted (k : String) (fs : List String) : List String :=
  ((headerFrames fs).filter (fun f => !isMeta f && frameKey f == k)).map frameValue

/-- Value of the metadata item `x` in the header frames of an `eval` message: the first one. -/
def metaItem (x : String) (fs : List String) : Option String :=
  (((headerFrames fs).filter (fun f => frameKey f == "meta." ++ x)).map frameValue).head?

/-- The messages are equal, or both are `eval` messages of the same client about the same job with
    the same payload and, name by name, the same requirements; metadata may differ. -/
def SameButMeta (m m' : Msg) : Prop :=
  m = m' ∨ ∃ i j fs fs', m = ⟨"clients", i, "eval" :: j :: fs⟩ ∧
    m' = ⟨"clients", i, "eval" :: j :: fs'⟩ ∧ "" ∈ fs ∧ "" ∈ fs' ∧
    payloadFrames fs = payloadFrames fs' ∧ ∀ k, wanted k fs = wanted k fs'

end Spec

/-! ## C24 -/

theorem evalHeaders_wanted {fs : List String} {x : Headers × Metadata × List String}
    (h : evalHeaders fs [] [] = .ok (some x)) :
    (∀ k, mmRange k x.1 = Spec.wanted k fs) ∧
    (∀ k, mmRange k x.2.1 = (Spec.metaItem k fs).toList) ∧ x.1.Sorted := by
  obtain ⟨h1, h2, h3, h4⟩ := evalHeaders_ranges fs [] [] x List.Pairwise.nil List.Pairwise.nil h
  refine ⟨fun k => by rw [h3 k]; rfl, fun k => ?_, h1⟩
  rw [h4 k]
  simp only [mmRange, List.filter_nil, List.map_nil, List.nil_append, Spec.metaItem]
  cases ((Spec.headerFrames fs).filter (fun f => Spec.frameKey f == "meta." ++ k)).map
    Spec.frameValue <;> simp

/-- **C24, requests.** A job the broker holds carries, name by name and in order, exactly the
    requirements of the client's header frames outside the `meta.` names, and as metadata exactly
    the first value of each `meta.` name. -/
theorem C24_request_headers {cfg : HConfig} {env : Env} {h : List (Tr Q)} {s : HState Q}
    (hr : Run cfg env h s) {r : Req}
    (hh : r ∈ que s.queue ∨ ∃ w, (w, r) ∈ busy s.queue) (hc : r.complete = true) :
    ∃ c ∈ h, ∃ fs, JobOrigin c r.jobId fs ∧
      r.frames = "eval" :: r.jobId :: Spec.payloadFrames fs ∧
      (∀ k, mmRange k r.headers = Spec.wanted k fs) ∧
      (∀ k, mmRange k r.metadata = (Spec.metaItem k fs).toList) := by
  have hh' : r ∈ (ls s 0).held := by
    rw [LS.mem_held]
    rcases hh with hh | ⟨w, hw⟩
    · exact .inr (.inl hh)
    · exact .inl ⟨w, hw⟩
  obtain ⟨c, hch, fs, hs, md, extra, hcf⟩ := hr.prov.1 r hh' hc
  obtain ⟨e1, e2, e3⟩ := evalHeaders_some _ _ _ _ hcf.parse
  obtain ⟨w1, w2, _⟩ := evalHeaders_wanted hcf.parse
  refine ⟨c, hch, fs, ⟨hcf.key, hcf.data, e1, hcf.accepted⟩, ?_, ?_, ?_⟩
  · rw [hcf.eq]
    simp only [Req.full] at e2 ⊢
    rw [e2]
  · intro k; rw [hcf.eq]; exact w1 k
  · intro k; rw [hcf.eq]; exact w2 k

/-- **C24, workers.** A registered worker carries, name by name and in order, the values its `init`
    message declared. -/
theorem C24_worker_headers {cfg : HConfig} {env : Env} {h : List (Tr Q)} {s : HState Q}
    (hr : Run cfg env h s) {w : Worker} (hw : w ∈ s.workers) :
    ∃ i ∈ h, ∃ ds, WorkerOrigin i w ds ∧ ∀ k, mmRange k w.headers = Spec.declared k ds := by
  obtain ⟨i, hi, ds, hf⟩ := hr.prov.2 w (hr.inv.1.mem_reg.1 hw)
  refine ⟨i, hi, ds, ⟨hf.key, hf.identity, hf.data,
    fun hm => hf.fresh (List.mem_map.2 ⟨w, hm, rfl⟩), by rw [hf.new]; simp⟩, fun k => ?_⟩
  have hc := hf.created
  have he : w.headers = (initHeaders ds []).1 := by
    simp only [Worker.create, Except.bind_eq_ok] at hc
    obtain ⟨ms, _, h2⟩ := hc
    simp only [Except.pure_eq_ok, Except.ok.injEq] at h2
    rw [← h2]
  rw [he, mmRange_initHeaders k ds [] List.Pairwise.nil]
  rfl

/-- **C24, frames.** A frame written as name, `=`, value is split into name and value, whatever
    the value contains; a frame without `=` is both name and value. -/
theorem C24_frame (k v : String) (hk : '=' ∉ k.toList) :
    splitHeader (Spec.encode (k, v)) = (k, v) ∧ splitHeader k = (k, k) := by
  constructor
  · rw [splitHeader_eq]
    simp only [Spec.encode, frameKey_encode hk, frameValue_encode hk]
  · rw [splitHeader_eq]
    have h1 : ∀ l : List Char, '=' ∉ l → l.takeWhile (· != '=') = l := by
      intro l
      induction l with
      | nil => intro _; rfl
      | cons c t ih =>
        intro h
        simp only [List.mem_cons, not_or] at h
        have hc : (c != '=') = true := by simpa using Ne.symm h.1
        simp [hc, ih h.2]
    simp only [Spec.frameKey, Spec.frameValue, if_neg hk, h1 _ hk, String.ofList_toList]

theorem encode_ne (e : String × String) : Spec.encode e ≠ "" := by
  intro h
  have := congrArg String.toList h
  simp [Spec.encode, String.toList_append] at this

theorem headerFrames_encode (items : List (String × String)) (payload : List String) :
    Spec.headerFrames (items.map Spec.encode ++ "" :: payload) = items.map Spec.encode ∧
    Spec.payloadFrames (items.map Spec.encode ++ "" :: payload) = payload := by
  induction items with
  | nil => simp [Spec.headerFrames, Spec.payloadFrames]
  | cons a t ih =>
    have hb : (Spec.encode a != "") = true := by simpa using encode_ne a
    simp only [List.map_cons, List.cons_append, Spec.headerFrames, Spec.payloadFrames,
      List.takeWhile_cons, List.dropWhile_cons, hb, if_true] at ih ⊢
    exact ⟨by rw [ih.1], ih.2⟩

/-- **C24, parsing inverts the encoding.** From header items written as name, `=`, value (names
    without `=`), an empty frame and the payload, the broker recovers under each name exactly the
    values given for it in order, as metadata the first value of each `meta.` name, and the
    payload. -/
theorem C24_roundtrip (items : List (String × String)) (payload : List String)
    (hk : ∀ e ∈ items, '=' ∉ e.1.toList) :
    ∃ hs md, evalHeaders (items.map Spec.encode ++ "" :: payload) [] []
        = .ok (some (hs, md, payload)) ∧
      (∀ k, mmRange k hs = (items.filter (fun e => e.1 == k && !("meta.".toList.isPrefixOf
        e.1.toList))).map (·.2)) ∧
      (∀ k, mmRange k md = ((items.filter (fun e => e.1 == "meta." ++ k)).map (·.2)).take 1) := by
  obtain ⟨h1, h2⟩ := headerFrames_encode items payload
  obtain ⟨⟨hs, md, ex⟩, hx⟩ := evalHeaders_exists (l := items.map Spec.encode ++ "" :: payload)
    [] [] (by simp)
  obtain ⟨e1, e2, e3⟩ := evalHeaders_some _ _ _ _ hx
  obtain ⟨w1, w2, _⟩ := evalHeaders_wanted hx
  simp only at e2 w1 w2
  rw [h2] at e2
  subst e2
  refine ⟨hs, md, hx, fun k => ?_, fun k => ?_⟩
  · rw [w1 k]
    unfold Spec.wanted
    rw [h1, List.filter_map, List.map_map]
    have hf : items.filter ((fun f => !Spec.isMeta f && Spec.frameKey f == k) ∘ Spec.encode)
        = items.filter (fun e => e.1 == k && !("meta.".toList.isPrefixOf e.1.toList)) := by
      refine List.filter_congr fun e he => ?_
      simp only [Function.comp, Spec.isMeta, Spec.encode, frameKey_encode (hk e he)]
      have : (List.take 5 e.1.toList == ['m', 'e', 't', 'a', '.'])
          = "meta.".toList.isPrefixOf e.1.toList := by
        rw [Bool.eq_iff_iff, List.isPrefixOf_iff_prefix, beq_iff_eq]
        constructor
        · intro h; exact ⟨e.1.toList.drop 5, by
            have := List.take_append_drop 5 e.1.toList
            rw [h] at this; exact this⟩
        · rintro ⟨t, ht⟩
          rw [← ht]; rfl
      rw [this, Bool.and_comm]
    rw [hf]
    refine List.map_congr_left fun e he => ?_
    simp only [Function.comp, Spec.encode, frameValue_encode (hk e (List.mem_filter.1 he).1)]
  · rw [w2 k]
    unfold Spec.metaItem
    rw [h1, List.filter_map, List.map_map]
    have hf : items.filter ((fun f => Spec.frameKey f == "meta." ++ k) ∘ Spec.encode)
        = items.filter (fun e => e.1 == "meta." ++ k) := by
      refine List.filter_congr fun e he => ?_
      simp only [Function.comp, Spec.encode, frameKey_encode (hk e he)]
    rw [hf]
    have hm : (items.filter (fun e => e.1 == "meta." ++ k)).map (Spec.frameValue ∘ Spec.encode)
        = (items.filter (fun e => e.1 == "meta." ++ k)).map (·.2) := by
      refine List.map_congr_left fun e he => ?_
      simp only [Function.comp, Spec.encode, frameValue_encode (hk e (List.mem_filter.1 he).1)]
    rw [hm]
    cases (items.filter (fun e => e.1 == "meta." ++ k)).map (·.2) <;> simp

theorem sameMsg_of {m m' : Msg} (h : Spec.SameButMeta m m') : SameMsg m m' := by
  rcases h with rfl | ⟨i, j, fs, fs', rfl, rfl, h1, h2, h3, h4⟩
  · exact .inl rfl
  · obtain ⟨⟨hs, md, ex⟩, hx⟩ := evalHeaders_exists [] [] h1
    obtain ⟨⟨hs', md', ex'⟩, hx'⟩ := evalHeaders_exists [] [] h2
    obtain ⟨w1, _, w2⟩ := evalHeaders_wanted hx
    obtain ⟨w1', _, w2'⟩ := evalHeaders_wanted hx'
    have e1 : hs = hs' := by
      refine mmap_ext w2 w2' fun k => ?_
      rw [w1 k, w1' k, h4 k]
    have e2 : ex = ex' := by
      obtain ⟨_, a, _⟩ := evalHeaders_some _ _ _ _ hx
      obtain ⟨_, b, _⟩ := evalHeaders_some _ _ _ _ hx'
      simp only at a b
      rw [a, b, h3]
    subst e1; subst e2
    exact .inr ⟨i, j, hs, md, md', ex, fs, fs', rfl, rfl, hx, hx'⟩

theorem forall2_snoc {α β : Type} {R : α → β → Prop} : ∀ {l : List α} {a : α} {l' : List β},
    List.Forall₂ R (l ++ [a]) l' → ∃ l1 b, l' = l1 ++ [b] ∧ List.Forall₂ R l l1 ∧ R a b := by
  intro l
  induction l with
  | nil =>
    intro a l' h
    cases h with
    | cons h1 h2 => cases h2; exact ⟨[], _, rfl, .nil, h1⟩
  | cons x t ih =>
    intro a l' h
    cases h with
    | cons h1 h2 =>
      obtain ⟨l1, b, rfl, h3, h4⟩ := ih h2
      exact ⟨_ :: l1, b, rfl, .cons h1 h3, h4⟩

theorem metadata_inert [BareQM Q] {cfg : HConfig} {env : Env} (he : BareQM.okSort Q env.srt)
    {h : List (Tr Q)} {s : HState Q} (hr : Run cfg env h s) : ∀ {ms' : List Msg},
    List.Forall₂ Spec.SameButMeta (h.map (·.msg)) ms' →
    ∃ h' s', Run cfg env h' s' ∧ h'.map (·.msg) = ms' ∧ h'.map Tr.outs = h.map Tr.outs ∧
      s.ren Spec.Renaming.id = s'.ren Spec.Renaming.id := by
  induction hr with
  | nil =>
    intro ms' hf
    cases hf
    exact ⟨[], _, .nil, rfl, rfl, rfl⟩
  | @snoc h s m s' hr hs ih =>
    intro ms' hf
    rw [List.map_append, List.map_cons, List.map_nil] at hf
    obtain ⟨ms1, m', rfl, f1, f2⟩ := forall2_snoc hf
    obtain ⟨h', t, hr', e1, e2, e3⟩ := ih f1
    have hst := step_same (cfg := cfg) he (sameMsg_of f2) e3
    rw [hs] at hst
    cases ht : step cfg env m' t with
    | error e u => rw [ht] at hst; simp [renRes] at hst
    | ok u t' =>
      rw [ht] at hst
      simp only [renRes, EStateM.Result.ok.injEq, true_and] at hst
      refine ⟨_, t', hr'.snoc ht, by simp [e1], ?_, hst⟩
      have h3 : (s'.ren Spec.Renaming.id).outs = (t'.ren Spec.Renaming.id).outs := by rw [hst]
      have h4 : ∀ l : List Msg, l.map Spec.Renaming.id.out = l := fun l => by
        rw [List.map_congr_left (fun m _ => out_id m), List.map_id']
      have : s'.outs = t'.outs := by
        rw [← h4 s'.outs, ← h4 t'.outs]; exact h3
      simp [e2, Tr.outs, this]

theorem metadata_inert_error [BareQM Q] {cfg : HConfig} {env : Env}
    (he : BareQM.okSort Q env.srt) {s s' : HState Q} (hb : s.ren Spec.Renaming.id = s'.ren Spec.Renaming.id) {m m' : Msg}
    (hm : Spec.SameButMeta m m') (e : Err) :
    (∃ u, step cfg env m s = .error e u) ↔ ∃ u, step cfg env m' s' = .error e u := by
  have hst := step_same (cfg := cfg) he (sameMsg_of hm) hb
  cases h1 : step cfg env m s with
  | ok a u =>
    cases h2 : step cfg env m' s' with
    | ok a u => simp
    | error e u => rw [h1, h2] at hst; simp [renRes] at hst
  | error e1 u =>
    cases h2 : step cfg env m' s' with
    | ok a u => rw [h1, h2] at hst; simp [renRes] at hst
    | error e2 u' =>
      rw [h1, h2] at hst
      simp only [renRes, EStateM.Result.error.injEq] at hst
      simp [hst.1]

/-- **C24, metadata has no effect (multi-queue manager).** For every history there is one with the
    metadata of the `eval` messages changed, added or removed at will, in which each message has
    the same answers; and the next message ends the broker in the one exactly if in the other. -/
theorem C24_metadata_inert_multi {cfg : HConfig} {env : Env} {h : List (Tr Multi)}
    {s : HState Multi} (hr : Run cfg env h s) {ms' : List Msg}
    (hf : List.Forall₂ Spec.SameButMeta (h.map (·.msg)) ms') :
    ∃ (h' : List (Tr Multi)) (s' : HState Multi), Run cfg env h' s' ∧
      h'.map (·.msg) = ms' ∧ h'.map Tr.outs = h.map Tr.outs ∧
      ∀ m m', Spec.SameButMeta m m' → ∀ e : Err,
        (∃ u, step cfg env m s = .error e u) ↔ ∃ u, step cfg env m' s' = .error e u := by
  obtain ⟨h', s', h1, h2, h3, h4⟩ := metadata_inert (Q := Multi) trivial hr hf
  exact ⟨h', s', h1, h2, h3, fun m m' hm e => metadata_inert_error (Q := Multi) trivial h4 hm e⟩

/-- **C24, metadata has no effect (single-queue manager).** As for the multi-queue manager; the
    sorting algorithm is one that only looks at arrival times. -/
theorem C24_metadata_inert_single {cfg : HConfig} {env : Env} (hb : env.srt.Blind)
    {h : List (Tr Single)} {s : HState Single} (hr : Run cfg env h s) {ms' : List Msg}
    (hf : List.Forall₂ Spec.SameButMeta (h.map (·.msg)) ms') :
    ∃ (h' : List (Tr Single)) (s' : HState Single), Run cfg env h' s' ∧
      h'.map (·.msg) = ms' ∧ h'.map Tr.outs = h.map Tr.outs ∧
      ∀ m m', Spec.SameButMeta m m' → ∀ e : Err,
        (∃ u, step cfg env m s = .error e u) ↔ ∃ u, step cfg env m' s' = .error e u := by
  obtain ⟨h', s', h1, h2, h3, h4⟩ := metadata_inert (Q := Single) hb hr hf
  exact ⟨h', s', h1, h2, h3, fun m m' hm e => metadata_inert_error (Q := Single) hb h4 hm e⟩

/-- Insertion sort by arrival time does not look at the requests. -/
theorem insSorter_blind : insSorter.Blind := by
  intro g
  have h1 : ∀ (e : Entry) (l : List Entry),
      insEntry (g e.1, e.2) (l.map (fun e => (g e.1, e.2)))
        = (insEntry e l).map (fun e => (g e.1, e.2)) := by
    intro e l
    induction l with
    | nil => rfl
    | cons x t ih =>
      simp only [List.map_cons, insEntry, ih]
      split <;> rfl
  intro l
  show insSort (l.map (fun e => (g e.1, e.2))) = (insSort l).map (fun e => (g e.1, e.2))
  induction l with
  | nil => rfl
  | cons x t ih => simp only [List.map_cons, insSort, ih]; exact h1 x _

/-- Metadata that differs: two requests that are the same to the broker. -/
example : Spec.SameButMeta
    (fromC "C" ["eval", "J", "env=c", "meta.user=a", "threads=2", "", "url"])
    (fromC "C" ["eval", "J", "meta.x=1", "threads=2", "env=c", "", "url"]) := by
  refine .inr ⟨"C", "J", _, _, rfl, rfl, by decide, by decide, by decide +kernel, ?_⟩
  intro k
  have h1 : Spec.headerFrames ["env=c", "meta.user=a", "threads=2", "", "url"]
      = ["env=c", "meta.user=a", "threads=2"] := by decide +kernel
  have h2 : Spec.headerFrames ["meta.x=1", "threads=2", "env=c", "", "url"]
      = ["meta.x=1", "threads=2", "env=c"] := by decide +kernel
  have f1 : Spec.isMeta "env=c" = false ∧ Spec.isMeta "threads=2" = false ∧
      Spec.isMeta "meta.user=a" = true ∧ Spec.isMeta "meta.x=1" = true ∧
      Spec.frameKey "env=c" = "env" ∧ Spec.frameKey "threads=2" = "threads" := by decide +kernel
  obtain ⟨a, b, c, d, e, f⟩ := f1
  simp only [Spec.wanted, h1, h2, List.filter_cons, a, b, c, d, e, f]
  by_cases ha : "env" = k
  · subst ha; decide +kernel
  · by_cases hb : "threads" = k
    · subst hb; decide +kernel
    · simp [ha, hb]

/-- A waiting job with two values of one header, metadata given twice and a value containing `=`. -/
example : ∃ h s, Run (Q := Single) cfg0 env0 h s ∧ (s.queue.jobs.map (fun e =>
    (mmRange "env" e.1.headers, mmRange "opt" e.1.headers, mmRange "user" e.1.metadata))
      == [(["c", "py"], ["a=b"], ["x"])]) = true :=
  exists_run [fromW "W" ["init", "g", "env=c", "env=py", "opt=a=b"],
    fromC "C" ["eval", "J1", ""],
    fromC "C" ["eval", "J2", "env=c", "meta.user=x", "opt=a=b", "meta.user=y", "env=py", "", "p"]]
    _ (by decide +kernel)

/-! ## C25 -/

/-- **C25.** A worker whose `init` message declared no header called `hwgroup` satisfies a requested
    `hwgroup` exactly if its hardware group is one of the alternatives; the test never fails. -/
theorem C25_hwgroup {a : Nat} {i g d : String} {rest : List String} {w : Worker}
    (h : Worker.create a i g (initHeaders rest []).1 d = .ok w)
    (hn : ∀ f ∈ Spec.headerFrames rest, Spec.frameKey f ≠ "hwgroup") (v : String) :
    ∃ b, w.checkHeader "hwgroup" v = .ok b ∧ (b = true ↔ Spec.IsAlternative g v) := by
  obtain ⟨b, hb⟩ := checkHeader_total w "hwgroup" v (fun h => absurd h (by decide))
    (Worker.create_wf h)
  refine ⟨b, hb, ?_⟩
  have h1 := checkHeader_iff h "hwgroup" v
  rw [hb] at h1
  simp only [Except.ok.injEq] at h1
  rw [h1]
  unfold Spec.Satisfies
  constructor
  · rintro (⟨_, h⟩ | ⟨h, _⟩ | ⟨_, f, hf, hk, _⟩)
    · exact h
    · exact absurd h (by decide)
    · exact absurd hk (hn f hf)
  · intro h; exact .inl ⟨rfl, h⟩

/-- **C25, the alternatives.** In a list of names without `|` joined by `|`, the alternatives are
    the names, except that an empty last one does not count. -/
theorem C25_alternatives (g : String) (alts : List String) (ha : ∀ x ∈ alts, '|' ∉ x.toList) :
    Spec.IsAlternative g ("|".intercalate alts) ↔
      g ∈ if alts.getLast? = some "" then alts.dropLast else alts := by
  rw [← multiMatch_iff]
  exact multiMatch_join g alts ha

/-- **C25, acceptance.** A request whose only requirement is `hwgroup=v` is accepted exactly if the
    broker is not frozen and some registered worker's hardware group is one of the alternatives (or
    the worker declared a header `hwgroup` with the value `v` itself). -/
theorem C25_acceptance {cfg : HConfig} {env : Env} {h : List (Tr Q)} {s s' : HState Q} {m : Msg}
    (hr : Run cfg env h s) (hk : m.key = "clients") {j v : String} {p : List String}
    (hd : m.data = "eval" :: j :: Spec.encode ("hwgroup", v) :: "" :: p)
    (hs : step cfg env m s = .ok () s') :
    Spec.accepts j (⟨s, m, s'⟩ : Tr Q) = true ↔
      Spec.frozenAfter (h.map (·.msg)) = false ∧
      ∃ i ∈ h, ∃ w ds, WorkerOrigin i w ds ∧ w ∈ s.workers ∧
        (Spec.IsAlternative w.hwgroup v ∨ v ∈ Spec.declared "hwgroup" ds) := by
  rw [C08_acceptance hr hk hd (by simp) hs]
  obtain ⟨e1, _⟩ := headerFrames_encode [("hwgroup", v)] p
  simp only [List.map_cons, List.map_nil, List.cons_append, List.nil_append] at e1
  rw [e1]
  have hkey : '=' ∉ "hwgroup".toList := by decide
  have hcap : ∀ (w : Worker) (ds : List String),
      Spec.Capable w.hwgroup (Spec.headerFrames ds) [Spec.encode ("hwgroup", v)] ↔
        (Spec.IsAlternative w.hwgroup v ∨ v ∈ Spec.declared "hwgroup" ds) := by
    intro w ds
    have hm : Spec.isMeta (Spec.encode ("hwgroup", v)) = false := by
      simp only [Spec.isMeta, Spec.encode, frameKey_encode hkey]; decide
    simp only [Spec.Capable, List.mem_singleton, forall_eq, hm, forall_const]
    simp only [Spec.encode, frameKey_encode hkey, frameValue_encode hkey, Spec.Satisfies,
      Spec.declared, List.mem_map, List.mem_filter, beq_iff_eq]
    constructor
    · rintro (⟨_, h⟩ | ⟨h, _⟩ | ⟨_, f, h1, h2, h3⟩)
      · exact .inl h
      · exact absurd h (by decide)
      · exact .inr ⟨f, ⟨h1, h2⟩, h3⟩
    · rintro (h | ⟨f, ⟨h1, h2⟩, h3⟩)
      · exact .inl ⟨trivial, h⟩
      · exact .inr (.inr ⟨by decide, f, h1, h2, h3⟩)
  simp only [hcap]

/-- A worker of group `b` takes a job for `a|b`, but not one for `a|c|`. -/
example : ∃ h s, Run (Q := Single) cfg0 env0 h s ∧
    (emitted h == [⟨"clients", "C", ["ack"]⟩, ⟨"workers", "W", ["eval", "J1"]⟩,
      ⟨"clients", "C", ["accept"]⟩, ⟨"clients", "C", ["ack"]⟩,
      ⟨"clients", "C", ["reject", "No worker available for given headers: hwgroup=a|c|; "]⟩,
      ⟨"monitor", "recodex-monitor", ["J2", "FAILED"]⟩]) = true :=
  exists_run [fromW "W" ["init", "b"], fromC "C" ["eval", "J1", "hwgroup=a|b", ""],
    fromC "C" ["eval", "J2", "hwgroup=a|c|", ""]] _ (by decide +kernel)

/-! ## C26 -/

/-- **C26.** A worker that declared `n` threads (once) satisfies a request for `m` threads exactly
    if `m ≤ n`, for all numbers below 2^64. -/
theorem C26_threads {a : Nat} {i g d : String} {rest : List String} {w : Worker} {n m : Nat}
    (h : Worker.create a i g (initHeaders rest []).1 d = .ok w)
    (hn : n < 2 ^ 64) (hm : m < 2 ^ 64) (hd : Spec.declared "threads" rest = [natStr n]) :
    w.checkHeader "threads" (natStr m) = .ok (decide (m ≤ n)) := by
  obtain ⟨b, hb⟩ := checkHeader_total w "threads" (natStr m) (fun _ => ⟨m, isCount_natStr hm⟩)
    (Worker.create_wf h)
  rw [hb]
  congr 1
  have h1 := checkHeader_iff h "threads" (natStr m)
  rw [hb] at h1
  simp only [Except.ok.injEq] at h1
  rw [Bool.eq_iff_iff, h1, decide_eq_true_eq]
  unfold Spec.Satisfies
  have hf : ∀ f, (f ∈ Spec.headerFrames rest ∧ Spec.frameKey f = "threads") →
      Spec.frameValue f = natStr n := by
    rintro f ⟨h1, h2⟩
    have : Spec.frameValue f ∈ Spec.declared "threads" rest :=
      List.mem_map.2 ⟨f, List.mem_filter.2 ⟨h1, by simpa using h2⟩, rfl⟩
    rw [hd] at this
    simpa using this
  have hex : ∃ f, f ∈ Spec.headerFrames rest ∧ Spec.frameKey f = "threads" := by
    have : natStr n ∈ Spec.declared "threads" rest := by rw [hd]; simp
    obtain ⟨f, h1, _⟩ := List.mem_map.1 this
    obtain ⟨h2, h3⟩ := List.mem_filter.1 h1
    exact ⟨f, h2, by simpa using h3⟩
  constructor
  · rintro (⟨h, _⟩ | ⟨_, f, h1, h2, m', n', h3, h4, h5⟩ | ⟨h, _⟩)
    · exact absurd h (by decide)
    · rw [hf f ⟨h1, h2⟩] at h4
      rw [IsCount_unique (isCount_natStr hm) h3, IsCount_unique (isCount_natStr hn) h4]
      exact h5
    · exact absurd rfl h
  · intro hle
    obtain ⟨f, h1, h2⟩ := hex
    exact .inr (.inl ⟨rfl, f, h1, h2, m, n, isCount_natStr hm, by
      rw [hf f ⟨h1, h2⟩]; exact isCount_natStr hn, hle⟩)

/-- **C26, acceptance.** A request whose only requirement is `threads=m` is accepted exactly if the
    broker is not frozen and some registered worker declared at least `m` threads. -/
theorem C26_acceptance {cfg : HConfig} {env : Env} {h : List (Tr Q)} {s s' : HState Q} {m : Msg}
    (hr : Run cfg env h s) (hk : m.key = "clients") {j : String} {k : Nat} (hlt : k < 2 ^ 64)
    {p : List String} (hd : m.data = "eval" :: j :: Spec.encode ("threads", natStr k) :: "" :: p)
    (hs : step cfg env m s = .ok () s') :
    Spec.accepts j (⟨s, m, s'⟩ : Tr Q) = true ↔
      Spec.frozenAfter (h.map (·.msg)) = false ∧
      ∃ i ∈ h, ∃ w ds, WorkerOrigin i w ds ∧ w ∈ s.workers ∧
        ∃ v ∈ Spec.declared "threads" ds, ∃ n, Spec.IsCount v n ∧ k ≤ n := by
  rw [C08_acceptance hr hk hd (by simp) hs]
  obtain ⟨e1, _⟩ := headerFrames_encode [("threads", natStr k)] p
  simp only [List.map_cons, List.map_nil, List.cons_append, List.nil_append] at e1
  rw [e1]
  have hkey : '=' ∉ "threads".toList := by decide
  have hcap : ∀ (w : Worker) (ds : List String),
      Spec.Capable w.hwgroup (Spec.headerFrames ds) [Spec.encode ("threads", natStr k)] ↔
        ∃ v ∈ Spec.declared "threads" ds, ∃ n, Spec.IsCount v n ∧ k ≤ n := by
    intro w ds
    have hm : Spec.isMeta (Spec.encode ("threads", natStr k)) = false := by
      simp only [Spec.isMeta, Spec.encode, frameKey_encode hkey]; decide
    simp only [Spec.Capable, List.mem_singleton, forall_eq, hm, forall_const]
    simp only [Spec.encode, frameKey_encode hkey, frameValue_encode hkey, Spec.Satisfies,
      Spec.declared, List.mem_map, List.mem_filter, beq_iff_eq]
    constructor
    · rintro (⟨h, _⟩ | ⟨_, f, h1, h2, m', n', h3, h4, h5⟩ | ⟨h, _⟩)
      · exact absurd h (by decide)
      · refine ⟨_, ⟨f, ⟨h1, h2⟩, rfl⟩, n', h4, ?_⟩
        rw [IsCount_unique (isCount_natStr hlt) h3]; exact h5
      · exact absurd rfl h
    · rintro ⟨v, ⟨f, ⟨h1, h2⟩, rfl⟩, n, h3, h4⟩
      exact .inr (.inl ⟨trivial, f, h1, h2, k, n, isCount_natStr hlt, h3, h4⟩)
  simp only [hcap]

/-- **C26, what is not a number raises.** A worker cannot be created with such a declaration, and
    no worker that declares threads can be tested against such a request. -/
theorem C26_unparsable {v : String} (hv : ¬ ∃ n, Spec.IsCount v n) :
    (∀ a i g d rest, v ∈ Spec.declared "threads" rest →
      ∃ e, Worker.create a i g (initHeaders rest []).1 d = .error e) ∧
    (∀ a i g d rest w, Worker.create a i g (initHeaders rest []).1 d = .ok w →
      Spec.declared "threads" rest ≠ [] → ∃ e, w.checkHeader "threads" v = .error e) := by
  constructor
  · intro a i g d rest hm
    cases hc : Worker.create a i g (initHeaders rest []).1 d with
    | error e => exact ⟨e, rfl⟩
    | ok w =>
      exfalso
      apply hv
      obtain ⟨f, h1, rfl⟩ := List.mem_map.1 hm
      obtain ⟨h2, h3⟩ := List.mem_filter.1 h1
      exact create_numeric hc f h2 (by simpa using h3)
  · intro a i g d rest w hc hne
    have hstoul : ∃ e, stoul v = .error e := by
      cases hs : stoul v with
      | error e => exact ⟨e, rfl⟩
      | ok n => exact absurd ⟨n, (stoul_iff v n).1 hs⟩ hv
    obtain ⟨e, he⟩ := hstoul
    have hwf := Worker.create_wf hc
    have hex : ∃ m, m ∈ mmRange "threads" w.matchers := by
      simp only [Worker.create, Except.bind_eq_ok] at hc
      obtain ⟨ms, h1, h2⟩ := hc
      simp only [Except.pure_eq_ok, Except.ok.injEq] at h2
      subst h2
      obtain ⟨x, hx⟩ := List.exists_mem_of_ne_nil _ hne
      obtain ⟨f, h3, rfl⟩ := List.mem_map.1 hx
      obtain ⟨h4, h5⟩ := List.mem_filter.1 h3
      have h5' : Spec.frameKey f = "threads" := by simpa using h5
      obtain ⟨n, hn⟩ := create_numeric (fs := rest) (a := a) (i := i) (g := g) (d := d)
        (by simp only [Worker.create, h1]; rfl) f h4 h5'
      refine ⟨.count n, mem_mmRange.2 ?_⟩
      rw [mem_addMatchers h1]
      refine .inr ⟨Spec.frameValue f, (mem_initHeaders _ _ _).2 (.inr ⟨f, h4, ?_⟩),
        .inl ⟨rfl, n, (stoul_iff _ _).2 hn, rfl⟩⟩
      rw [h5']
    refine ⟨e, ?_⟩
    unfold Worker.checkHeader
    have hm : ∀ m ∈ mmRange "threads" w.matchers, ∃ n, m = .count n :=
      fun m h => (hwf ("threads", m) (mem_mmRange.1 h)).1 rfl
    cases hl : mmRange "threads" w.matchers with
    | nil => rw [hl] at hex; obtain ⟨m, hm⟩ := hex; cases hm
    | cons x t =>
      obtain ⟨n, rfl⟩ := hm x (by rw [hl]; simp)
      simp [anyMatch, Matcher.run, he]

/-- **C26, what is not a number ends the broker.** An `init` message with such a declaration. -/
theorem C26_unparsable_init {cfg : HConfig} {env : Env} {h : List (Tr Q)} {s : HState Q}
    (hr : Run cfg env h s) {m : Msg} (hk : m.key = "workers") {g v : String} {fs : List String}
    (hd : m.data = "init" :: g :: fs) (hv : v ∈ Spec.declared "threads" fs)
    (hn : ¬ ∃ n, Spec.IsCount v n) :
    ∃ x s', step cfg env m s = .error (.exn x) s' := by
  refine C20_init_threads_crashes hr hk hd fun hnum => hn ?_
  obtain ⟨f, h1, rfl⟩ := List.mem_map.1 hv
  obtain ⟨h2, h3⟩ := List.mem_filter.1 h1
  exact hnum f h2 (by simpa using h3)

/-- What is a number to the broker, and what is not. -/
example : Spec.IsCount "8" 8 ∧ Spec.IsCount " +8x" 8 ∧ Spec.IsCount "-1" (2 ^ 64 - 1) ∧
    (¬ ∃ n, Spec.IsCount "abc" n) ∧ (¬ ∃ n, Spec.IsCount "" n) ∧
    ¬ ∃ n, Spec.IsCount "18446744073709551616" n := by
  simp only [← stoul_iff]
  refine ⟨by decide +kernel, by decide +kernel, by decide +kernel, ?_, ?_, ?_⟩
  · rintro ⟨n, h⟩
    have : stoul "abc" = .error .invalidArgument := by decide +kernel
    rw [this] at h; cases h
  · rintro ⟨n, h⟩
    have : stoul "" = .error .invalidArgument := by decide +kernel
    rw [this] at h; cases h
  · rintro ⟨n, h⟩
    have : stoul "18446744073709551616" = .error .outOfRange := by decide +kernel
    rw [this] at h; cases h

/-- A worker with 8 threads takes jobs for 8 and 2 threads (numbers, not texts, are compared), but
    not one for 10. -/
example : ∃ h s, Run (Q := Multi) cfg0 env0 h s ∧
    (emitted h == [⟨"clients", "C", ["ack"]⟩, ⟨"workers", "W", ["eval", "J1"]⟩,
      ⟨"clients", "C", ["accept"]⟩, ⟨"clients", "C", ["ack"]⟩, ⟨"clients", "C", ["accept"]⟩,
      ⟨"clients", "C", ["ack"]⟩,
      ⟨"clients", "C", ["reject", "No worker available for given headers: threads=10; "]⟩,
      ⟨"monitor", "recodex-monitor", ["J3", "FAILED"]⟩]) = true :=
  exists_run [fromW "W" ["init", "b", "threads=8"], fromC "C" ["eval", "J1", "threads=8", ""],
    fromC "C" ["eval", "J2", "threads=2", ""], fromC "C" ["eval", "J3", "threads=10", ""]] _
    (by decide +kernel)

/-! ## C27 -/

/-- **C27.** Without malformed numbers in the request, the test whether a worker can process a
    request answers, and the answer is that every requirement is satisfied by some declaration of
    the same name. -/
theorem C27_matching {a : Nat} {i g d : String} {rest : List String} {w : Worker}
    (h : Worker.create a i g (initHeaders rest []).1 d = .ok w) {fs : List String}
    {x : Headers × Metadata × List String} (hx : evalHeaders fs [] [] = .ok (some x))
    (hn : Spec.Numeric (Spec.headerFrames fs)) :
    ∃ b, w.checkHeaders x.1 = .ok b ∧
      (b = true ↔ ∀ f ∈ Spec.headerFrames fs, Spec.isMeta f = false →
        Spec.Satisfies g (Spec.headerFrames rest) (Spec.frameKey f) (Spec.frameValue f)) := by
  obtain ⟨e1, e2, e3⟩ := evalHeaders_some _ _ _ _ hx
  obtain ⟨b, hb⟩ := checkHeaders_total w (Worker.create_wf h) x.1 (by
    intro e he hk
    rcases (e3 e).1 he with hmem | ⟨f, hf, _, rfl⟩
    · cases hmem
    · exact hn f hf hk)
  refine ⟨b, hb, ?_⟩
  have hcan : w.Can x.1 ↔ b = true := by
    unfold Worker.Can
    rw [hb]; simp
  rw [← hcan]
  exact can_iff h (md := x.2.1) (extra := x.2.2) hx

/-- **C27, order and repetition of declarations and requirements are irrelevant.** -/
theorem C27_order_independent {a a' : Nat} {i i' g d d' : String} {ds ds' fs fs' : List String}
    {w w' : Worker} {x x' : Headers × Metadata × List String}
    (h : Worker.create a i g (initHeaders ds []).1 d = .ok w)
    (h' : Worker.create a' i' g (initHeaders ds' []).1 d' = .ok w')
    (hd : ∀ f, f ∈ Spec.headerFrames ds ↔ f ∈ Spec.headerFrames ds')
    (hx : evalHeaders fs [] [] = .ok (some x)) (hx' : evalHeaders fs' [] [] = .ok (some x'))
    (hf : ∀ f, Spec.isMeta f = false → (f ∈ Spec.headerFrames fs ↔ f ∈ Spec.headerFrames fs'))
    (hn : Spec.Numeric (Spec.headerFrames fs)) :
    ∃ b, w.checkHeaders x.1 = .ok b ∧ w'.checkHeaders x'.1 = .ok b := by
  have hn' : Spec.Numeric (Spec.headerFrames fs') := by
    intro f hmem hk
    have hm : Spec.isMeta f = false := by
      unfold Spec.isMeta; rw [hk]; decide
    exact hn f ((hf f hm).2 hmem) hk
  obtain ⟨b, hb, hiff⟩ := C27_matching h hx hn
  obtain ⟨b', hb', hiff'⟩ := C27_matching h' hx' hn'
  have hsat : ∀ k v, Spec.Satisfies g (Spec.headerFrames ds) k v ↔
      Spec.Satisfies g (Spec.headerFrames ds') k v := by
    intro k v
    simp only [Spec.Satisfies, hd]
  have : b = b' := by
    rw [Bool.eq_iff_iff, hiff, hiff']
    constructor
    · intro hall f hmem hm
      exact (hsat _ _).1 (hall f ((hf f hm).2 hmem) hm)
    · intro hall f hmem hm
      exact (hsat _ _).2 (hall f ((hf f hm).1 hmem) hm)
  exact ⟨b, hb, this ▸ hb'⟩

/-- **C27, acceptance.** In the same state, requests with the same set of header frames (up to
    metadata) get the same decision. -/
theorem C27_acceptance {cfg : HConfig} {env : Env} {h : List (Tr Q)} {s s1 s2 : HState Q}
    {m m' : Msg} (hr : Run cfg env h s) (hk : m.key = "clients") (hk' : m'.key = "clients")
    {j j' : String} {fs fs' : List String} (hd : m.data = "eval" :: j :: fs)
    (hd' : m'.data = "eval" :: j' :: fs') (hdel : "" ∈ fs) (hdel' : "" ∈ fs')
    (hf : ∀ f, Spec.isMeta f = false → (f ∈ Spec.headerFrames fs ↔ f ∈ Spec.headerFrames fs'))
    (hs : step cfg env m s = .ok () s1) (hs' : step cfg env m' s = .ok () s2) :
    Spec.accepts j (⟨s, m, s1⟩ : Tr Q) = true ↔ Spec.accepts j' (⟨s, m', s2⟩ : Tr Q) = true := by
  rw [C08_acceptance hr hk hd hdel hs, C08_acceptance hr hk' hd' hdel' hs']
  have hcap : ∀ (g : String) (ds : List String), Spec.Capable g ds (Spec.headerFrames fs) ↔
      Spec.Capable g ds (Spec.headerFrames fs') := by
    intro g ds
    constructor
    · intro hall f hmem hm; exact hall f ((hf f hm).2 hmem) hm
    · intro hall f hmem hm; exact hall f ((hf f hm).1 hmem) hm
  simp only [hcap]

/-- **C27, the condition on numbers is needed.** With a malformed number the order decides whether
    the test answers or raises. -/
theorem C27_malformed : ∃ w : Worker, ∃ x x' : Headers × Metadata × List String,
    Worker.create 1 "W" "g" (initHeaders ["threads=2"] []).1 "" = .ok w ∧
    evalHeaders ["threads=9", "threads=abc", ""] [] [] = .ok (some x) ∧
    evalHeaders ["threads=abc", "threads=9", ""] [] [] = .ok (some x') ∧
    w.checkHeaders x.1 = .ok false ∧ w.checkHeaders x'.1 = .error .invalidArgument := by
  refine ⟨⟨1, "W", "g", [("threads", "2")], [("hwgroup", .multi "g"), ("threads", .count 2)], ""⟩,
    ([("threads", "9"), ("threads", "abc")], [], []),
    ([("threads", "abc"), ("threads", "9")], [], []), ?_, ?_, ?_, ?_, ?_⟩ <;> decide +kernel

/-- The hypotheses of the theorems above for a worker and two requests that differ in order and
    repetition. -/
example : ∃ w w' : Worker, ∃ x x' : Headers × Metadata × List String,
    Worker.create 1 "W" "g" (initHeaders ["threads=2", "env=c", "env=py"] []).1 "" = .ok w ∧
    Worker.create 2 "V" "g" (initHeaders ["env=py", "threads=2", "env=c"] []).1 "" = .ok w' ∧
    evalHeaders ["threads=1", "env=py", "env=c", ""] [] [] = .ok (some x) ∧
    evalHeaders ["env=c", "env=c", "threads=1", "meta.a=b", "env=py", "", "p"] [] []
      = .ok (some x') ∧
    w.checkHeaders x.1 = .ok true ∧ w'.checkHeaders x'.1 = .ok true := by
  refine ⟨⟨1, "W", "g", [("env", "c"), ("env", "py"), ("threads", "2")],
      [("env", .exact "c"), ("env", .exact "py"), ("hwgroup", .multi "g"), ("threads", .count 2)],
      ""⟩,
    ⟨2, "V", "g", [("env", "py"), ("env", "c"), ("threads", "2")],
      [("env", .exact "py"), ("env", .exact "c"), ("hwgroup", .multi "g"), ("threads", .count 2)],
      ""⟩,
    ([("env", "py"), ("env", "c"), ("threads", "1")], [], []),
    ([("env", "c"), ("env", "c"), ("env", "py"), ("threads", "1")], [("a", "b")], ["p"]),
    ?_, ?_, ?_, ?_, ?_, ?_⟩ <;> decide +kernel

end Broker
