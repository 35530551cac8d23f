import Verif.Props.Matching

/-!
# The registry of workers as a component (C83)
-/

namespace Broker

namespace Spec

/-- Calls that change a registry. -/
inductive RegOp where
  | add (w : Worker)
  | remove (w : Worker)

/-- The worker was added and not removed since. -/
def StaysIn (w : Worker) (ops : List RegOp) : Prop :=
  ∃ pre post, ops = pre ++ RegOp.add w :: post ∧ ∀ v, RegOp.remove v ∈ post → v.addr ≠ w.addr

/-- The workers of the calls of `add_worker`. -/
def added : List RegOp → List Worker
  | [] => []
  | .add w :: t => w :: added t
  | .remove _ :: t => added t

theorem added_append (a b : List RegOp) : added (a ++ b) = added a ++ added b := by
  induction a with
  | nil => rfl
  | cons o t ih => cases o <;> simp [added, ih]

theorem mem_added {w : Worker} : ∀ {ops : List RegOp}, w ∈ added ops ↔ RegOp.add w ∈ ops
  | [] => by simp [added]
  | .add v :: t => by simp [added, mem_added (ops := t)]
  | .remove v :: t => by simp [added, mem_added (ops := t)]

end Spec

/-- One call on a registry: `add_worker` (src/worker_registry.cpp:6-9) or `remove_worker`
    (src/worker_registry.cpp:11-18). -/
def regOp (ws : List Worker) : Spec.RegOp → List Worker
  | .add w => ws ++ [w]
  | .remove w => regRemove w ws

theorem mem_regRemove_of_nodup {w x : Worker} : ∀ {ws : List Worker}, (ws.map (·.addr)).Nodup →
    (x ∈ regRemove w ws ↔ x ∈ ws ∧ x.addr ≠ w.addr)
  | [], _ => by simp [regRemove]
  | v :: t, hn => by
    obtain ⟨h1, h2⟩ := List.nodup_cons.1 hn
    unfold regRemove
    split
    · rename_i he
      constructor
      · intro h
        refine ⟨List.mem_cons_of_mem _ h, fun hx => h1 ?_⟩
        exact List.mem_map.2 ⟨x, h, hx.trans he.symm⟩
      · rintro ⟨h, hx⟩
        rcases List.mem_cons.1 h with rfl | h
        · exact absurd he hx
        · exact h
    · rename_i he
      simp only [List.mem_cons, mem_regRemove_of_nodup h2]
      constructor
      · rintro (rfl | h)
        · exact ⟨.inl rfl, he⟩
        · exact ⟨.inr h.1, h.2⟩
      · rintro ⟨rfl | h, hx⟩
        · exact .inl rfl
        · exact .inr ⟨h, hx⟩

theorem regRemove_sublist (w : Worker) : ∀ ws : List Worker, (regRemove w ws).Sublist ws
  | [] => .slnil
  | v :: t => by
    unfold regRemove
    split
    · exact List.sublist_cons_self ..
    · exact (regRemove_sublist w t).cons_cons v

/-- **C83, contents.**  After any calls that add different workers, the registry contains the workers
    added and not removed since, in the order in which they were added. -/
theorem C83_contents (ops : List Spec.RegOp) (hd : ((Spec.added ops).map (·.addr)).Nodup) :
    (ops.foldl regOp []).Sublist (Spec.added ops) ∧
      ∀ w, w ∈ ops.foldl regOp [] ↔ Spec.StaysIn w ops := by
  induction ops using List.reverseRecOn with
  | nil =>
    refine ⟨.slnil, fun w => ⟨fun h => by simp at h, ?_⟩⟩
    rintro ⟨pre, post, h, -⟩
    simp at h
  | append_singleton ops o ih =>
    rw [Spec.added_append, List.map_append] at hd
    obtain ⟨i1, i2⟩ := ih hd.of_append_left
    rw [List.foldl_append, List.foldl_cons, List.foldl_nil, Spec.added_append]
    cases o with
    | add v =>
      refine ⟨List.Sublist.append i1 (.refl _), fun w => ?_⟩
      simp only [regOp, List.mem_append, List.mem_singleton, i2]
      constructor
      · rintro (⟨pre, post, rfl, h⟩ | rfl)
        · refine ⟨pre, post ++ [.add v], by simp, fun x hx => h x ?_⟩
          simpa using hx
        · exact ⟨ops, [], by simp, by simp⟩
      · rintro ⟨pre, post, h, hp⟩
        rcases List.eq_nil_or_concat post with rfl | ⟨post, o, rfl⟩
        · obtain ⟨-, h⟩ := List.append_inj' h rfl
          simp only [List.cons.injEq, Spec.RegOp.add.injEq, and_true] at h
          exact .inr h.symm
        · rw [List.concat_eq_append, ← List.cons_append, ← List.append_assoc] at h
          obtain ⟨h, -⟩ := List.append_inj' h rfl
          exact .inl ⟨pre, post, h, fun x hx => hp x (by simp [hx])⟩
    | remove v =>
      refine ⟨((regRemove_sublist v _).trans i1).trans (by simp [Spec.added]), fun w => ?_⟩
      have hn : ((ops.foldl regOp []).map (·.addr)).Nodup :=
        (hd.of_append_left).sublist (i1.map _)
      simp only [regOp]
      rw [mem_regRemove_of_nodup hn, i2]
      constructor
      · rintro ⟨⟨pre, post, rfl, h⟩, hw⟩
        refine ⟨pre, post ++ [.remove v], by simp, fun x hx => ?_⟩
        rcases List.mem_append.1 hx with hx | hx
        · exact h x hx
        · simp only [List.mem_singleton, Spec.RegOp.remove.injEq] at hx
          subst hx
          exact hw.symm
      · rintro ⟨pre, post, h, hp⟩
        rcases List.eq_nil_or_concat post with rfl | ⟨post, o, rfl⟩
        · obtain ⟨-, h⟩ := List.append_inj' h rfl
          simp at h
        · rw [List.concat_eq_append, ← List.cons_append, ← List.append_assoc] at h
          obtain ⟨h', ho⟩ := List.append_inj' h rfl
          simp only [List.cons.injEq, and_true] at ho
          subst ho
          exact ⟨⟨pre, post, h', fun x hx => hp x (by simp [hx])⟩,
            (hp v (by simp)).symm⟩

/-- **C83, identity.**  `find_worker_by_identity` returns the worker with the identity that was added
    first, and a null pointer if there is none. -/
theorem C83_identity (i : String) (ws : List Worker) :
    (∀ w, regFind i ws = some w ↔
      w.identity = i ∧ ∃ a b, ws = a ++ w :: b ∧ ∀ x ∈ a, x.identity ≠ i) ∧
    (regFind i ws = none ↔ ∀ w ∈ ws, w.identity ≠ i) := by
  constructor
  · intro w
    rw [regFind, List.find?_eq_some_iff_append]
    simp
  · simp [regFind]

/-- **C83, headers.**  `find_worker`, called with the headers of a request, returns the worker added
    first among those that satisfy all of them, and a null pointer if there is none. -/
theorem C83_headers {fs : List String} {x : Headers × Metadata × List String}
    (hx : evalHeaders fs [] [] = .ok (some x)) (hn : Spec.Numeric (Spec.headerFrames fs))
    {ws : List Worker} {ds : List (String × List String)}
    (hw : List.Forall₂ (fun w d => ∃ a i t,
      Worker.create a i d.1 (initHeaders d.2 []).1 t = .ok w) ws ds) :
    (regFindHeaders x.1 ws = .ok none ∧
      ∀ d ∈ ds, ¬ Spec.Capable d.1 (Spec.headerFrames d.2) (Spec.headerFrames fs)) ∨
    ∃ ws1 w ws2 ds1 d ds2, regFindHeaders x.1 ws = .ok (some w) ∧
      ws = ws1 ++ w :: ws2 ∧ ds = ds1 ++ d :: ds2 ∧ ws1.length = ds1.length ∧
      Spec.Capable d.1 (Spec.headerFrames d.2) (Spec.headerFrames fs) ∧
      ∀ d ∈ ds1, ¬ Spec.Capable d.1 (Spec.headerFrames d.2) (Spec.headerFrames fs) := by
  induction hw with
  | nil => exact .inl ⟨rfl, by simp⟩
  | @cons w d ws ds hc ht ih =>
    obtain ⟨a, i, t, hc⟩ := hc
    obtain ⟨b, hb, hi⟩ := C27_matching hc hx hn
    cases b with
    | true =>
      refine .inr ⟨[], w, ws, [], d, ds, ?_, rfl, rfl, rfl, hi.1 rfl, by simp⟩
      rw [regFindHeaders, hb]
      rfl
    | false =>
      have hno : ¬ Spec.Capable d.1 (Spec.headerFrames d.2) (Spec.headerFrames fs) :=
        fun h => absurd (hi.2 h) (by simp)
      have he : regFindHeaders x.1 (w :: ws) = regFindHeaders x.1 ws := by
        rw [regFindHeaders, hb]
        rfl
      rw [he]
      rcases ih with ⟨h1, h2⟩ | ⟨ws1, w', ws2, ds1, d', ds2, h1, rfl, rfl, h4, h5, h6⟩
      · refine .inl ⟨h1, fun d' hd => ?_⟩
        rcases List.mem_cons.1 hd with rfl | hd
        · exact hno
        · exact h2 d' hd
      · refine .inr ⟨w :: ws1, w', ws2, d :: ds1, d', ds2, h1, rfl, rfl, by simp [h4], h5,
          fun d'' hd => ?_⟩
        rcases List.mem_cons.1 hd with rfl | hd
        · exact hno
        · exact h6 d'' hd

/-- Two workers. -/
def regW (a : Nat) (i env : String) : Worker :=
  ⟨a, i, "g", [("env", env)], [("env", .exact env), ("hwgroup", .multi "g")], ""⟩

/-- The hypotheses of the theorems of C83, for two workers of which one is removed and added again,
    and a request for the second. -/
example : (Spec.added [.add (regW 1 "a" "c"), .add (regW 2 "b" "d"), .remove (regW 1 "a" "c"),
      .add (regW 3 "a" "c")]).map (·.addr) = [1, 2, 3] ∧
    [Spec.RegOp.add (regW 1 "a" "c"), .add (regW 2 "b" "d"), .remove (regW 1 "a" "c"),
      .add (regW 3 "a" "c")].foldl regOp [] = [regW 2 "b" "d", regW 3 "a" "c"] := by
  decide +kernel

example : evalHeaders ["env=c", ""] [] [] = .ok (some ([("env", "c")], [], [])) ∧
    Spec.Numeric (Spec.headerFrames ["env=c", ""]) ∧
    List.Forall₂ (fun w d => ∃ a i t, Worker.create a i d.1 (initHeaders d.2 []).1 t = .ok w)
      [regW 2 "b" "d", regW 3 "a" "c"] [("g", ["env=d"]), ("g", ["env=c"])] ∧
    regFindHeaders [("env", "c")] [regW 2 "b" "d", regW 3 "a" "c"] = .ok (some (regW 3 "a" "c")) := by
  refine ⟨by decide +kernel, ?_, .cons ⟨2, "b", "", by decide +kernel⟩
    (.cons ⟨3, "a", "", by decide +kernel⟩ .nil), by decide +kernel⟩
  intro f hf hk
  have : Spec.headerFrames ["env=c", ""] = ["env=c"] := by decide +kernel
  rw [this, List.mem_singleton] at hf
  subst hf
  exact absurd hk (by decide +kernel)

end Broker
