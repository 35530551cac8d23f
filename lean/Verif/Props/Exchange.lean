import Verif.Proof.Exchange
import Verif.Spec.Exec
import Verif.Props.Volume
import Verif.Model.Single

/-!
# C120: with the multi-queue manager the order of results does not matter
-/

namespace Broker

open QueueManager Spec

/-- **C120.** With the multi-queue manager, final results reported by different workers are answered
    as if each were the only one, and everything that follows is the same in whatever order they are
    reported.  `transcript cfg env s [m]` is what a broker in state `s` answers to `m`. -/
theorem C120_results {cfg : HConfig} {env : Env} {h : List (Tr Multi)} {s : HState Multi}
    (hr : Run cfg env h s) {l l' : List Msg} (hl : l.Perm l') (hf : ∀ m ∈ l, Final m)
    (hd : (l.map (·.identity)).Nodup) (hok : ∀ m ∈ l, ∀ x ∈ transcript cfg env s [m], x.2 = none)
    (ms : List Msg) : ∃ rest,
      transcript cfg env s (l ++ ms) = l.flatMap (fun m => transcript cfg env s [m]) ++ rest ∧
      transcript cfg env s (l' ++ ms) = l'.flatMap (fun m => transcript cfg env s [m]) ++ rest := by
  have hone : ∀ m ∈ l, (resultOf cfg m s).2.1 = none ∧
      transcript cfg env s [m] = [((resultOf cfg m s).1, none)] := by
    intro m hm
    obtain ⟨t1, -⟩ := transcript_result (cfg := cfg) (env := env) (hf m hm) hr.inv.1 hr.timed []
    have ho : (resultOf cfg m s).2.1 = none := hok m hm _ (by rw [t1]; exact List.mem_cons_self)
    refine ⟨ho, ?_⟩
    rw [t1, ho, if_pos rfl]
    rfl
  obtain ⟨rest, r1, r2⟩ := results_perm hl hr hf hd (fun m hm => (hone m hm).1) ms
  have hmap : ∀ k : List Msg, (∀ m ∈ k, m ∈ l) →
      k.flatMap (fun m => transcript cfg env s [m]) =
        k.map (fun m => ((resultOf cfg m s).1, none)) := by
    intro k hk
    induction k with
    | nil => rfl
    | cons m k ih =>
      rw [List.flatMap_cons, List.map_cons, (hone m (hk m (by simp))).2,
        ih (fun x hx => hk x (by simp [hx]))]
      rfl
  exact ⟨rest, by rw [r1, hmap l fun _ h => h], by rw [r2, hmap l' fun m h => hl.mem_iff.2 h]⟩

/-! ## Examples -/

/-- Three workers, of which two have a job waiting. -/
def threeBusy : List Msg :=
  [fromW "u" ["init", "g", "env=c"], fromW "v" ["init", "g", "env=c"],
   fromW "w" ["init", "g", "env=c"]] ++
  ["A", "B", "C", "D", "E"].map (fun j => fromC "c" ["eval", j, "env=c", "", "x"])

/-- Their results. -/
def threeResults : List Msg :=
  [fromW "u" ["done", "C", "FAILED", "oops"], fromW "v" ["done", "B", "OK"],
   fromW "w" ["done", "A", "OK"]]

/-- The hypotheses hold: two jobs are done, one failed, and two workers get their next job. -/
example : ∃ h s, Run (Q := Multi) cfg0 env0 h s ∧ h.map (·.msg) = threeBusy ∧
    (∀ m ∈ threeResults, Final m) ∧ (threeResults.map (·.identity)).Nodup ∧
    (∀ m ∈ threeResults, ∀ x ∈ transcript cfg0 env0 s [m], x.2 = none) ∧
    ((transcript cfg0 env0 s threeResults).flatMap (·.1)).filter (·.key = "workers") =
      [⟨"workers", "v", ["eval", "E", "x"]⟩, ⟨"workers", "w", ["eval", "D", "x"]⟩] := by
  obtain ⟨h, s, hr, hd⟩ := exists_run (Q := Multi) (cfg := cfg0) (env := env0) threeBusy
    (fun h s => decide (h.map (·.msg) = threeBusy ∧
      (∀ m ∈ threeResults, ∀ x ∈ transcript cfg0 env0 s [m], x.2 = none) ∧
      ((transcript cfg0 env0 s threeResults).flatMap (·.1)).filter (·.key = "workers") =
        [⟨"workers", "v", ["eval", "E", "x"]⟩, ⟨"workers", "w", ["eval", "D", "x"]⟩]))
    (by decide +kernel)
  have hd := of_decide_eq_true hd
  exact ⟨h, s, hr, hd.1, by decide, by decide, hd.2.1, hd.2.2⟩

/-- **C120, one queue.** With the single-queue manager the order decides who gets which job. -/
theorem C120_single : ∃ (ms l l' : List Msg), l.Perm l' ∧ (∀ m ∈ l, Final m) ∧
    (l.map (·.identity)).Nodup ∧
    (⟨"workers", "v", ["eval", "D", "x"]⟩ : Msg) ∈
      (observed Single cfg0 env0 (ms ++ l)).flatMap (·.1) ∧
    (⟨"workers", "w", ["eval", "D", "x"]⟩ : Msg) ∈
      (observed Single cfg0 env0 (ms ++ l')).flatMap (·.1) ∧
    ∀ x ∈ observed Single cfg0 env0 (ms ++ l) ++ observed Single cfg0 env0 (ms ++ l'), x.2 = none :=
  ⟨[fromW "v" ["init", "g", "env=c"], fromW "w" ["init", "g", "env=c"]] ++
    ["A", "B", "D"].map (fun j => fromC "c" ["eval", j, "env=c", "", "x"]),
    [fromW "v" ["done", "A", "OK"], fromW "w" ["done", "B", "OK"]],
    [fromW "w" ["done", "B", "OK"], fromW "v" ["done", "A", "OK"]],
    List.Perm.swap _ _ _, by decide, by decide, by decide +kernel, by decide +kernel,
    by decide +kernel⟩

/-- **C120, internal errors.** After an internal error of another worker a result can be answered
    differently with the multi-queue manager too, because the job was passed on. -/
theorem C120_internal : ∃ (ms : List Msg) (m p : Msg), Final m ∧ m.identity ≠ p.identity ∧
    p.data.head? = some "done" ∧
    (∀ x ∈ observed Multi cfg0 env0 (ms ++ [m, p]) ++ observed Multi cfg0 env0 (ms ++ [p, m]),
      x.2 = none) ∧
    (observed Multi cfg0 env0 (ms ++ [m])).getLast? ≠
      (observed Multi cfg0 env0 (ms ++ [p, m])).getLast? :=
  ⟨[fromW "v" ["init", "g", "env=c"], fromW "w" ["init", "g", "env=c"]] ++
    ["A", "B"].map (fun j => fromC "c" ["eval", j, "env=c", "", "x"]),
    fromW "w" ["done", "A", "OK"], fromW "v" ["done", "B", "INTERNAL_ERROR", "oops"],
    by decide, by decide, by decide, by decide +kernel, by decide +kernel⟩

end Broker
