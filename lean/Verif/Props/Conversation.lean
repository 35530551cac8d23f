import Verif.Props.Reactor
import Verif.Props.Commands
import Verif.Props.Replies

/-!
# C84: conversations with clients
-/

namespace Broker

namespace Spec

/-- A request of a client and the replies to it, in order. -/
inductive Answered : List String → List (List String) → Prop
  | accepted {j : String} {fs : List String} (h : "" ∈ fs) :
    Answered ("eval" :: j :: fs) [["ack"], ["accept"]]
  | rejected {j text : String} {fs : List String} (h : "" ∈ fs) :
    Answered ("eval" :: j :: fs) [["ack"], ["reject", text]]
  | malformed {j : String} {fs : List String} (h : "" ∉ fs) :
    Answered ("eval" :: j :: fs) [["ack"]]
  | stats {rest reply : List String} (h : StatsReply reply)
    (hk : ∀ k ∈ ["evaluated-jobs", "failed-jobs", "queued-jobs", "worker-count",
      "idle-worker-count", "is-frozen"], k ∈ (pairs reply).map (·.1)) :
    Answered ("get-runtime-stats" :: rest) [reply]
  | freeze {rest : List String} : Answered ("freeze" :: rest) [["ack"]]
  | unfreeze {rest : List String} : Answered ("unfreeze" :: rest) [["ack"]]
  | ignored {c : String} {rest : List String}
    (h : c ∉ ["eval", "get-runtime-stats", "freeze", "unfreeze"]) : Answered (c :: rest) []

/-- The requests of a client and everything it is sent. -/
inductive Conversation : List (List String) → List (List String) → Prop
  | nil : Conversation [] []
  | cons {q : List String} {qs a as : List (List String)} (h : Answered q a)
    (t : Conversation qs as) : Conversation (q :: qs) (a ++ as)

/-- What a client sent, of these messages. -/
def fromClient (i : String) (l : List Msg) : List (List String) :=
  (l.filter fun m => m.key == "clients" && m.identity == i).map (·.data)

/-- What is for this peer, of what goes through a socket. -/
def forClient (i : String) (l : List (String × List String)) : List (List String) :=
  (l.filter fun x => x.1 == i).map (·.2)

/-- How many replies a request gets. -/
def replies : List String → Nat
  | "eval" :: _ :: fs => if "" ∈ fs then 2 else 1
  | c :: _ => if c ∈ ["get-runtime-stats", "freeze", "unfreeze"] then 1 else 0
  | [] => 0

end Spec

variable {Q : Type} [QueueManager Q] [LawfulQM Q]

/-! ## One message -/

omit [QueueManager Q] [LawfulQM Q] in
theorem forClient_append (i : String) (a b : List (String × List String)) :
    Spec.forClient i (a ++ b) = Spec.forClient i a ++ Spec.forClient i b := by
  simp [Spec.forClient]

omit [QueueManager Q] [LawfulQM Q] in
theorem addressed_append (k : String) (a b : List Msg) :
    Spec.addressed k (a ++ b) = Spec.addressed k a ++ Spec.addressed k b := by
  simp [Spec.addressed]

/-- What a handled message of a client is answered. -/
theorem step_answered {cfg : HConfig} {env : Env} {s s' : HState Q} {m : Msg} (hi : HInv s)
    (hk : m.key = "clients") (hs : step cfg env m s = .ok () s') :
    ∃ a, Spec.Answered m.data a ∧
      Spec.addressed "clients" s'.outs = a.map fun d => (m.identity, d) := by
  obtain ⟨evs, hi'⟩ := step_info hi hs
  have hscr := hi'.script
  rw [hi'.outs]
  cases hscr with
  | init hk' => rw [hk] at hk'; exact absurd hk' (by decide)
  | done hk' => rw [hk] at hk'; exact absurd hk' (by decide)
  | ping hk' => rw [hk] at hk'; exact absurd hk' (by decide)
  | progress hk' => rw [hk] at hk'; exact absurd hk' (by decide)
  | workerUnknown hk' => rw [hk] at hk'; exact absurd hk' (by decide)
  | timer hk' => rw [hk] at hk'; exact absurd hk' (by decide)
  | eval hk' hd hf h =>
    cases h with
    | malformed h =>
      obtain ⟨j, rest', hd', hp⟩ := h
      have := (evalHeaders_none rest' [] []).1 hp
      exact ⟨[["ack"]], by rw [hd']; exact .malformed this.2,
        by simp [Ev.msgs, Spec.addressed, keyClients]⟩
    | frozen hf h =>
      obtain ⟨j, rest', x, hd', hp⟩ := h
      exact ⟨[["ack"], ["reject", "The broker is frozen."]],
        by rw [hd']; exact .rejected (evalHeaders_some _ _ _ _ hp).1,
        by simp [Ev.msgs, Spec.addressed, keyClients]⟩
    | submit hf hm hp h =>
      have hdel := (evalHeaders_some _ _ _ _ hp).1
      cases h with
      | reject =>
        exact ⟨[["ack"], ["reject", rejectMessage _]], by rw [hm]; exact .rejected hdel,
          by simp [Ev.msgs, Spec.addressed, keyClients, monMsg, keyMonitor]; rfl⟩
      | give w =>
        exact ⟨[["ack"], ["accept"]], by rw [hm]; exact .accepted hdel,
          by simp [Ev.msgs, Spec.addressed, keyClients, sendMsg, keyWorkers]⟩
      | wait =>
        exact ⟨[["ack"], ["accept"]], by rw [hm]; exact .accepted hdel,
          by simp [Ev.msgs, Spec.addressed, keyClients]⟩
  | stats hk' hd h =>
    obtain ⟨reply, hst, h1, h2⟩ := C43_stats_reply (cfg := cfg) (env := env) (s := s) (m := m)
      (isCommand_iff.2 ⟨hk, by rw [hd]; rfl⟩)
    rw [hst] at hs
    cases hs
    have ho := hi'.outs
    refine ⟨[reply], by rw [hd]; exact .stats h1 h2, ?_⟩
    rw [← ho]
    simp [Spec.addressed]
  | freeze hk' hd h =>
    exact ⟨[["ack"]], by rw [hd]; exact .freeze, by simp [Ev.msgs, Spec.addressed, keyClients]⟩
  | unfreeze hk' hd h =>
    exact ⟨[["ack"]], by rw [hd]; exact .unfreeze, by simp [Ev.msgs, Spec.addressed, keyClients]⟩
  | clientUnknown hk' hd hc h =>
    exact ⟨[], by rw [hd]; exact .ignored (by simpa using hc), by simp [Spec.addressed]⟩
  | other hk' h => exact absurd hk hk'.2.1

/-- Only messages of clients are answered to clients. -/
theorem step_silent {cfg : HConfig} {env : Env} {h : List (Tr Q)} {s s' : HState Q} {m : Msg}
    (hr : Run cfg env h s) (hk : m.key ≠ "clients") (hs : step cfg env m s = .ok () s') :
    Spec.addressed "clients" s'.outs = [] := by
  rw [Spec.addressed, List.map_eq_nil_iff, List.filter_eq_nil_iff]
  intro o ho hko
  have := (C10_addressing (h1 := h) (h2 := []) (t := ⟨s, m, s'⟩) (Run.snoc hr hs) ho).2.1
    (by simpa using hko)
  exact hk this.1

/-! ## Histories -/

theorem Spec.Conversation.snoc {qs as : List (List String)} (h : Spec.Conversation qs as)
    {q : List String} {a : List (List String)} (ha : Spec.Answered q a) :
    Spec.Conversation (qs ++ [q]) (as ++ a) := by
  induction h with
  | nil => simpa using Spec.Conversation.cons ha .nil
  | cons h0 _ ih => simpa using Spec.Conversation.cons h0 ih

theorem forClient_same (i : String) (a : List (List String)) :
    Spec.forClient i (a.map fun d => (i, d)) = a := by
  induction a with
  | nil => rfl
  | cons x t ih => simpa [Spec.forClient] using ih

theorem forClient_other {i j : String} (h : j ≠ i) (a : List (List String)) :
    Spec.forClient i (a.map fun d => (j, d)) = [] := by
  simp [Spec.forClient, h]

theorem Run.conversation {cfg : HConfig} {env : Env} {h : List (Tr Q)} {s : HState Q}
    (hr : Run cfg env h s) (i : String) : Spec.Conversation (Spec.fromClient i (h.map (·.msg)))
      (Spec.forClient i (Spec.addressed "clients" (emitted h))) := by
  refine Run.induct (P := fun h _ => Spec.Conversation (Spec.fromClient i (h.map (·.msg)))
      (Spec.forClient i (Spec.addressed "clients" (emitted h)))) ?_ ?_ hr
  · exact .nil
  · intro h s m s' evs hr hi _ ih hs _
    have he : emitted (h ++ [⟨s, m, s'⟩]) = emitted h ++ s'.outs := by
      simp [emitted, Tr.outs]
    rw [he, addressed_append, forClient_append, List.map_append]
    have hf : Spec.fromClient i (h.map (·.msg) ++ [(⟨s, m, s'⟩ : Tr Q)].map (·.msg)) =
        Spec.fromClient i (h.map (·.msg)) ++
          if m.key = "clients" ∧ m.identity = i then [m.data] else [] := by
      simp only [Spec.fromClient, List.filter_append, List.map_append, List.map_cons, List.map_nil]
      congr 1
      by_cases hc : m.key = "clients" ∧ m.identity = i <;> simp [hc]
    rw [hf]
    by_cases hk : m.key = "clients"
    · obtain ⟨a, ha, ho⟩ := step_answered hi hk hs
      rw [ho]
      by_cases hid : m.identity = i
      · rw [if_pos ⟨hk, hid⟩, hid, forClient_same]
        exact ih.snoc ha
      · rw [if_neg (by simp [hid]), forClient_other hid]
        simpa using ih
    · rw [if_neg (by simp [hk]), step_silent hr hk hs]
      simpa [Spec.forClient] using ih

/-! ## C84 -/

/-- **C84.** At every moment of every execution of the process that has not ended, what was sent to a
    client, with what the main thread is about to send to it, is one conversation with the requests of
    this client handled so far: the replies to each request, in the order of the requests, and nothing
    else.  What other clients, workers and the timer do does not come in between. -/
theorem C84_conversation {cfg : HConfig} {env : Env} {e : SysEnv} {evs : List SysEv} {s : Sys Q}
    (hr : SRun cfg env e evs s) (hrun : ∀ err, s.pc ≠ .halt err) (i : String) :
    Spec.Conversation (Spec.fromClient i s.handled) (Spec.forClient i (s.socks "clients").sent ++
      Spec.forClient i (Spec.addressed "clients" s.todo)) := by
  obtain ⟨hist, crash, h1, h2, h3, h4⟩ := hr.refines
  rcases h4 with ⟨-, rfl, hc⟩ | ⟨err, m, h', b1, -⟩
  · have hconv := h1.conversation i
    rw [← forClient_append, (C31_clients hr).1, h3, List.append_nil]
    have hf : Spec.fromClient i (hist.map (·.msg)) = Spec.fromClient i s.handled := by
      rw [h2, hc, Spec.fromClient, Spec.fromClient, List.filter_filter]
      congr 1
      refine List.filter_congr fun m _ => ?_
      by_cases hk : m.key = "clients" <;> simp [hk, keyMonitor]
    rwa [hf] at hconv
  · exact absurd b1 (hrun err)

/-- **C84, everything answered.** When the main thread waits for messages and nothing of the client is
    left in the socket, everything the client sent was answered, in order. -/
theorem C84_answered {cfg : HConfig} {env : Env} {e : SysEnv} {evs : List SysEv} {s : Sys Q}
    (hr : SRun cfg env e evs s) (hpc : s.pc = .poll) (ht : s.todo = []) {i : String}
    (hin : ∀ x ∈ s.inbox "clients", x.1 ≠ i) :
    Spec.Conversation (Spec.forClient i (Spec.received "clients" s))
      (Spec.forClient i (s.socks "clients").sent) := by
  have h := C84_conversation hr (by simp [hpc]) i
  rw [ht] at h
  rw [C51_fifo hr (by decide), forClient_append]
  have h0 : Spec.forClient i (s.inbox "clients") = [] := by
    simpa [Spec.forClient] using fun a b hx => hin (a, b) hx
  have h1 : Spec.forClient i (Spec.addressed "clients" s.handled) = Spec.fromClient i s.handled := by
    simp [Spec.forClient, Spec.addressed, Spec.fromClient, List.filter_map, Function.comp_def,
      List.filter_filter, Bool.and_comm]
  rw [h0, h1]
  simpa [Spec.forClient, Spec.addressed] using h

/-- **C84, a client can tell which reply belongs to which request.** Only the request says how many
    replies there are. -/
theorem C84_count {q : List String} {a : List (List String)} (h : Spec.Answered q a) :
    a.length = Spec.replies q := by
  cases h with
  | accepted h => simp [Spec.replies, h]
  | rejected h => simp [Spec.replies, h]
  | malformed h => simp [Spec.replies, h]
  | stats => simp [Spec.replies]
  | freeze => simp [Spec.replies]
  | unfreeze => simp [Spec.replies]
  | @ignored c rest h =>
    simp only [List.mem_cons, List.not_mem_nil, or_false, not_or] at h
    unfold Spec.replies
    split <;> simp_all

/-- **C84, a client can tell which reply belongs to which request.** The replies to the first requests
    are the first replies. -/
theorem C84_split : ∀ {qs qs' rs : List (List String)}, Spec.Conversation (qs ++ qs') rs →
    Spec.Conversation qs (rs.take (qs.map Spec.replies).sum) ∧
    Spec.Conversation qs' (rs.drop (qs.map Spec.replies).sum)
  | [], _, _, h => by simpa using ⟨.nil, h⟩
  | q :: qs, qs', _, .cons (a := a) (as := as) ha h => by
    obtain ⟨h1, h2⟩ := C84_split h
    have hl := C84_count ha
    simp only [List.map_cons, List.sum_cons]
    rw [List.take_append, List.drop_append, hl]
    simp only [Nat.add_sub_cancel_left]
    rw [List.take_of_length_le (by omega), List.drop_of_length_le (by omega)]
    exact ⟨.cons ha h1, by simpa using h2⟩

/-! ## Cases that meet the hypotheses -/

/-- Two clients whose requests are handled in turn, and a worker that takes the first job. -/
def twoClients : List SysEv :=
  [.connect, .arrive "workers" "w1" ["init", "group", "env=c"], .poll 0 0, .main, .main,
   .arrive "clients" "c1" ["eval", "J1", "env=c", "", "x"],
   .arrive "clients" "c1" ["get-runtime-stats"], .arrive "clients" "c2" ["freeze"],
   .arrive "clients" "c1" ["eval", "J2", "env=c", "", "y"], .arrive "clients" "c2" ["hello"]]
  ++ .poll 0 0 :: List.replicate 5 .main ++ .poll 0 0 :: List.replicate 3 .main
  ++ .poll 0 0 :: List.replicate 3 .main ++ .poll 0 0 :: List.replicate 4 .main
  ++ .poll 0 0 :: List.replicate 2 .main

/-- All five requests are answered, each client gets its own replies. -/
example : ∃ s : Sys Multi, SRun cfg0 env0 senv0 twoClients s ∧
    (decide (s.todo = []) && (match s.pc with | .poll => true | _ => false) &&
      s.inbox "clients" == [] &&
      Spec.forClient "c1" (Spec.received "clients" s) ==
        [["eval", "J1", "env=c", "", "x"], ["get-runtime-stats"], ["eval", "J2", "env=c", "", "y"]] &&
      Spec.forClient "c1" (s.socks "clients").sent ==
        [["ack"], ["accept"],
         ["evaluated-jobs", "0", "failed-jobs", "0", "idle-worker-count", "0",
          "jobs-in-progress", "1", "queued-jobs", "0", "worker-count", "1", "is-frozen", "0"],
         ["ack"], ["reject", "The broker is frozen."]] &&
      Spec.forClient "c2" (s.socks "clients").sent == [["ack"]]) = true :=
  exists_srun twoClients _ (by decide +kernel)

/-- In the middle of the first reply: `accept` is still to be sent. -/
example : ∃ s : Sys Single, SRun cfg0 env0 senv0 (twoClients.take 13) s ∧
    (Spec.fromClient "c1" s.handled == [["eval", "J1", "env=c", "", "x"]] &&
      Spec.forClient "c1" (s.socks "clients").sent == [["ack"]] &&
      Spec.forClient "c1" (Spec.addressed "clients" s.todo) == [["accept"]]) = true :=
  exists_srun _ _ (by decide +kernel)

/-- The hypothesis of `C84_split`. -/
example : Spec.Conversation ([["freeze"], ["eval", "J2", "env=c", "", "y"]] ++ [["hello"]])
    [["ack"], ["ack"], ["reject", "The broker is frozen."]] :=
  .cons .freeze (.cons (.rejected (by decide)) (.cons (.ignored (by decide)) .nil))

end Broker
