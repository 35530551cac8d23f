import Verif.Model.Reactor
import Verif.Proof.Headers

/-!
# Framing and routing lemmas
-/

namespace Broker

theorem dataFrames_cons2 (f g : String) (t : List String) :
    dataFrames (f :: g :: t) = (f, true) :: dataFrames (g :: t) := rfl

theorem sendAll_data (d : List String) (hd : d ≠ []) (p : String) (fs : List String)
    (sent : List (String × List String)) :
    Router.sendAll ⟨some (p, fs), sent⟩ (dataFrames d) = ⟨none, sent ++ [(p, fs ++ d)]⟩ := by
  induction d generalizing fs with
  | nil => exact absurd rfl hd
  | cons f t ih =>
    cases t with
    | nil => rfl
    | cons g t' =>
      rw [dataFrames_cons2]
      show Router.sendAll ⟨some (p, fs ++ [f]), sent⟩ _ = _
      rw [ih (by simp)]
      simp

theorem sendMessage_closed {m : Msg} (hd : m.data ≠ []) {r : Router} (hr : r.cur = none) :
    r.sendMessage m = ⟨none, r.sent ++ [(m.identity, m.data)]⟩ := by
  obtain ⟨c, st⟩ := r
  subst hr
  show Router.sendAll ⟨some (m.identity, []), st⟩ (dataFrames m.data) = _
  rw [sendAll_data _ hd]; simp

theorem sendAll_async {m : Msg} (hd : m.data ≠ []) {r : Router} (hr : r.cur = none) (uid : String) :
    r.sendAll (asyncFrames uid m) =
      ⟨none, r.sent ++ [(uid, m.key :: m.identity :: m.data)]⟩ := by
  obtain ⟨c, st⟩ := r
  subst hr
  show Router.sendAll ⟨some (uid, [m.key, m.identity]), st⟩ (dataFrames m.data) = _
  rw [sendAll_data _ hd]; rfl

theorem sendMessages_closed : ∀ {l : List Msg}, (∀ m ∈ l, m.data ≠ []) → ∀ {r : Router},
    r.cur = none → l.foldl Router.sendMessage r =
      ⟨none, r.sent ++ l.map (fun m => (m.identity, m.data))⟩ := by
  intro l
  induction l with
  | nil => intro _ r hr; obtain ⟨c, st⟩ := r; subst hr; simp
  | cons m t ih =>
    intro h r hr
    rw [List.foldl_cons, sendMessage_closed (h m (by simp)) hr, ih (fun m' hm => h m' (by simp [hm])) rfl]
    simp

theorem recvMore_false (l : List (String × Bool)) : recvMore false l = ([], l) := by
  cases l <;> rfl

theorem recvMore_data (d : List String) (hd : d ≠ []) (rest : List (String × Bool)) :
    recvMore true (dataFrames d ++ rest) = (d, rest) := by
  induction d with
  | nil => exact absurd rfl hd
  | cons f t ih =>
    cases t with
    | nil => simp [dataFrames, recvMore, recvMore_false]
    | cons g t' =>
      rw [dataFrames_cons2, List.cons_append, recvMore, ih (by simp)]

theorem recvFrames_cons (i : String) (d : List String) :
    recvFrames (i :: d) = (i, !d.isEmpty) :: dataFrames d := by
  cases d <;> rfl

theorem receiveMessage_frames (k i : String) (d : List String) (rest : List (String × Bool)) :
    receiveMessage k (recvFrames (i :: d) ++ rest) = some (⟨k, i, d⟩, rest) := by
  rw [recvFrames_cons]
  cases d with
  | nil => simp [receiveMessage, dataFrames, recvMore_false]
  | cons f t =>
    simp only [List.cons_append, receiveMessage, List.isEmpty_cons, Bool.not_false]
    rw [recvMore_data _ (by simp)]

theorem receiveMessage_all (k i : String) (d : List String) :
    receiveMessage k (recvFrames (i :: d)) = some (⟨k, i, d⟩, []) := by
  have := receiveMessage_frames k i d []
  rwa [List.append_nil] at this

theorem threadTurn_frames {m : Msg} (hk : m.key ≠ terminateMsg) (rest : List (String × Bool)) :
    threadTurn (recvFrames (m.key :: m.identity :: m.data) ++ rest) = some (.request m, rest) := by
  obtain ⟨k, i, d⟩ := m
  have hk : k ≠ terminateMsg := hk
  rw [recvFrames_cons]
  simp only [List.isEmpty_cons, Bool.not_false, List.cons_append, threadTurn, if_neg hk,
    Bool.not_true, Bool.false_eq_true, if_false]
  have := recvFrames_cons i d
  simp only [recvFrames] at this
  rw [this]
  cases d with
  | nil => simp [dataFrames, recvMore_false]
  | cons f t =>
    simp only [List.cons_append, List.isEmpty_cons, Bool.not_false]
    rw [recvMore_data _ (by simp)]

/-! ## The broker's wiring -/

theorem broker_sockets : brokerWiring.sockets = [("clients", ()), ("monitor", ()), ("workers", ())] := by
  decide

theorem broker_handlers : brokerWiring.handlers =
    [("clients", .broker), ("status_notifier", .notifier), ("timer", .broker),
     ("workers", .broker)] := by
  decide

theorem broker_order : brokerWiring.order = ["clients", "monitor", "workers"] := by
  decide

theorem process_broker {m : Msg} (h : m.key = "clients" ∨ m.key = "workers" ∨ m.key = "timer") :
    brokerWiring.process m = [.handler .broker] := by
  obtain ⟨k, i, d⟩ := m
  simp only at h
  rcases h with rfl | rfl | rfl <;> simp [Wiring.process, broker_handlers, mmRange]

theorem process_monitor {m : Msg} (h : m.key = "monitor") : brokerWiring.process m = [] := by
  obtain ⟨k, i, d⟩ := m
  simp only at h
  subst h
  simp [Wiring.process, broker_handlers, mmRange]

theorem send_socket {m : Msg} (h : m.key = "clients" ∨ m.key = "workers" ∨ m.key = "monitor") :
    brokerWiring.send m = [.socket m.key] := by
  obtain ⟨k, i, d⟩ := m
  simp only at h
  rcases h with rfl | rfl | rfl <;> simp [Wiring.send, broker_sockets]

theorem send_notifier {m : Msg} (h : m.key = "status_notifier") :
    brokerWiring.send m = [.handler .notifier] := by
  obtain ⟨k, i, d⟩ := m
  simp only at h
  subst h
  simp [Wiring.send, Wiring.process, broker_sockets, broker_handlers, mmRange]

end Broker
