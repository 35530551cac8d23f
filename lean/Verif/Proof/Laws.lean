import Verif.Proof.Matching
import Mathlib.Data.Multiset.Filter
import Mathlib.Data.Multiset.Count

/-!
# What the broker handler needs to know about a queue manager

`LawfulQM` describes a queue manager by three multisets: the registered workers, the pairs of a
worker and the request it works on, and the waiting requests.  Both queue managers are shown to
satisfy it (`Verif.Proof.SingleLaws`, `Verif.Proof.MultiLaws`).
-/

namespace Broker

open QueueManager

/-- The result of looking for a new request for an idle worker. -/
def Assigned (w : Worker) (b : Multiset (Worker × Req)) (qu : Multiset Req)
    (o : Option Req) (b' : Multiset (Worker × Req)) (qu' : Multiset Req) : Prop :=
  (o = none ∧ b' = b ∧ qu' = qu) ∨
  ∃ r, o = some r ∧ w.Can r.headers ∧ qu = r ::ₘ qu' ∧ b' = (w, r) ::ₘ b

/-- Laws of a queue manager. -/
class LawfulQM (Q : Type) [QueueManager Q] where
  /-- representation invariant -/
  Inv : Q → Prop
  /-- registered workers -/
  reg : Q → Multiset Worker
  /-- workers and the requests they process -/
  busy : Q → Multiset (Worker × Req)
  /-- waiting requests -/
  que : Q → Multiset Req
  inv_empty : Inv (empty : Q)
  reg_empty : reg (empty : Q) = 0
  busy_empty : busy (empty : Q) = 0
  que_empty : que (empty : Q) = 0
  reg_wf : ∀ {q : Q}, Inv q → ∀ w ∈ reg q, w.WF
  reg_nodup : ∀ {q : Q}, Inv q → ((reg q).map (·.addr)).Nodup
  busy_reg : ∀ {q : Q}, Inv q → ∀ p ∈ busy q, p.1 ∈ reg q
  busy_nodup : ∀ {q : Q}, Inv q → ((busy q).map (·.1.addr)).Nodup
  que_can : ∀ {q : Q}, Inv q → ∀ r ∈ que q, ∃ w ∈ reg q, w.Can r.headers
  queued_card : ∀ {q : Q}, Inv q → queuedCount q = (que q).card
  add : ∀ {q : Q} (srt : Sorter) {w : Worker} (cur : Option Req), Inv q → w.WF →
    w.addr ∉ (reg q).map (·.addr) →
    ∃ o q', addWorker srt q w cur = .ok (o, q') ∧ Inv q' ∧ reg q' = w ::ₘ reg q ∧
      match cur with
      | some r => (o = none ∨ o = some r) ∧ busy q' = (w, r) ::ₘ busy q ∧ que q' = que q
      | none => Assigned w (busy q) (que q) o (busy q') (que q')
  assign : ∀ {q : Q} (srt : Sorter) {w : Worker}, Inv q → w ∈ reg q → (∀ r, (w, r) ∉ busy q) →
    ∃ o q', assignRequest srt q w = .ok (o, q') ∧ Inv q' ∧ reg q' = reg q ∧
      Assigned w (busy q) (que q) o (busy q') (que q')
  finished : ∀ {q : Q} (srt : Sorter) {w : Worker} {r : Req} {b : Multiset (Worker × Req)}, Inv q →
    busy q = (w, r) ::ₘ b →
    ∃ o q', workerFinished srt q w = .ok (o, q') ∧ Inv q' ∧ reg q' = reg q ∧
      Assigned w b (que q) o (busy q') (que q')
  current : ∀ {q : Q} {w : Worker}, Inv q → w ∈ reg q →
    (currentRequest q w).2 = q ∧ ∀ r, (currentRequest q w).1 = some r ↔ (w, r) ∈ busy q
  cancelled : ∀ {q : Q} {w : Worker} {r : Req}, Inv q → (w, r) ∈ busy q →
    ∃ q', workerCancelled q w = (some r, q') ∧ Inv q' ∧ reg q' = reg q ∧
      busy q = (w, r) ::ₘ busy q' ∧ que q' = que q
  terminated : ∀ {q : Q} {w : Worker}, Inv q → w ∈ reg q →
    ∃ (cur : Option Req) (qs : List Req) (q' : Q),
      workerTerminated q w = .ok (cur.toList ++ qs, q') ∧ Inv q' ∧
      reg q = w ::ₘ reg q' ∧ que q = (qs : Multiset Req) + que q' ∧
      busy q = (cur.map (fun r => (w, r))).toList + busy q'
  enqueue : ∀ {q : Q} (now : Int) {r : Req} {res : EnqResult} {q' : Q}, Inv q →
    enqueueRequest q now r = .ok (res, q') →
    Inv q' ∧ reg q' = reg q ∧
    ((∃ w, res = ⟨some w, true⟩ ∧ w ∈ reg q ∧ (∀ r', (w, r') ∉ busy q) ∧ w.Can r.headers ∧
        busy q' = (w, r) ::ₘ busy q ∧ que q' = que q) ∨
     (res = ⟨none, true⟩ ∧ (∃ w ∈ reg q, w.Can r.headers) ∧
        busy q' = busy q ∧ que q' = r ::ₘ que q) ∨
     (res = ⟨none, false⟩ ∧ (∀ w ∈ reg q, w.checkHeaders r.headers = .ok false) ∧
        busy q' = busy q ∧ que q' = que q))
  enqueue_error : ∀ {q : Q} (now : Int) {r : Req} {e : Exn}, Inv q →
    enqueueRequest q now r = .error e → ∃ w ∈ reg q, w.checkHeaders r.headers = .error e

end Broker
