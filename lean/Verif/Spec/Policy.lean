import Verif.Model.Policy

/-!
# What is expected of a comparator and of a selector

The text in src/queuing/queue_manager_interface.h and the names in src/queuing/single_queue_manager.h
(`IdleWorkerSelector`) are all there is.
-/

namespace Broker

/-- A policy that can be used: sorting gives the same jobs in an order that agrees with the
    comparator; the selector gives an idle worker that can process the request, or none; it throws
    only what the comparison of headers throws. -/
class Policy.Lawful (π : Policy) : Prop where
  perm : ∀ srt w l, (π.order srt w l).Perm l
  sorted : ∀ srt w l, (π.order srt w l).Pairwise (fun a b => π.before w b a = false)
  selects : ∀ {m jobs r w}, π.select m jobs r = .ok (some w) →
    (w, none) ∈ m ∧ w.checkHeaders r.headers = .ok true
  throws : ∀ {m jobs r e}, π.select m jobs r = .error e →
    ∃ p ∈ m, p.1.checkHeaders r.headers = .error e

/-- The selector finds an idle worker whenever there is one that can process the request. -/
class Policy.Eager (π : Policy) : Prop where
  none : ∀ {m jobs r}, π.select m jobs r = .ok Option.none → ∀ w, (w, Option.none) ∈ m →
    w.checkHeaders r.headers = .ok false

end Broker
