import Verif.Spec.Names
import Verif.Spec.Transcript
import Mathlib.Data.List.Forall2

/-!
# Introductions of workers with other descriptions
-/

namespace Broker.Spec

/-- The frames of an introduction after the headers: nothing, or additional information after an empty
    frame. -/
inductive Details : List String → List String → Prop
  | none : Details [] []
  | some (e : List String) : Details ("" :: e) e

/-- The part of the additional information that is not for people: the last frame with the current
    job. -/
def lastJobFrame (e : List String) : Option String :=
  (e.filter fun f => frameKey f == "current_job").getLast?

/-- Two messages to the broker that are the same except for the additional information of a worker that
    introduces itself; only the current job is the same there. -/
inductive Retitled : Msg → Msg → Prop
  | same (m : Msg) : Retitled m m
  | intro (i g : String) {hs t t' e e' : List String} (hh : ∀ f ∈ hs, f ≠ "") (ht : Details t e)
    (ht' : Details t' e') (hj : lastJobFrame e = lastJobFrame e') :
    Retitled ⟨"workers", i, "init" :: g :: (hs ++ t)⟩ ⟨"workers", i, "init" :: g :: (hs ++ t')⟩

/-- Two messages of the broker that are the same except for the description of a worker in the complaint
    about its second introduction and in the notification about a job lost with it. -/
inductive Titled : Msg → Msg → Prop
  | same (m : Msg) : Titled m m
  | twice (i d d' : String) : Titled (twice (describe i d)) (twice (describe i d'))
  | lost (j i d d' : String) : Titled (lost j (describe i d)) (lost j (describe i d'))

/-- What is seen of the handling of a message. -/
def SameSeen (o o' : List Msg × Option Err) : Prop :=
  List.Forall₂ Titled o.1 o'.1 ∧ o.2 = o'.2

end Broker.Spec
