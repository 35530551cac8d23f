import Verif.Model.Handler
import Verif.Proof.Matching

/-! # Weakest preconditions for handler computations -/

namespace Broker

variable {Q α β : Type}

/-- `m` started in `s` ends normally with `R` or abnormally with `E`. -/
def wp (m : HM Q α) (s : HState Q) (R : α → HState Q → Prop) (E : Err → HState Q → Prop) : Prop :=
  match m s with
  | .ok a s' => R a s'
  | .error e s' => E e s'

theorem wp_pure {a : α} {s : HState Q} {R E} : wp (pure a : HM Q α) s R E ↔ R a s := Iff.rfl

theorem wp_bind {m : HM Q α} {f : α → HM Q β} {s : HState Q} {R E} :
    wp (m >>= f) s R E ↔ wp m s (fun a s' => wp (f a) s' R E) E := by
  simp only [wp, bind, EStateM.bind]
  cases m s <;> simp

theorem wp_map {m : HM Q α} {f : α → β} {s : HState Q} {R E} :
    wp (f <$> m) s R E ↔ wp m s (fun a s' => R (f a) s') E := by
  simp only [wp, Functor.map, EStateM.map]
  cases m s <;> simp

theorem wp_get {s : HState Q} {R E} : wp (get : HM Q (HState Q)) s R E ↔ R s s := Iff.rfl

theorem wp_set {s t : HState Q} {R E} : wp (set t : HM Q PUnit) s R E ↔ R ⟨⟩ t := Iff.rfl

theorem wp_modify {f : HState Q → HState Q} {s : HState Q} {R E} :
    wp (modify f : HM Q PUnit) s R E ↔ R ⟨⟩ (f s) := Iff.rfl

theorem wp_undef {u : UB} {s : HState Q} {R : α → HState Q → Prop} {E} :
    wp (undef u : HM Q α) s R E ↔ E (.ub u) s := Iff.rfl

theorem wp_raise {e : Exn} {s : HState Q} {R : α → HState Q → Prop} {E} :
    wp (raise e : HM Q α) s R E ↔ E (.exn e) s := Iff.rfl

theorem wp_liftE {x : Except Exn α} {s : HState Q} {R E} :
    wp (liftE x : HM Q α) s R E ↔
      match x with
      | .ok a => R a s
      | .error e => E (.exn e) s := by
  cases x <;> rfl

theorem wp_respond {k i : String} {d : List String} {s : HState Q} {R E} :
    wp (respond k i d : HM Q Unit) s R E ↔ R () { s with outs := s.outs ++ [⟨k, i, d⟩] } := Iff.rfl

theorem wp_mono {m : HM Q α} {s : HState Q} {R R' : α → HState Q → Prop}
    {E E' : Err → HState Q → Prop} (h : wp m s R E) (hR : ∀ a s', R a s' → R' a s')
    (hE : ∀ e s', E e s' → E' e s') : wp m s R' E' := by
  unfold wp at *
  cases hm : m s with
  | ok a s' => rw [hm] at h; exact hR _ _ h
  | error e s' => rw [hm] at h; exact hE _ _ h

theorem wp_ok {m : HM Q α} {s : HState Q} {R : α → HState Q → Prop} {E} (h : wp m s R E)
    {a : α} {s' : HState Q} (hm : m s = .ok a s') : R a s' := by
  unfold wp at h; rw [hm] at h; exact h

theorem wp_err {m : HM Q α} {s : HState Q} {R : α → HState Q → Prop} {E} (h : wp m s R E)
    {e : Err} {s' : HState Q} (hm : m s = .error e s') : E e s' := by
  unfold wp at h; rw [hm] at h; exact h

end Broker
