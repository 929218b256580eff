import Verif.Model.Api

/-! Small general lemmas about `Except` and lists. -/

namespace Mctp

theorem Res.bind_eq_ok {α γ : Type} {x : Res α} {f : α → Res γ} {b : γ} :
    (x >>= f) = .ok b ↔ ∃ a, x = .ok a ∧ f a = .ok b := by
  cases x <;> simp [bind, Except.bind]

theorem Res.bind_ok {α γ : Type} (a : α) (f : α → Res γ) :
    ((Except.ok a : Res α) >>= f) = f a := rfl

theorem Res.bind_error {α γ : Type} (e : Fault) (f : α → Res γ) :
    ((Except.error e : Res α) >>= f) = .error e := rfl

theorem Res.pure_eq {α : Type} (a : α) : (pure a : Res α) = .ok a := rfl
theorem Res.throw_eq {α : Type} (e : Fault) : (throw e : Res α) = .error e := rfl

end Mctp
