import Verif.Basic

/-! # Concrete runs -/

namespace Verif.Res

/-- A run evaluated by the kernel: it returns, and its result passes the test `p`. -/
theorem exists_of_test {α : Type} {r : Res α} {p : α → Bool}
    (h : (match r with | .ok a => p a | .error _ => false) = true) :
    ∃ a, r = .ok a ∧ p a = true := by
  cases r with
  | error e => cases h
  | ok a => exact ⟨a, rfl, h⟩

end Verif.Res
