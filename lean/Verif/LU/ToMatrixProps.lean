import Verif.LU.Props
import Verif.Witness

/-! # `luToMatrix` misses elements after secant updates -/

namespace Verif.LU

/-- C62 is false after secant updates when the stencil violates the fill condition: after an update of the matrix
`fillin` the factorizer represents a matrix with the element -1/2 at (1, 2), and the matrix returned has none there. -/
theorem C62_false : ∃ st st' out, Stencil 3 fillin ∧ Distinct fillin ∧ DiagReach 3 fillin ∧
    setMatrix new fillin = .ok st ∧ secantUpdateHart st [1, 1, 1] [1, 2, 3] = .ok st' ∧ luToMatrix st' = .ok out ∧
    elementAt st' 1 2 = .ok (-1 / 2) ∧ entry out 1 2 = 0 := by
  obtain ⟨st, h1, h2⟩ := Verif.Res.exists_of_test (r := setMatrix new fillin) (p := fun st =>
    match secantUpdateHart st [1, 1, 1] [1, 2, 3] with
    | .ok st' => match luToMatrix st' with
      | .ok out => decide (elementAt st' 1 2 = .ok (-1 / 2) ∧ entry out 1 2 = 0)
      | _ => false
    | _ => false) (by decide +kernel)
  split at h2
  · rename_i st' e1
    split at h2
    · rename_i out e2
      obtain ⟨h3, h4⟩ := of_decide_eq_true h2
      refine ⟨st, st', out, fillin_stencil, fillin_distinct, ?_, h1, e1, e2, h3, h4⟩
      intro i hi
      simp only [key_iff]
      interval_cases i
      exacts [⟨0, by decide⟩, ⟨1, by decide⟩, ⟨2, by decide⟩]
    · cases h2
  · cases h2

end Verif.LU
