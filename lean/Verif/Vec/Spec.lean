import Verif.Vec.Model

/-! # What vector operations should compute -/

namespace Verif.Vec

variable {K : Type} [CommRing K]

/-- Value of an operand; none if some block in it is not inside its vector. -/
def Src.val (mem : List K) : Src K → Option (List K)
  | .self => some mem
  | .vec l => some l
  | .block s start n =>
    match s.val mem with
    | some v => if start + n ≤ v.length then some ((v.drop start).take n) else none
    | none => none
  | .scale s c => (s.val mem).map (fun v => v.map (· * c))

/-- Where the first element of the operand lies in the vector being changed; none if the operand
is made from another vector. -/
def Src.origin : Src K → Option Nat
  | .self => some 0
  | .vec _ => none
  | .block s start _ => s.origin.map (· + start)
  | .scale s _ => s.origin

/-- The operand has no blocks. -/
def Src.whole : Src K → Bool
  | .self => true
  | .vec _ => true
  | .block _ _ _ => false
  | .scale s _ => s.whole

/-- The operand may be read while `t` is overwritten from the beginning: it is made from another
vector, or does not start before `t`, or ends before `t`. -/
def Src.safe (t : Tgt) (s : Src K) : Prop :=
  ∀ o, s.origin = some o → t.start ≤ o ∨ o + t.size ≤ t.start

/-- `mem'` is `mem` with elements `0..k-1` of the target replaced by `g old operand`. -/
def Updated (g : K → K → K) (mem : List K) (t : Tgt) (v : List K) (k : Nat) (mem' : List K) :
    Prop :=
  mem'.length = mem.length ∧ ∀ j, mem'.getD j 0 =
    if t.start ≤ j ∧ j < t.start + k then g (mem.getD j 0) (v.getD (j - t.start) 0)
    else mem.getD j 0

end Verif.Vec
