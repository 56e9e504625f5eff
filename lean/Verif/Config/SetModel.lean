import Verif.Config.Model

/-
Model of `setValue` of OdeSolverConfiguration (infra/ComponentConfiguration.h:52-58, 108-116) with the parameters of all classes
of the library.

Simplifications:
 * exceptions for paths at which there is nothing are told apart by kind only;
 * the configuration has asked for no parameters since its last change, or for those of its component: what an exception
   leaves behind is treated in Infra/ParamsModel.lean (`Infra.Cfg.setValue`);
 * a path is a list of names, see Infra/ParamsModel.lean for formatted paths.
-/

namespace Verif.Config

open Verif.Infra

/-- `value(root, path) = v` (infra/OptionalParameters.h:191-204, 220-231; infra/ComponentConfiguration.h:111) -/
def Params.assign : Params → List String → Tree → Res Params
  | _, [], _ => .error (.exc "Value path is empty")
  | P, [k], v => match findKV k P with
    | none => .error (.exc "value is not found")
    | some _ => .ok (P.put k v)
  | P, k :: l, v => match findKV k P with
    | none => .error (.exc "item is not found")
    | some (.node _ none) => .error (.exc "item is a leaf")
    | some (.node t (some Q)) => do
      let Q ← Params.assign Q l v
      .ok (P.put k (.node t (some Q)))

/-- A value to be set, as it is given to constructors of `Value` (infra/OptionalParameters.h:72-92) -/
inductive Val (R : Type) where
  | num (x : R)
  | nat (n : Nat)
  | int (n : Int)
  | flag (b : Bool)
  | word (t : Text)

section
variable {R : Type} [Field R]

/-- The text of a value (infra/OptionalParameters.h:72-92) -/
def Val.text (F : Fmt R) : Val R → Text
  | .num x => F.put x
  | .nat n => ofUnsigned n
  | .int n => ofInt n
  | .flag b => ofBool b
  | .word t => t

/-- `setValue` (infra/ComponentConfiguration.h:108-116) -/
def Provider.setValue (F : Fmt R) (p : Provider R) (path : List String) (v : Val R) : Res (Provider R) := do
  let P ← p.params F
  let P ← P.assign path (leaf (v.text F))
  p.set F P

end

end Verif.Config
