/-
Common outcome type of the model.

The C++ code reports problems in three ways that the model keeps apart:
a C++ exception, undefined behaviour (raw out-of-range access, invalid shift, ...),
and a division of reals by zero (IEEE infinities/NaN are outside the exact-arithmetic
model, so the model stops there, except in Verif.Special).
-/

namespace Verif

/-- How a modelled call can fail. -/
inductive Fault where
  /-- `throw cxx::exception(msg)` or a standard library exception. -/
  | exc (msg : String)
  /-- undefined behaviour of the C++ program -/
  | ub
  /-- division of reals by zero -/
  | divZero
  deriving DecidableEq, Repr

/-- Outcome of a modelled call. -/
abbrev Res (α : Type _) := Except Fault α

deriving instance DecidableEq for Except

namespace Res

/-- Access to a raw array (`p[i]`, `std::vector::operator[]`): out of range is undefined. -/
def raw {α : Type _} (l : List α) (i : Nat) : Res α :=
  match l[i]? with
  | some a => .ok a
  | none => .error .ub

/-- Access with `std::vector::at`: out of range throws `std::out_of_range`. -/
def at' {α : Type _} (l : List α) (i : Nat) : Res α :=
  match l[i]? with
  | some a => .ok a
  | none => .error (.exc "out_of_range")

/-- Write to a raw array: out of range is undefined. -/
def rawSet {α : Type _} (l : List α) (i : Nat) (a : α) : Res (List α) :=
  if i < l.length then .ok (l.set i a) else .error .ub

/-- Write with `std::vector::at`: out of range throws. -/
def atSet {α : Type _} (l : List α) (i : Nat) (a : α) : Res (List α) :=
  if i < l.length then .ok (l.set i a) else .error (.exc "out_of_range")

/-- Division of reals; division by zero is a separate outcome. -/
def div {K : Type _} [Div K] [Zero K] [DecidableEq K] (a b : K) : Res K :=
  if b = 0 then .error .divZero else .ok (a / b)

/-- `n` iterations of a loop body, counter starting at `i`. -/
def loopFrom {σ : Type _} (f : Nat → σ → Res σ) : Nat → Nat → σ → Res σ
  | 0, _, s => .ok s
  | n + 1, i, s => f i s >>= fun s' => loopFrom f n (i + 1) s'

/-- `for (i = lo; i < hi; ++i) body`. -/
def loop {σ : Type _} (lo hi : Nat) (f : Nat → σ → Res σ) (s : σ) : Res σ :=
  loopFrom f (hi - lo) lo s

/-- Hoare-style postcondition of an outcome: `P` on success, `E` on failure. -/
def Post {α : Type _} (r : Res α) (P : α → Prop) (E : Fault → Prop) : Prop :=
  match r with
  | .ok a => P a
  | .error e => E e

end Res

end Verif
