import Mathlib.Algebra.BigOperators.Group.Finset.Basic
import Mathlib.Algebra.BigOperators.Fin
import Mathlib.Algebra.BigOperators.Ring.Finset
import Mathlib.Algebra.Field.Basic
import Mathlib.Data.List.OfFn
import Mathlib.Tactic.Ring

/-! # Ordered rooted trees and elementary weights

A rooted tree with ordered subtrees `[t₁, …, tₘ]` is encoded as `graft t₁ [t₂, …, tₘ]`. -/

namespace Verif.RK

/-- Ordered rooted trees. -/
inductive Tree where
  | leaf : Tree
  | graft (t u : Tree) : Tree
  deriving DecidableEq, Repr

namespace Tree

/-- Number of vertices. -/
def size : Tree → Nat
  | leaf => 1
  | graft t u => t.size + u.size

/-- Subtrees hanging off the root. -/
def children : Tree → List Tree
  | leaf => []
  | graft t u => t :: u.children

def ofChildren : List Tree → Tree
  | [] => leaf
  | t :: l => graft t (ofChildren l)

theorem size_pos (t : Tree) : 1 ≤ t.size := by
  induction t with
  | leaf => exact le_refl 1
  | graft t u h1 h2 => simp only [size]; omega

@[simp] theorem children_ofChildren (l : List Tree) : (ofChildren l).children = l := by
  induction l with
  | nil => rfl
  | cons t l ih => simp [ofChildren, children, ih]

@[simp] theorem ofChildren_children (t : Tree) : ofChildren t.children = t := by
  induction t with
  | leaf => rfl
  | graft t u _ ih => simp [ofChildren, children, ih]

theorem size_eq (t : Tree) : t.size = 1 + (t.children.map size).sum := by
  induction t with
  | leaf => rfl
  | graft t u _ ih => simp only [size, children, List.map_cons, List.sum_cons]; omega

theorem size_child {t c : Tree} (h : c ∈ t.children) : c.size < t.size := by
  induction t with
  | leaf => simp [children] at h
  | graft t u _ ih =>
    simp only [children, List.mem_cons] at h
    simp only [size]
    rcases h with rfl | h
    · have := size_pos u; omega
    · have := ih h; omega

theorem length_children (t : Tree) : t.children.length < t.size := by
  induction t with
  | leaf => simp [children, size]
  | graft t u _ ih =>
    simp only [children, size, List.length_cons]
    have := size_pos t; omega

/-- All trees with at most `n` vertices (by fuel on the depth of the encoding). -/
def listUpTo : Nat → List Tree
  | 0 => []
  | n + 1 => leaf :: ((listUpTo n).flatMap (fun t =>
      ((listUpTo n).filter (fun u => t.size + u.size ≤ n + 1)).map (fun u => graft t u)))

theorem mem_listUpTo {n : Nat} {t : Tree} : t ∈ listUpTo n ↔ t.size ≤ n := by
  induction n generalizing t with
  | zero =>
    have := size_pos t
    simp only [listUpTo, List.not_mem_nil, false_iff]; omega
  | succ n ih =>
    cases t with
    | leaf => simp [listUpTo, size]
    | graft t u =>
      simp only [listUpTo, List.mem_cons, List.mem_flatMap, List.mem_map,
        List.mem_filter, ih, decide_eq_true_eq, reduceCtorEq, false_or, size]
      constructor
      · rintro ⟨t', _, u', ⟨_, h⟩, he⟩
        cases he
        exact h
      · intro h
        have h1 := size_pos t
        have h2 := size_pos u
        exact ⟨t, by omega, u, ⟨by omega, h⟩, rfl⟩

/-- The finite set of trees with at most `n` vertices. -/
def upTo (n : Nat) : Finset Tree := (listUpTo n).toFinset

@[simp] theorem mem_upTo {n : Nat} {t : Tree} : t ∈ upTo n ↔ t.size ≤ n := by
  rw [upTo, List.mem_toFinset, mem_listUpTo]

section
variable {R : Type} [CommSemiring R]

/-- Product of a weight over the subtrees of the root. -/
def rootProd (w : Tree → R) : Tree → R
  | leaf => 1
  | graft t u => w t * rootProd w u

theorem rootProd_eq (w : Tree → R) (t : Tree) : rootProd w t = (t.children.map w).prod := by
  induction t with
  | leaf => rfl
  | graft t u _ ih => simp [rootProd, children, ih]

/-- Elementary weights of the stages of an explicit method with coefficients `A i j`, `j < i`. -/
def eta (A : Nat → Nat → R) : Tree → Nat → R
  | leaf, _ => 1
  | graft t u, i => (∑ j ∈ Finset.range i, A i j * eta A t j) * eta A u i

theorem eta_eq (A : Nat → Nat → R) (t : Tree) (i : Nat) :
    eta A t i = rootProd (fun t => ∑ j ∈ Finset.range i, A i j * eta A t j) t := by
  induction t with
  | leaf => rfl
  | graft t u _ ih => simp only [eta, rootProd, ih]

/-- Elementary weight of an output with coefficients `b`. -/
def weight (A : Nat → Nat → R) (b : Nat → R) (s : Nat) (t : Tree) : R :=
  ∑ i ∈ Finset.range s, b i * eta A t i

end

section
variable {R : Type} [Field R]

/-- `|t|` times the coefficient of the elementary differential of `t` in the exact solution. -/
def exactG : Tree → R
  | leaf => 1
  | graft t u => exactG t / (t.size : R) * exactG u

/-- Coefficient of the elementary differential of `t` in the exact solution, `1/γ(t)`:
`|t| e(t)` is the product of `e` over the subtrees. -/
def exact (t : Tree) : R := exactG t / (t.size : R)

theorem exactG_eq (t : Tree) : (exactG t : R) = rootProd exact t := by
  induction t with
  | leaf => rfl
  | graft t u _ ih => simp only [exactG, rootProd, ih]; rfl

/-- The method satisfies the order conditions for all trees with at most `p` vertices. -/
def OrderConditions (A : Nat → Nat → R) (b : Nat → R) (s p : Nat) : Prop :=
  ∀ t : Tree, t.size ≤ p → weight A b s t = exact t

end

end Tree

end Verif.RK
