import Verif.RK.Trees
import Mathlib.Analysis.Analytic.Basic
import Mathlib.Analysis.Calculus.MeanValue
import Mathlib.Analysis.Calculus.Deriv.Pow
import Mathlib.Analysis.Calculus.TaylorIntegral
import Mathlib.Analysis.Calculus.Deriv.Prod

/-! # Expansion of Runge-Kutta methods and of exact solutions over trees -/

namespace Verif.RK

open Asymptotics Filter Topology
open scoped BigOperators

variable {E : Type} [NormedAddCommGroup E] [NormedSpace ℝ E]

/-- Elementary differential of a tree for the Taylor coefficients `P` of the right-hand side. -/
noncomputable def Fdiff (P : FormalMultilinearSeries ℝ E E) (t : Tree) : E :=
  P t.children.length (fun i => Fdiff P (t.children.get i))
termination_by t.size
decreasing_by exact Tree.size_child (List.get_mem _ _)

theorem Fdiff_ofFn (P : FormalMultilinearSeries ℝ E E) {m : Nat} (r : Fin m → Tree) :
    Fdiff P (Tree.ofChildren (List.ofFn r)) = P m (fun i => Fdiff P (r i)) := by
  rw [Fdiff]
  have key : ∀ (l : List Tree) (hl : l = List.ofFn r),
      P l.length (fun i => Fdiff P (l.get i)) = P m (fun i => Fdiff P (r i)) := by
    intro l hl
    subst hl
    have hlen : (List.ofFn r).length = m := List.length_ofFn
    have : ∀ (n : Nat) (hn : n = m) (g : Fin n → E) (g' : Fin m → E),
        (∀ i : Fin n, g i = g' (Fin.cast hn i)) → P n g = P m g' := by
      rintro n rfl g g' hg
      congr 1
      funext i
      exact hg i
    apply this _ hlen
    intro i
    rw [List.get_ofFn]
  exact key _ (Tree.children_ofChildren _)

theorem pow_isBigO {m n : Nat} (h : n ≤ m) :
    (fun h : ℝ => h ^ m) =O[𝓝 0] (fun h : ℝ => h ^ n) := by
  refine IsBigO.of_bound 1 ?_
  have : ∀ᶠ h : ℝ in 𝓝 0, ‖h‖ < 1 := by
    have := Metric.ball_mem_nhds (0 : ℝ) one_pos
    filter_upwards [this] with h hh
    simpa using hh
  filter_upwards [this] with x hx
  rw [norm_pow, norm_pow, one_mul]
  exact pow_le_pow_of_le_one (norm_nonneg _) hx.le h

/-- A term `c h^m v` is of order `h^n` for `n ≤ m`. -/
theorem term_isBigO {m n : Nat} (h : n ≤ m) (c : ℝ) (v : E) :
    (fun h : ℝ => (h ^ m * c) • v) =O[𝓝 0] (fun h : ℝ => h ^ n) := by
  have h1 : (fun h : ℝ => (h ^ m * c) • v) =O[𝓝 0] (fun h : ℝ => h ^ m) := by
    refine IsBigO.of_bound (|c| * ‖v‖) (Eventually.of_forall fun x => ?_)
    rw [norm_smul, norm_mul, Real.norm_eq_abs c]
    exact le_of_eq (by ring)
  exact h1.trans (pow_isBigO h)

/-- Partial sums over trees. -/
noncomputable def bsum (P : FormalMultilinearSeries ℝ E E) (w : Tree → ℝ) (n : Nat) (h : ℝ) : E :=
  ∑ t ∈ Tree.upTo n, (h ^ t.size * w t) • Fdiff P t

/-- Derivative form: sum with one power of `h` less. -/
noncomputable def bsum' (P : FormalMultilinearSeries ℝ E E) (w : Tree → ℝ) (n : Nat) (h : ℝ) : E :=
  ∑ t ∈ Tree.upTo n, (h ^ (t.size - 1) * w t) • Fdiff P t

theorem bsum_isBigO (P : FormalMultilinearSeries ℝ E E) (w : Tree → ℝ) (n : Nat) :
    bsum P w n =O[𝓝 0] (fun h : ℝ => h ^ 1) := by
  unfold bsum
  apply IsBigO.fun_sum
  intro t _
  exact term_isBigO (Tree.size_pos t) _ _

/-- Sums over more trees differ in higher order. -/
theorem bsum_sub (P : FormalMultilinearSeries ℝ E E) (w : Tree → ℝ) {n m : Nat} (h : n ≤ m) :
    (fun x => bsum P w m x - bsum P w n x) =O[𝓝 0] (fun h : ℝ => h ^ (n + 1)) := by
  have hsub : Tree.upTo n ⊆ Tree.upTo m := by
    intro t ht
    simp only [Tree.mem_upTo] at *; omega
  have : ∀ x, bsum P w m x - bsum P w n x
      = ∑ t ∈ Tree.upTo m \ Tree.upTo n, (x ^ t.size * w t) • Fdiff P t := by
    intro x
    unfold bsum
    rw [← Finset.sum_sdiff hsub, add_sub_cancel_right]
  simp only [this]
  apply IsBigO.fun_sum
  intro t ht
  simp only [Finset.mem_sdiff, Tree.mem_upTo] at ht
  exact term_isBigO (by omega) _ _

theorem multilinear_sub_isBigO {m : Nat} (G : E [×m]→L[ℝ] E) {z b : ℝ → E} {q : Nat}
    (hz : z =O[𝓝 0] (fun h : ℝ => h ^ 1)) (hb : b =O[𝓝 0] (fun h : ℝ => h ^ 1))
    (hzb : (fun h => z h - b h) =O[𝓝 0] (fun h : ℝ => h ^ q)) :
    (fun h => G (fun _ => z h) - G (fun _ => b h)) =O[𝓝 0] (fun h : ℝ => h ^ q) := by
  have small : ∀ {u : ℝ → E}, u =O[𝓝 0] (fun h : ℝ => h ^ 1) → ∀ᶠ h in 𝓝 0, ‖u h‖ ≤ 1 := by
    intro u hu
    have ht : Tendsto u (𝓝 0) (𝓝 0) := by
      apply hu.trans_tendsto
      have : Tendsto (fun h : ℝ => h ^ 1) (𝓝 0) (𝓝 (0 ^ 1)) := (continuous_pow 1).tendsto 0
      simpa using this
    have := ht (Metric.ball_mem_nhds (0 : E) one_pos)
    filter_upwards [this] with h hh
    have : ‖u h‖ < 1 := by simpa using hh
    exact this.le
  refine IsBigO.trans (IsBigO.of_bound (‖G‖ * m) ?_) hzb
  filter_upwards [small hz, small hb] with h h1 h2
  have := G.norm_image_sub_le (fun _ => z h) (fun _ => b h)
  refine this.trans ?_
  have e1 : max ‖(fun _ : Fin m => z h)‖ ‖(fun _ : Fin m => b h)‖ ≤ 1 := by
    apply max_le
    · exact (pi_norm_le_iff_of_nonneg zero_le_one).2 (fun _ => h1)
    · exact (pi_norm_le_iff_of_nonneg zero_le_one).2 (fun _ => h2)
  have e2 : ‖(fun _ : Fin m => z h) - (fun _ : Fin m => b h)‖ ≤ ‖z h - b h‖ :=
    (pi_norm_le_iff_of_nonneg (norm_nonneg _)).2 (fun _ => le_refl _)
  have e3 : max ‖(fun _ : Fin m => z h)‖ ‖(fun _ : Fin m => b h)‖ ^ (Fintype.card (Fin m) - 1) ≤ 1 :=
    pow_le_one₀ (le_max_of_le_left (norm_nonneg _)) e1
  rw [Fintype.card_fin] at *
  calc _ ≤ ‖G‖ * m * 1 * ‖z h - b h‖ := by gcongr
    _ = _ := by ring

/-- All trees whose root has fewer than `q` subtrees, each with at most `n` vertices. -/
def bigSet (q n : Nat) : Finset (Σ m : Nat, (Fin m → Tree)) :=
  (Finset.range q).sigma (fun m => Fintype.piFinset (fun _ : Fin m => Tree.upTo n))

def toTree (r : Σ m : Nat, (Fin m → Tree)) : Tree := Tree.ofChildren (List.ofFn r.2)

theorem toTree_inj {r s : Σ m : Nat, (Fin m → Tree)} (h : toTree r = toTree s) : r = s := by
  have := congrArg Tree.children h
  simp only [toTree, Tree.children_ofChildren] at this
  exact List.ofFn_inj'.1 this

theorem toTree_surj (t : Tree) : toTree ⟨t.children.length, t.children.get⟩ = t := by
  simp [toTree]

theorem size_toTree (r : Σ m : Nat, (Fin m → Tree)) :
    (toTree r).size = 1 + ∑ i, (r.2 i).size := by
  rw [Tree.size_eq, toTree, Tree.children_ofChildren, List.map_ofFn, List.sum_ofFn]
  rfl

theorem rootProd_toTree (w : Tree → ℝ) (r : Σ m : Nat, (Fin m → Tree)) :
    Tree.rootProd w (toTree r) = ∏ i, w (r.2 i) := by
  rw [Tree.rootProd_eq, toTree, Tree.children_ofChildren, List.map_ofFn, List.prod_ofFn]
  rfl

/-- Expansion of the Taylor polynomial on a sum over trees. -/
theorem expand (P : FormalMultilinearSeries ℝ E E) (w : Tree → ℝ) (q n : Nat) (h : ℝ) :
    P.partialSum q (bsum P w n h)
      = ∑ r ∈ bigSet q n, (h ^ ((toTree r).size - 1) * Tree.rootProd w (toTree r)) •
          Fdiff P (toTree r) := by
  unfold FormalMultilinearSeries.partialSum bigSet
  rw [Finset.sum_sigma]
  apply Finset.sum_congr rfl
  intro m _
  unfold bsum
  rw [show (fun _ : Fin m => ∑ t ∈ Tree.upTo n, (h ^ t.size * w t) • Fdiff P t)
    = fun i : Fin m => ∑ t ∈ (fun _ : Fin m => Tree.upTo n) i, (fun _ : Fin m => fun t : Tree =>
      (h ^ t.size * w t) • Fdiff P t) i t from rfl]
  rw [ContinuousMultilinearMap.map_sum_finset]
  apply Finset.sum_congr rfl
  intro r _
  rw [ContinuousMultilinearMap.map_smul_univ]
  congr 1
  · rw [rootProd_toTree, size_toTree, Finset.prod_mul_distrib, Finset.prod_pow_eq_pow_sum]
    simp
  · exact (Fdiff_ofFn P r).symm

/-- Splitting off the trees with at most `q` vertices. -/
theorem expand_split (P : FormalMultilinearSeries ℝ E E) (w : Tree → ℝ) (q n : Nat)
    (hn : q ≤ n + 1) :
    (fun h => P.partialSum q (bsum P w n h) - bsum' P (Tree.rootProd w) q h)
      =O[𝓝 0] (fun h : ℝ => h ^ q) := by
  have h1 : ∀ h, bsum' P (Tree.rootProd w) q h
      = ∑ r ∈ (bigSet q n).filter (fun r => (toTree r).size ≤ q),
        (h ^ ((toTree r).size - 1) * Tree.rootProd w (toTree r)) • Fdiff P (toTree r) := by
    intro h
    unfold bsum'
    symm
    apply Finset.sum_bij (fun r _ => toTree r)
    · intro r hr
      rw [Finset.mem_filter] at hr
      simpa using hr.2
    · intro r _ s _ hrs
      exact toTree_inj hrs
    · intro t ht
      rw [Tree.mem_upTo] at ht
      refine ⟨⟨t.children.length, t.children.get⟩, ?_, toTree_surj t⟩
      rw [Finset.mem_filter, toTree_surj]
      refine ⟨?_, ht⟩
      unfold bigSet
      rw [Finset.mem_sigma, Finset.mem_range, Fintype.mem_piFinset]
      refine ⟨?_, ?_⟩
      · have := Tree.length_children t
        simp only; omega
      · intro i
        rw [Tree.mem_upTo]
        have := Tree.size_child (List.get_mem t.children i)
        simp only; omega
    · intro r _
      rfl
  have h2 : ∀ h, P.partialSum q (bsum P w n h) - bsum' P (Tree.rootProd w) q h
      = ∑ r ∈ (bigSet q n).filter (fun r => ¬ (toTree r).size ≤ q),
        (h ^ ((toTree r).size - 1) * Tree.rootProd w (toTree r)) • Fdiff P (toTree r) := by
    intro h
    rw [expand, h1, ← Finset.sum_filter_add_sum_filter_not (bigSet q n)
      (fun r => (toTree r).size ≤ q), add_sub_cancel_left]
  simp only [h2]
  apply IsBigO.fun_sum
  intro r hr
  rw [Finset.mem_filter] at hr
  exact term_isBigO (by omega) _ _

/-- `f` has the Taylor polynomial of `P` at `x₀` with remainder of order `q`. -/
def TaylorAt (f : E → E) (P : FormalMultilinearSeries ℝ E E) (x₀ : E) (q : Nat) : Prop :=
  (fun z => f (x₀ + z) - P.partialSum q z) =O[𝓝 0] (fun z => ‖z‖ ^ q)

/-- Composition of the right-hand side with a curve known up to order `q`. -/
theorem compose {f : E → E} {P : FormalMultilinearSeries ℝ E E} {x₀ : E} {q n : Nat}
    (hf : TaylorAt f P x₀ q) (hq : 1 ≤ q) (hn : q ≤ n + 1) (w : Tree → ℝ) {z : ℝ → E}
    (hz : (fun h => z h - bsum P w n h) =O[𝓝 0] (fun h : ℝ => h ^ q)) :
    (fun h => f (x₀ + z h) - bsum' P (Tree.rootProd w) q h) =O[𝓝 0] (fun h : ℝ => h ^ q) := by
  have hb := bsum_isBigO P w n
  have hz1 : z =O[𝓝 0] (fun h : ℝ => h ^ 1) := by
    have := (hz.trans (pow_isBigO hq)).add hb
    simpa using this
  have hz0 : Tendsto z (𝓝 0) (𝓝 0) := by
    apply hz1.trans_tendsto
    have : Tendsto (fun h : ℝ => h ^ 1) (𝓝 0) (𝓝 (0 ^ 1)) := (continuous_pow 1).tendsto 0
    simpa using this
  have s1 : (fun h => f (x₀ + z h) - P.partialSum q (z h)) =O[𝓝 0] (fun h : ℝ => h ^ q) := by
    have := hf.comp_tendsto hz0
    have h2 : (fun h => ‖z h‖ ^ q) =O[𝓝 0] (fun h : ℝ => (h ^ 1) ^ q) := hz1.norm_left.pow q
    simp only [pow_one] at h2
    exact IsBigO.trans this h2
  have s2 : (fun h => P.partialSum q (z h) - P.partialSum q (bsum P w n h))
      =O[𝓝 0] (fun h : ℝ => h ^ q) := by
    unfold FormalMultilinearSeries.partialSum
    simp only [← Finset.sum_sub_distrib]
    apply IsBigO.fun_sum
    intro m _
    exact multilinear_sub_isBigO (P m) hz1 hb hz
  have s3 := expand_split P w q n hn
  have := (s1.add s2).add s3
  refine this.congr_left (fun h => ?_)
  abel

/-- Remainders of lower order. -/
theorem TaylorAt.mono {f : E → E} {P : FormalMultilinearSeries ℝ E E} {x₀ : E} {p q : Nat}
    (hf : TaylorAt f P x₀ q) (h : p ≤ q) : TaylorAt f P x₀ p := by
  have hpow : ∀ m, p ≤ m → (fun z : E => ‖z‖ ^ m) =O[𝓝 0] (fun z : E => ‖z‖ ^ p) := by
    intro m hm
    have : Tendsto (fun z : E => ‖z‖) (𝓝 0) (𝓝 0) := by simpa using (continuous_norm (E := E)).tendsto 0
    exact (pow_isBigO hm).comp_tendsto this
  have h1 : (fun z => P.partialSum q z - P.partialSum p z) =O[𝓝 0] (fun z : E => ‖z‖ ^ p) := by
    have : ∀ z, P.partialSum q z - P.partialSum p z = ∑ m ∈ Finset.Ico p q, P m (fun _ => z) := by
      intro z
      unfold FormalMultilinearSeries.partialSum
      rw [← Finset.sum_Ico_eq_sub _ h]
    simp only [this]
    apply IsBigO.fun_sum
    intro m hm
    rw [Finset.mem_Ico] at hm
    refine IsBigO.trans ?_ (hpow m hm.1)
    refine IsBigO.of_bound ‖P m‖ (Eventually.of_forall fun z => ?_)
    have := (P m).le_opNorm (fun _ => z)
    simpa using this
  have := (IsBigO.trans hf (hpow q h)).add h1
  refine this.congr_left (fun z => ?_)
  abel

/-! ### Runge-Kutta stages -/

/-- Expansion of the stage derivatives `k i` of an explicit method. -/
theorem stage_expand {f : E → E} {P : FormalMultilinearSeries ℝ E E} {x₀ : E} {q : Nat}
    (hf : TaylorAt f P x₀ q) (hq : 1 ≤ q) (A : Nat → Nat → ℝ) (k : Nat → ℝ → E) (s : Nat)
    (hk : ∀ i, i < s → ∀ h, k i h = f (x₀ + h • ∑ j ∈ Finset.range i, A i j • k j h))
    (i : Nat) (hi : i < s) :
    (fun h => k i h - bsum' P (fun t => Tree.eta A t i) q h) =O[𝓝 0] (fun h : ℝ => h ^ q) := by
  induction i using Nat.strong_induction_on with
  | _ i ih =>
    set w : Tree → ℝ := fun t => ∑ j ∈ Finset.range i, A i j * Tree.eta A t j with hw
    have hz : (fun h => h • ∑ j ∈ Finset.range i, A i j • k j h - bsum P w q h)
        =O[𝓝 0] (fun h : ℝ => h ^ q) := by
      have h1 : ∀ h : ℝ, bsum P w q h = h • ∑ j ∈ Finset.range i,
          A i j • bsum' P (fun t => Tree.eta A t j) q h := by
        intro h
        unfold bsum bsum'
        simp only [Finset.smul_sum]
        rw [Finset.sum_comm]
        apply Finset.sum_congr rfl
        intro t _
        simp only [smul_smul]
        rw [← Finset.sum_smul]
        congr 1
        rw [hw, Finset.mul_sum]
        apply Finset.sum_congr rfl
        intro j _
        obtain ⟨m, hm⟩ : ∃ m, t.size = m + 1 := ⟨t.size - 1, by have := Tree.size_pos t; omega⟩
        rw [hm, Nat.add_sub_cancel, pow_succ]
        ring
      have h2 : ∀ h : ℝ, h • ∑ j ∈ Finset.range i, A i j • k j h - bsum P w q h
          = h • ∑ j ∈ Finset.range i, A i j • (k j h - bsum' P (fun t => Tree.eta A t j) q h) := by
        intro h
        rw [h1, ← smul_sub, ← Finset.sum_sub_distrib]
        simp only [smul_sub]
      simp only [h2]
      have h3 : (fun h : ℝ => ∑ j ∈ Finset.range i,
          A i j • (k j h - bsum' P (fun t => Tree.eta A t j) q h)) =O[𝓝 0] (fun h : ℝ => h ^ q) := by
        apply IsBigO.fun_sum
        intro j hj
        rw [Finset.mem_range] at hj
        exact (ih j hj (by omega)).const_smul_left _
      have h4 := (isBigO_refl (fun h : ℝ => h) (𝓝 0)).smul h3
      simp only [smul_eq_mul, ← pow_succ'] at h4
      exact h4.trans (pow_isBigO (by omega))
    have := compose hf hq (Nat.le_succ q) w hz
    refine this.congr_left (fun h => ?_)
    rw [hk i hi]
    congr 2
    funext t
    rw [hw, Tree.eta_eq]

/-- Expansion of an output of an explicit method. -/
theorem output_expand {f : E → E} {P : FormalMultilinearSeries ℝ E E} {x₀ : E} {q : Nat}
    (hf : TaylorAt f P x₀ q) (hq : 1 ≤ q) (A : Nat → Nat → ℝ) (b : Nat → ℝ) (k : Nat → ℝ → E)
    (s : Nat) (hk : ∀ i, i < s → ∀ h, k i h = f (x₀ + h • ∑ j ∈ Finset.range i, A i j • k j h)) :
    (fun h => h • ∑ i ∈ Finset.range s, b i • k i h - bsum P (Tree.weight A b s) q h)
      =O[𝓝 0] (fun h : ℝ => h ^ (q + 1)) := by
  have h1 : ∀ h : ℝ, bsum P (Tree.weight A b s) q h = h • ∑ i ∈ Finset.range s,
      b i • bsum' P (fun t => Tree.eta A t i) q h := by
    intro h
    unfold bsum bsum'
    simp only [Finset.smul_sum]
    rw [Finset.sum_comm]
    apply Finset.sum_congr rfl
    intro t _
    simp only [smul_smul]
    rw [← Finset.sum_smul]
    congr 1
    rw [Tree.weight, Finset.mul_sum]
    apply Finset.sum_congr rfl
    intro j _
    obtain ⟨m, hm⟩ : ∃ m, t.size = m + 1 := ⟨t.size - 1, by have := Tree.size_pos t; omega⟩
    rw [hm, Nat.add_sub_cancel, pow_succ]
    ring
  have h2 : ∀ h : ℝ, h • ∑ i ∈ Finset.range s, b i • k i h - bsum P (Tree.weight A b s) q h
      = h • ∑ i ∈ Finset.range s, b i • (k i h - bsum' P (fun t => Tree.eta A t i) q h) := by
    intro h
    rw [h1, ← smul_sub, ← Finset.sum_sub_distrib]
    simp only [smul_sub]
  simp only [h2]
  have h3 : (fun h : ℝ => ∑ i ∈ Finset.range s,
      b i • (k i h - bsum' P (fun t => Tree.eta A t i) q h)) =O[𝓝 0] (fun h : ℝ => h ^ q) := by
    apply IsBigO.fun_sum
    intro j hj
    rw [Finset.mem_range] at hj
    exact (stage_expand hf hq A k s hk j hj).const_smul_left _
  have h4 := (isBigO_refl (fun h : ℝ => h) (𝓝 0)).smul h3
  simp only [smul_eq_mul, ← pow_succ'] at h4
  exact h4

/-! ### Exact solution -/

/-- Antiderivative of an order bound. -/
theorem integrate_isBigO {φ φ' : ℝ → E} {m : Nat} (h0 : φ 0 = 0)
    (hd : ∀ᶠ h in 𝓝 0, HasDerivAt φ (φ' h) h) (hb : φ' =O[𝓝 0] (fun h : ℝ => h ^ m)) :
    φ =O[𝓝 0] (fun h : ℝ => h ^ (m + 1)) := by
  obtain ⟨C, hC0, hC⟩ := hb.exists_nonneg
  obtain ⟨ε, hε, hball⟩ := Metric.eventually_nhds_iff_ball.1 (hd.and hC.bound)
  refine IsBigO.of_bound C ?_
  filter_upwards [Metric.ball_mem_nhds (0 : ℝ) hε] with h hh
  have hh' : |h| < ε := by simpa using hh
  have habs : ∀ u ∈ Set.uIcc 0 h, |u| ≤ |h| := by
    intro u hu
    rcases le_total 0 h with h1 | h1
    · rw [Set.uIcc_of_le h1] at hu
      rw [abs_of_nonneg hu.1, abs_of_nonneg h1]; exact hu.2
    · rw [Set.uIcc_of_ge h1] at hu
      rw [abs_of_nonpos hu.2, abs_of_nonpos h1]; linarith [hu.1]
  have hsub : Set.uIcc 0 h ⊆ Metric.ball (0 : ℝ) ε := by
    intro u hu
    rw [Metric.mem_ball, Real.dist_0_eq_abs]
    linarith [habs u hu]
  have hbound : ∀ u ∈ Set.uIcc 0 h, ‖φ' u‖ ≤ C * |h| ^ m := by
    intro u hu
    have h1 := (hball u (hsub hu)).2
    rw [norm_pow, Real.norm_eq_abs] at h1
    have := habs u hu
    exact h1.trans (by gcongr)
  have := (convex_uIcc (0 : ℝ) h).norm_image_sub_le_of_norm_hasDerivWithin_le
    (fun u hu => (hball u (hsub hu)).1.hasDerivWithinAt) hbound Set.left_mem_uIcc Set.right_mem_uIcc
  rw [h0, sub_zero, sub_zero] at this
  rw [norm_pow, Real.norm_eq_abs, pow_succ, ← mul_assoc]
  exact this

theorem bsum_hasDerivAt (P : FormalMultilinearSeries ℝ E E) (g : Tree → ℝ) (n : Nat) (h : ℝ) :
    HasDerivAt (bsum P (fun t => g t / t.size) n) (bsum' P g n h) h := by
  unfold bsum bsum'
  apply HasDerivAt.fun_sum
  intro t _
  apply HasDerivAt.smul_const
  have h1 := (hasDerivAt_pow t.size h).mul_const (g t / t.size)
  refine h1.congr_deriv ?_
  have : (t.size : ℝ) ≠ 0 := by
    have := Tree.size_pos t
    positivity
  field_simp

/-- Expansion of the exact solution. -/
theorem exact_expand {f : E → E} {P : FormalMultilinearSeries ℝ E E} {x₀ : E} {q : Nat}
    (hf : TaylorAt f P x₀ q) (y : ℝ → E) (h0 : y 0 = x₀)
    (hy : ∀ᶠ h in 𝓝 0, HasDerivAt y (f (y h)) h) (n : Nat) (hn : n ≤ q) :
    (fun h => y h - x₀ - bsum P Tree.exact n h) =O[𝓝 0] (fun h : ℝ => h ^ (n + 1)) := by
  induction n with
  | zero =>
    have hd := hy.self_of_nhds
    have h1 : (fun h => y h - x₀) =O[𝓝 0] (fun h : ℝ => h) := by
      have := hd.isBigO_sub
      rw [h0] at this
      simpa using this
    refine h1.congr' (Eventually.of_forall fun h => ?_) (Eventually.of_forall fun h => ?_)
    · have : Tree.upTo 0 = ∅ := by
        ext t; have := Tree.size_pos t; simp; omega
      simp [bsum, this]
    · simp
  | succ n ih =>
    have h1 := ih (by omega)
    have h2 := compose (hf.mono hn) (by omega) (le_refl _) Tree.exact h1
    apply integrate_isBigO (φ' := fun h => f (y h) - bsum' P Tree.exactG (n + 1) h)
    · rw [h0, sub_self, zero_sub, neg_eq_zero]
      unfold bsum
      apply Finset.sum_eq_zero
      intro t _
      have := Tree.size_pos t
      rw [zero_pow (by omega), zero_mul, zero_smul]
    · filter_upwards [hy] with h hh
      exact (hh.sub_const x₀).sub (bsum_hasDerivAt P Tree.exactG (n + 1) h)
    · refine h2.congr_left (fun h => ?_)
      rw [add_sub_cancel]
      congr 2
      funext t
      rw [Tree.exactG_eq]

end Verif.RK
