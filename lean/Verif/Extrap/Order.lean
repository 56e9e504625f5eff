import Verif.Extrap.GraggPoly
import Verif.Extrap.Gragg
import Verif.RK.Taylor
import Verif.RK.Spec

/-! # Order of extrapolated methods -/

namespace Verif.Extrap

open Asymptotics Filter Topology Verif.RK
open scoped BigOperators
open Finset

section
variable {E : Type} [NormedAddCommGroup E] [NormedSpace ℝ E]

/-- Weighted mean of outputs of explicit methods that together satisfy the order conditions. -/
theorem family_order [CompleteSpace E] {f : ℝ → E → E} {t₀ : ℝ} {x₀ : E} {q : Nat}
    (hf : ContDiffAt ℝ q (fun p : ℝ × E => f p.1 p.2) (t₀, x₀)) (hq : 1 ≤ q)
    (S : Finset Nat) (L : Nat → ℝ) (hL : ∑ m ∈ S, L m = 1)
    (A : Nat → Nat → Nat → ℝ) (b c : Nat → Nat → ℝ) (k : Nat → Nat → ℝ → E) (s : Nat → Nat)
    (hc : ∀ m ∈ S, ∀ i, i < s m → c m i = ∑ j ∈ range i, A m i j)
    (hk : ∀ m ∈ S, ∀ i, i < s m → ∀ h,
      k m i h = f (t₀ + h * c m i) (x₀ + h • ∑ j ∈ range i, A m i j • k m j h))
    (y : ℝ → E) (h0 : y t₀ = x₀) (hy : ∀ᶠ t in 𝓝 t₀, HasDerivAt y (f t (y t)) t)
    (hoc : ∀ t : Tree, t.size ≤ q → ∑ m ∈ S, L m * Tree.weight (A m) (b m) (s m) t = Tree.exact t) :
    (fun h => (∑ m ∈ S, L m • (x₀ + h • ∑ i ∈ range (s m), b m i • k m i h)) - y (t₀ + h))
      =O[𝓝 0] (fun h : ℝ => h ^ (q + 1)) := by
  let g : ℝ × E → ℝ × E := fun p => (1, f p.1 p.2)
  have hg : ContDiffAt ℝ q g (t₀, x₀) := contDiffAt_const.prodMk hf
  have hT := taylorAt_of_contDiffAt hg hq
  let kk : Nat → Nat → ℝ → ℝ × E := fun m i h => (1, k m i h)
  have hkk : ∀ m ∈ S, ∀ i, i < s m → ∀ h,
      kk m i h = g ((t₀, x₀) + h • ∑ j ∈ range i, A m i j • kk m j h) := by
    intro m hm i hi h
    have e1 : (∑ j ∈ range i, A m i j • kk m j h)
        = (c m i, ∑ j ∈ range i, A m i j • k m j h) := by
      rw [hc m hm i hi]
      refine Prod.ext ?_ ?_
      · simp [kk, Prod.fst_sum]
      · simp [kk, Prod.snd_sum]
    rw [e1]
    simp only [kk, g, Prod.mk_add_mk, Prod.smul_mk, smul_eq_mul]
    rw [← hk m hm i hi h]
  let yy : ℝ → ℝ × E := fun h => (t₀ + h, y (t₀ + h))
  have htend : Tendsto (fun h : ℝ => t₀ + h) (𝓝 0) (𝓝 t₀) := by
    have : Tendsto (fun h : ℝ => t₀ + h) (𝓝 0) (𝓝 (t₀ + 0)) := (continuous_const_add t₀).tendsto 0
    simpa using this
  have hyy : ∀ᶠ h in 𝓝 0, HasDerivAt yy (g (yy h)) h := by
    filter_upwards [htend.eventually hy] with h hh
    have h1 : HasDerivAt (fun h : ℝ => t₀ + h) 1 h := (hasDerivAt_id h).const_add t₀
    have h2 : HasDerivAt (fun h : ℝ => y (t₀ + h)) (f (t₀ + h) (y (t₀ + h))) h := by
      have := HasDerivAt.scomp h hh h1
      rw [one_smul] at this
      exact this
    exact h1.prodMk h2
  have hdef : ∀ m ∈ S, (fun h => L m • ((t₀, x₀) + h • ∑ i ∈ range (s m), b m i • kk m i h - yy h
      - bsum (taylorSeries g (t₀, x₀))
        (fun t => Tree.weight (A m) (b m) (s m) t - Tree.exact t) q h))
      =O[𝓝 0] (fun h : ℝ => h ^ (q + 1)) := by
    intro m hm
    have := (autonomous_defect hT hq (A m) (b m) (kk m) (s m) (hkk m hm) yy (by simp [yy, h0])
      hyy).const_smul_left (L m)
    exact this
  have hsum := IsBigO.fun_sum hdef
  have hsum2 : (fun h => (∑ m ∈ S, L m • ((t₀, x₀) + h • ∑ i ∈ range (s m), b m i • kk m i h)) - yy h)
      =O[𝓝 0] (fun h : ℝ => h ^ (q + 1)) := by
    refine hsum.congr_left (fun h => ?_)
    simp only [smul_sub, sum_sub_distrib]
    rw [← sum_smul, hL, one_smul]
    have : ∑ m ∈ S, L m • bsum (taylorSeries g (t₀, x₀))
        (fun t => Tree.weight (A m) (b m) (s m) t - Tree.exact t) q h = 0 := by
      unfold bsum
      simp only [smul_sum, smul_smul]
      rw [sum_comm]
      apply sum_eq_zero
      intro t ht
      rw [Tree.mem_upTo] at ht
      rw [← sum_smul]
      have e : ∑ m ∈ S, L m * (h ^ t.size * (Tree.weight (A m) (b m) (s m) t - Tree.exact t)) = 0 := by
        have e2 := hoc t ht
        have e3 : ∑ m ∈ S, L m * (h ^ t.size * (Tree.weight (A m) (b m) (s m) t - Tree.exact t))
            = h ^ t.size * (∑ m ∈ S, L m * Tree.weight (A m) (b m) (s m) t
              - (∑ m ∈ S, L m) * Tree.exact t) := by
          rw [sum_mul, ← sum_sub_distrib, mul_sum]
          exact sum_congr rfl (fun m _ => by ring)
        rw [e3, e2, hL, one_mul, sub_self, mul_zero]
      rw [e, zero_smul]
    rw [this, sub_zero]
  have h2 := (ContinuousLinearMap.isBigO_comp (ContinuousLinearMap.snd ℝ ℝ E) _ (𝓝 (0:ℝ))).trans hsum2
  refine h2.congr_left (fun h => ?_)
  simp [kk, yy, Prod.snd_sum]

/-! ### Iterated Runge-Kutta methods -/

/-- `n` steps of size `h` of output 0 of a tableau. -/
def rkIter {R V : Type} [CommRing R] [AddCommGroup V] [Module R V] (T : Tableau R)
    (f : R → V → V) (t : R) (x : V) (h : R) : Nat → V
  | 0 => x
  | n + 1 => T.output f (t + n * h) h (rkIter T f t x h n) 0

theorem rkIter_sum (T : Tableau ℝ) (f : ℝ → E → E) (t h : ℝ) (x : E) (n : Nat) :
    rkIter T f t x h n = x + h • ∑ i ∈ range n, ∑ l ∈ range T.s,
      T.b 0 l • T.stage f (t + i * h) h (rkIter T f t x h i) l := by
  induction n with
  | zero => simp [rkIter]
  | succ n ih =>
    rw [sum_range_succ, smul_add, ← add_assoc, ← ih]
    rfl

/-- `n` steps of size `h/n` as one explicit method. -/
theorem rkIter_stages (T : Tableau ℝ) (f : ℝ → E → E) (t : ℝ) (x : E) (n : Nat) (hs : 0 < T.s)
    (hrow : ∀ l, l < T.s → T.c l = ∑ j ∈ range l, T.a l j) (hb : ∑ l ∈ range T.s, T.b 0 l = 1) :
    ∃ (k : Nat → ℝ → E) (c : Nat → ℝ),
      (∀ i, i < n * T.s → c i = ∑ j ∈ range i, (1 / n : ℝ) * iterA T.s T.a (T.b 0) i j) ∧
      (∀ i, i < n * T.s → ∀ h, k i h = f (t + h * c i) (x + h • ∑ j ∈ range i,
        ((1 / n : ℝ) * iterA T.s T.a (T.b 0) i j) • k j h)) ∧
      ∀ h, rkIter T f t x (h / n) n
        = x + h • ∑ j ∈ range (n * T.s), ((1 / n : ℝ) * T.b 0 (j % T.s)) • k j h := by
  refine ⟨fun j h => T.stage f (t + (j / T.s : Nat) * (h / n)) (h / n)
      (rkIter T f t x (h / n) (j / T.s)) (j % T.s),
    fun j => (1 / n : ℝ) * ((j / T.s : Nat) + T.c (j % T.s)), ?_, ?_, ?_⟩
  · intro i hi
    obtain ⟨a, l, hl, rfl⟩ : ∃ a l, l < T.s ∧ i = a * T.s + l :=
      ⟨i / T.s, i % T.s, Nat.mod_lt _ hs, by rw [Nat.mul_comm]; exact (Nat.div_add_mod i T.s).symm⟩
    have := iterA_row (M := ℝ) T.s T.a (T.b 0) hl (i := a) (fun _ => (1 : ℝ))
    simp only [smul_eq_mul, mul_one] at this
    simp only []
    rw [← mul_sum, this, block_div hl, block_mod hl, hrow l hl, hb]
    simp
  · intro i hi h
    obtain ⟨a, l, hl, rfl⟩ : ∃ a l, l < T.s ∧ i = a * T.s + l :=
      ⟨i / T.s, i % T.s, Nat.mod_lt _ hs, by rw [Nat.mul_comm]; exact (Nat.div_add_mod i T.s).symm⟩
    simp only [block_div hl, block_mod hl, mul_smul]
    rw [← smul_sum, iterA_row T.s T.a (T.b 0) hl]
    rw [Tableau.stage_eq]
    congr 1
    · ring
    · rw [smul_add, smul_add, ← add_assoc]
      congr 1
      · rw [rkIter_sum, smul_smul, mul_one_div]
        congr 2
        refine sum_congr rfl (fun i' _ => sum_congr rfl (fun l' hl' => ?_))
        rw [mem_range] at hl'
        rw [block_div hl', block_mod hl']
      · rw [smul_smul, mul_one_div]
        congr 1
        refine sum_congr rfl (fun l' hl' => ?_)
        rw [mem_range] at hl'
        rw [block_div (by omega : l' < T.s), block_mod (by omega : l' < T.s)]
  · intro h
    simp only [mul_smul]
    rw [← smul_sum, smul_smul, mul_one_div, rkIter_sum]
    have := sum_blocks T.s n 0 (fun j => T.b 0 (j % T.s) • T.stage f (t + (j / T.s : Nat) * (h / n))
      (h / n) (rkIter T f t x (h / n) (j / T.s)) (j % T.s))
    rw [Nat.add_zero, range_zero, sum_empty, add_zero] at this
    rw [this]
    congr 2
    refine sum_congr rfl (fun i' _ => sum_congr rfl (fun l' hl' => ?_))
    rw [mem_range] at hl'
    rw [block_div hl', block_mod hl']

/-! ### The Gragg method -/

theorem leapfrog_sum (f : ℝ → E → E) (t h : ℝ) (x : E) (n : Nat) :
    (leapfrog f t h x n).1 = x + h • ∑ i ∈ range n,
        f (t + (i + 1 / 2) * h) (leapfrog f t h x i).2 ∧
      (leapfrog f t h x n).2 = x + h • ((1 / 2 : ℝ) • f t x + ∑ i ∈ range n,
        f (t + (i + 1) * h) (leapfrog f t h x (i + 1)).1) := by
  induction n with
  | zero => simp [leapfrog, smul_smul]; ring_nf
  | succ n ih =>
    refine ⟨?_, ?_⟩
    · rw [leapfrog_succ, sum_range_succ, smul_add, ← add_assoc, ← ih.1]
    · rw [sum_range_succ, ← add_assoc, smul_add, ← add_assoc, ← ih.2]
      rfl

theorem gragg_stages (smooth : Bool) (f : ℝ → E → E) (t : ℝ) (x : E) (n : Nat) (hn : 0 < n) :
    ∃ (k : Nat → ℝ → E) (c : Nat → ℝ),
      (∀ i, i < 2 * n + 1 → c i = ∑ j ∈ range i, (1 / n : ℝ) * grA i j) ∧
      (∀ i, i < 2 * n + 1 → ∀ h, k i h = f (t + h * c i) (x + h • ∑ j ∈ range i,
        ((1 / n : ℝ) * grA i j) • k j h)) ∧
      ∀ h, graggValue smooth f t x (h / n) n
        = x + h • ∑ j ∈ range (2 * n + 1), ((1 / n : ℝ) * grB smooth n j) • k j h := by
  obtain ⟨k, hkdef⟩ : ∃ k : Nat → ℝ → E, k = fun (j : Nat) h =>
      f (t + ((j : ℝ) / 2) * (h / n)) (if j % 2 = 0 then (leapfrog f t (h / n) x (j / 2)).1
        else (leapfrog f t (h / n) x (j / 2)).2) := ⟨_, rfl⟩
  have hke : ∀ i h, k (2 * i) h = f (t + i * (h / n)) (leapfrog f t (h / n) x i).1 := by
    intro i h
    rw [hkdef]
    simp only [if_pos (show 2 * i % 2 = 0 by omega), show 2 * i / 2 = i by omega]
    congr 2
    push_cast
    ring
  have hko : ∀ i h, k (2 * i + 1) h = f (t + (i + 1 / 2) * (h / n)) (leapfrog f t (h / n) x i).2 := by
    intro i h
    rw [hkdef]
    simp only [if_neg (show ¬ (2 * i + 1) % 2 = 0 by omega), show (2 * i + 1) / 2 = i by omega]
    congr 2
    push_cast
    ring
  have hU : ∀ i h, (leapfrog f t (h / n) x i).1 = x + (h / n) • ∑ i' ∈ range i, k (2 * i' + 1) h := by
    intro i h
    rw [(leapfrog_sum f t (h / n) x i).1]
    congr 2
    exact sum_congr rfl (fun i' _ => (hko i' h).symm)
  have hW : ∀ i h, (leapfrog f t (h / n) x i).2
      = x + (h / n) • ((1 / 2 : ℝ) • k 0 h + ∑ i' ∈ range i, k (2 * i' + 2) h) := by
    intro i h
    rw [(leapfrog_sum f t (h / n) x i).2]
    congr 3
    · congr 1
      have := hke 0 h
      simp only [mul_zero, Nat.cast_zero, zero_mul, add_zero] at this
      rw [this]
      rfl
    · refine sum_congr rfl (fun i' _ => ?_)
      have := hke (i' + 1) h
      push_cast at this
      rw [← this]
      rfl
  refine ⟨k, fun j => (1 / n : ℝ) * (j / 2), ?_, ?_, ?_⟩
  · intro i _
    rw [← mul_sum]
    simp only []
    congr 1
    rcases Nat.even_or_odd' i with ⟨a, rfl | rfl⟩
    · have := grA_even (M := ℝ) a (fun _ => (1 : ℝ))
      simp only [smul_eq_mul, mul_one] at this
      rw [this]
      simp
    · have := grA_odd (M := ℝ) a (fun _ => (1 : ℝ))
      simp only [smul_eq_mul, mul_one] at this
      rw [this]
      push_cast
      rw [sum_const, card_range, nsmul_eq_mul]
      ring
  · intro i _ h
    simp only [mul_smul]
    rw [← smul_sum, smul_smul, mul_one_div]
    rcases Nat.even_or_odd' i with ⟨a, rfl | rfl⟩
    · rw [grA_even, ← hU, hke]
      congr 1
      push_cast
      ring
    · rw [grA_odd, ← hW, hko]
      congr 1
      push_cast
      ring
  · intro h
    simp only [mul_smul]
    rw [← smul_sum, smul_smul, mul_one_div, grB_sum smooth n hn]
    unfold graggValue
    cases smooth with
    | false => simp only [Bool.false_and, Bool.false_eq_true, if_false]; exact hU n h
    | true =>
      simp only [Bool.true_and, hn, decide_true, if_true]
      rw [← hke n h, hU n h, hW n h]
      obtain ⟨m, rfl⟩ : ∃ m, n = m + 1 := ⟨n - 1, by omega⟩
      rw [sum_range_succ (fun i' => k (2 * i' + 2) h) m, Nat.add_sub_cancel,
        show 2 * (m + 1) = 2 * m + 2 by ring]
      generalize (∑ i' ∈ range (m + 1), k (2 * i' + 1) h) = a
      generalize (∑ i' ∈ range m, k (2 * i' + 2) h) = b
      module

end

end Verif.Extrap
