import Verif.Alg.NewtonModel
import Verif.Alg.ProvProps

/-! # Properties of the line search, the error estimator and the iteration performer -/

namespace Verif.Alg

open Verif.Res Verif.Vec Verif.Sparse

set_option linter.unusedSectionVars false

section
variable {K : Type} [Field K] [LinearOrder K] [IsStrictOrderedRing K]

/-! ### Vectors -/

theorem addScaled_ok {x dir : List K} (h : x.length ≤ dir.length) (beta : K) :
    ∃ r, addScaled x dir beta = .ok r ∧ r.length = x.length ∧
      ∀ i, i < x.length → r.getD i 0 = x.getD i 0 + dir.getD i 0 * beta := by
  unfold addScaled
  have := loop_post (lo := 0) (hi := x.length) (s := x)
    (f := fun i r => do
      let a ← at' r i
      let b ← at' dir i
      atSet r i (a + b * beta))
    (fun j r => r.length = x.length ∧ (∀ i, i < j → r.getD i 0 = x.getD i 0 + dir.getD i 0 * beta) ∧
      ∀ i, j ≤ i → r.getD i 0 = x.getD i 0)
    (E := fun _ => False) (Nat.zero_le _) ⟨rfl, fun i h => by omega, fun _ _ => rfl⟩ (by
      intro j r _ hj ⟨h1, h2, h3⟩
      have hjr : j < r.length := by omega
      rw [at_lt hjr, bind_ok, at_lt (by omega), bind_ok]
      unfold atSet
      rw [if_pos hjr]
      refine ⟨by rw [List.length_set, h1], ?_, ?_⟩
      · intro i hi
        rw [getD_set hjr]
        by_cases hij : i = j
        · rw [if_pos hij, h3 j (le_refl _), hij]
        · rw [if_neg hij, h2 i (by omega)]
      · intro i hi
        rw [getD_set hjr, if_neg (by omega), h3 i (by omega)])
  rw [post_false_iff] at this
  obtain ⟨r, h1, h2, h3, -⟩ := this
  exact ⟨r, h1, h2, h3⟩

/-- It returns only if the direction is long enough, otherwise it throws. -/
theorem addScaled_len {x dir r : List K} {beta : K} (h : addScaled x dir beta = .ok r) :
    x.length ≤ dir.length := by
  unfold addScaled at h
  have := loop_post (lo := 0) (hi := x.length) (s := x)
    (f := fun i r => do
      let a ← at' r i
      let b ← at' dir i
      atSet r i (a + b * beta))
    (fun j r => r.length = x.length ∧ j ≤ dir.length)
    (E := fun _ => True) (Nat.zero_le _) ⟨rfl, Nat.zero_le _⟩ (by
      intro j r _ hj ⟨h1, h2⟩
      have hjr : j < r.length := by omega
      rw [at_lt hjr, bind_ok]
      by_cases hd : j < dir.length
      · rw [at_lt hd, bind_ok]
        unfold atSet
        rw [if_pos hjr]
        exact ⟨by rw [List.length_set, h1], hd⟩
      · rw [at_ge (by omega)]
        trivial)
  rw [h] at this
  exact this.2

theorem addScaled_zero {x dir r : List K} (h : addScaled x dir 0 = .ok r) : r = x := by
  obtain ⟨r', h1, h2, h3⟩ := addScaled_ok (addScaled_len h) (0 : K)
  rw [h] at h1
  cases h1
  apply ext_getD h2
  intro i hi
  rw [h3 i (by omega), mul_zero, add_zero]

theorem vsub_len {a b r : List K} (h : vsub a b = .ok r) : a.length ≤ b.length := by
  unfold vsub at h
  have := loop_post (lo := 0) (hi := a.length) (s := a)
    (f := fun i r => do
      let x ← at' r i
      let y ← at' b i
      atSet r i (x - y))
    (fun j r => r.length = a.length ∧ j ≤ b.length)
    (E := fun _ => True) (Nat.zero_le _) ⟨rfl, Nat.zero_le _⟩ (by
      intro j r _ hj ⟨h1, h2⟩
      have hjr : j < r.length := by omega
      rw [at_lt hjr, bind_ok]
      by_cases hd : j < b.length
      · rw [at_lt hd, bind_ok]
        unfold atSet
        rw [if_pos hjr]
        exact ⟨by rw [List.length_set, h1], hd⟩
      · rw [at_ge (by omega)]
        trivial)
  rw [h] at this
  exact this.2

theorem normSq_sum (v : List K) : normSq v = (v.map (fun x => x * x)).sum := by
  have : ∀ z : K, v.foldl (fun s x => s + x * x) z = z + (v.map (fun x => x * x)).sum := by
    induction v with
    | nil => simp
    | cons x v ih =>
      intro z
      rw [List.foldl_cons, ih, List.map_cons, List.sum_cons, add_assoc]
  unfold normSq
  rw [this, zero_add]

theorem normSq_nonneg (v : List K) : 0 ≤ normSq v := by
  rw [normSq_sum]
  apply List.sum_nonneg
  intro y hy
  obtain ⟨x, -, rfl⟩ := List.mem_map.1 hy
  exact mul_self_nonneg x

theorem normSq_zero_iff (v : List K) : normSq v = 0 ↔ ∀ x ∈ v, x = 0 := by
  rw [normSq_sum]
  induction v with
  | nil => simp
  | cons x v ih =>
    rw [List.map_cons, List.sum_cons]
    have h2 : 0 ≤ (v.map (fun x => x * x)).sum := by
      rw [← normSq_sum]
      exact normSq_nonneg v
    constructor
    · intro h
      have h3 : x * x = 0 := by nlinarith [mul_self_nonneg x]
      have h4 : (v.map (fun x => x * x)).sum = 0 := by rw [h3, zero_add] at h; exact h
      intro y hy
      rcases List.mem_cons.1 hy with rfl | hy
      · exact mul_self_eq_zero.1 h3
      · exact ih.1 h4 y hy
    · intro h
      rw [h x List.mem_cons_self, ih.2 (fun y hy => h y (List.mem_cons_of_mem _ hy))]
      ring

theorem infNorm_spec (v : List K) : 0 ≤ infNorm v ∧ (∀ x ∈ v, |x| ≤ infNorm v) ∧
    (infNorm v = 0 ∨ ∃ x ∈ v, |x| = infNorm v) := by
  have : ∀ z : K, z ≤ v.foldl (fun m x => max m |x|) z ∧
      (∀ x ∈ v, |x| ≤ v.foldl (fun m x => max m |x|) z) ∧
      (v.foldl (fun m x => max m |x|) z = z ∨ ∃ x ∈ v, |x| = v.foldl (fun m x => max m |x|) z) := by
    induction v with
    | nil => simp
    | cons y v ih =>
      intro z
      rw [List.foldl_cons]
      obtain ⟨h1, h2, h3⟩ := ih (max z |y|)
      refine ⟨le_trans (le_max_left _ _) h1, ?_, ?_⟩
      · intro x hx
        rcases List.mem_cons.1 hx with rfl | hx
        · exact le_trans (le_max_right _ _) h1
        · exact h2 x hx
      · rcases h3 with h3 | ⟨x, hx, h3⟩
        · rw [h3]
          rcases max_choice z |y| with h4 | h4
          · exact Or.inl h4
          · exact Or.inr ⟨y, List.mem_cons_self, h4.symm⟩
        · exact Or.inr ⟨x, List.mem_cons_of_mem _ hx, h3⟩
  exact this 0

theorem infNorm_le {v : List K} {c : K} (hc : 0 ≤ c) : infNorm v ≤ c ↔ ∀ x ∈ v, |x| ≤ c := by
  obtain ⟨-, h2, h3⟩ := infNorm_spec v
  constructor
  · exact fun h x hx => le_trans (h2 x hx) h
  · intro h
    rcases h3 with h3 | ⟨x, hx, h3⟩
    · rw [h3]; exact hc
    · rw [← h3]; exact h x hx

theorem infNorm_ge {v : List K} {c : K} (hc : 0 < c) : c ≤ infNorm v ↔ ∃ x ∈ v, c ≤ |x| := by
  obtain ⟨-, h2, h3⟩ := infNorm_spec v
  constructor
  · intro h
    rcases h3 with h3 | ⟨x, hx, h3⟩
    · rw [h3] at h
      exact absurd h (not_le.2 hc)
    · exact ⟨x, hx, by rw [h3]; exact h⟩
  · rintro ⟨x, hx, h⟩
    exact le_trans h (h2 x hx)

theorem infNorm_pos {v : List K} : 0 < infNorm v ↔ ∃ x ∈ v, x ≠ 0 := by
  obtain ⟨h1, h2, h3⟩ := infNorm_spec v
  constructor
  · intro h
    rcases h3 with h3 | ⟨x, hx, h3⟩
    · rw [h3] at h
      exact absurd h (lt_irrefl _)
    · exact ⟨x, hx, by rintro rfl; rw [abs_zero] at h3; rw [← h3] at h; exact lt_irrefl _ h⟩
  · rintro ⟨x, hx, h⟩
    exact lt_of_lt_of_le (abs_pos.2 h) (h2 x hx)

/-! ### C19: line search -/

/-- What one pass over the step ratios `alpha, alpha/2, ...` does -/
theorem truncations_spec {F : Mapping K} {dir x0 : List K} {n2 : K} :
    ∀ (left : Nat) (alpha : K) (s s' : Search K) (b : Bool),
      truncations F dir x0 n2 left alpha s = .ok (s', b) →
      s.evaluations ≤ s'.evaluations ∧ s'.evaluations ≤ s.evaluations + left ∧
      (b = false → s'.evaluations = s.evaluations + left) ∧ (b = true → s'.best < 4 / 5) ∧
      ((s'.best = s.best ∧ s'.alphaBest = s.alphaBest ∧ s'.residual = s.residual) ∨
        (s'.best < s.best ∧ n2 ≠ 0 ∧ (∃ k, k < left ∧ s'.alphaBest = alpha / 2 ^ k) ∧
          s'.best = normSq s'.residual / n2 ∧
          ∃ x, addScaled x0 dir s'.alphaBest = .ok x ∧ F.map x = .ok s'.residual)) ∧
      (∀ j, s.evaluations + j < s'.evaluations → ∃ x f, addScaled x0 dir (alpha / 2 ^ j) = .ok x ∧
        F.map x = .ok f ∧ (n2 ≠ 0 → s'.best ≤ normSq f / n2)) := by
  intro left
  induction left with
  | zero =>
    intro alpha s s' b h
    unfold truncations at h
    cases h
    exact ⟨le_refl _, le_refl _, fun _ => rfl, (fun h => by cases h), Or.inl ⟨rfl, rfl, rfl⟩,
      fun j hj => by omega⟩
  | succ left ih =>
    intro alpha s s' b h
    unfold truncations at h
    obtain ⟨x, hx, h⟩ := bind_inv h
    obtain ⟨f, hf, h⟩ := bind_inv h
    obtain ⟨t, ht⟩ : ∃ t, t = (if n2 ≠ 0 ∧ normSq f / n2 < s.best
      then (⟨normSq f / n2, alpha, f, s.evaluations + 1⟩ : Search K)
      else { s with evaluations := s.evaluations + 1 }) := ⟨_, rfl⟩
    dsimp only at h
    rw [← ht] at h
    have hev : t.evaluations = s.evaluations + 1 := by
      rw [ht]; split <;> rfl
    have hle : t.best ≤ s.best ∧ (n2 ≠ 0 → t.best ≤ normSq f / n2) := by
      rw [ht]
      split
      · rename_i hc
        exact ⟨le_of_lt hc.2, fun _ => le_refl _⟩
      · rename_i hc
        refine ⟨le_refl _, fun hn => ?_⟩
        by_contra hcon
        exact hc ⟨hn, not_le.1 hcon⟩
    have hcase : (t.best = s.best ∧ t.alphaBest = s.alphaBest ∧ t.residual = s.residual) ∨
        (t.best < s.best ∧ n2 ≠ 0 ∧ t.alphaBest = alpha ∧ t.best = normSq t.residual / n2 ∧
          t.residual = f) := by
      rw [ht]
      split
      · rename_i hc
        exact Or.inr ⟨hc.2, hc.1, rfl, rfl, rfl⟩
      · exact Or.inl ⟨rfl, rfl, rfl⟩
    have hx0 : addScaled x0 dir (alpha / 2 ^ 0) = .ok x := by rw [pow_zero, div_one]; exact hx
    have hfirst : (t.best < s.best ∧ n2 ≠ 0 ∧ t.alphaBest = alpha ∧ t.best = normSq t.residual / n2 ∧
          t.residual = f) → (t.best < s.best ∧ n2 ≠ 0 ∧ (∃ k, k < left + 1 ∧ t.alphaBest = alpha / 2 ^ k) ∧
          t.best = normSq t.residual / n2 ∧
          ∃ x, addScaled x0 dir t.alphaBest = .ok x ∧ F.map x = .ok t.residual) := by
      rintro ⟨a1, a2, a3, a4, a5⟩
      exact ⟨a1, a2, ⟨0, by omega, by rw [a3, pow_zero, div_one]⟩, a4, x, by rw [a3]; exact hx,
        by rw [a5]; exact hf⟩
    split at h
    · rename_i hb
      cases h
      refine ⟨by omega, by omega, (fun h => by cases h), fun _ => hb, ?_, ?_⟩
      · rcases hcase with h | h
        · exact Or.inl h
        · exact Or.inr (hfirst h)
      · intro j hj
        have : j = 0 := by omega
        subst this
        exact ⟨x, f, hx0, hf, hle.2⟩
    · obtain ⟨i0, i1, i2, i3, i4, i5⟩ := ih (alpha / 2) t s' b h
      have hpow : ∀ k : Nat, alpha / 2 / 2 ^ k = alpha / 2 ^ (k + 1) := by
        intro k
        rw [div_div, pow_succ, mul_comm]
      refine ⟨by omega, by omega, fun h => by rw [i2 h]; omega, i3, ?_, ?_⟩
      · rcases i4 with ⟨a1, a2, a3⟩ | ⟨a1, a2, ⟨k, hk, a3⟩, a4, a5⟩
        · rcases hcase with ⟨b1, b2, b3⟩ | hb
          · exact Or.inl ⟨by rw [a1, b1], by rw [a2, b2], by rw [a3, b3]⟩
          · obtain ⟨c1, c2, c3, c4, c5⟩ := hfirst hb
            exact Or.inr ⟨by rw [a1]; exact c1, c2, by rw [a2]; exact c3, by rw [a1, a3]; exact c4,
              by rw [a2, a3]; exact c5⟩
        · exact Or.inr ⟨lt_of_lt_of_le a1 hle.1, a2, ⟨k + 1, by omega, by rw [a3, hpow]⟩, a4, a5⟩
      · intro j hj
        have hbest : s'.best ≤ t.best := by
          rcases i4 with h | h
          · exact le_of_eq h.1
          · exact le_of_lt h.1
        cases j with
        | zero => exact ⟨x, f, hx0, hf, fun hn => le_trans hbest (hle.2 hn)⟩
        | succ j =>
          obtain ⟨x', f', e1, e2, e3⟩ := i5 j (by omega)
          exact ⟨x', f', by rw [← hpow]; exact e1, e2, e3⟩

/-- C19: what `lineSearch` returns, for every mapping, direction, point and limit. A nonzero ratio is
`±2^-k` with `k` below the limit; it leads to a point with a smaller residual, which is the residual
reported, and no point tried has a smaller one. The ratio is zero exactly when no point `x0 ± 2^-k dir`
has a smaller residual; the residual reported then is the old one. At most `2 limit` points are tried. -/
theorem C19_search {F : Mapping K} {limit : Nat} {dir x0 f0 res : List K} {ratio : K} {r : List K} {n : Nat}
    (h : lineSearch F limit dir x0 f0 res = .ok (ratio, r, n)) :
    n ≤ 2 * limit ∧
    (ratio = 0 → r = res ∧ (normSq f0 ≠ 0 → ∀ k, k < limit → ∀ a ∈ [(1 : K) / 2 ^ k, -1 / 2 ^ k],
      ∃ x f, addScaled x0 dir a = .ok x ∧ F.map x = .ok f ∧ normSq f0 ≤ normSq f)) ∧
    (ratio ≠ 0 → (∃ k, k < limit ∧ (ratio = 1 / 2 ^ k ∨ ratio = -1 / 2 ^ k)) ∧ normSq r < normSq f0 ∧
      ∃ x, addScaled x0 dir ratio = .ok x ∧ F.map x = .ok r) := by
  unfold lineSearch at h
  obtain ⟨⟨s1, b1⟩, h1, h⟩ := bind_inv h
  obtain ⟨a0, a1, a2, a3, a4, a5⟩ := truncations_spec _ _ _ _ _ h1
  dsimp only at a0 a1 a2 a3 a4 a5 h
  have hpos : ∀ n2 : K, n2 = normSq f0 → n2 ≠ 0 → 0 < n2 := by
    rintro n2 rfl hn
    exact lt_of_le_of_ne (normSq_nonneg _) (Ne.symm hn)
  have hgt : ∀ q v : K, v ≠ 0 → q / v < 1 → 0 < v → q < v := by
    intro q v _ h1 h2
    rwa [div_lt_one h2] at h1
  split at h
  · rename_i hc
    obtain ⟨⟨s2, b2⟩, h2, h⟩ := bind_inv h
    obtain ⟨c0, c1, c2, c3, c4, c5⟩ := truncations_spec _ _ _ _ _ h2
    dsimp only at c0 c1 c2 c3 c4 c5 h
    have hres1 : s1.residual = res := by
      rcases a4 with ⟨-, -, e⟩ | ⟨e, -⟩
      · exact e
      · rw [hc.2] at e
        exact absurd e (lt_irrefl _)
    split at h
    · rename_i hc2
      cases h
      refine ⟨by omega, fun _ => ⟨?_, ?_⟩, fun hne => absurd rfl hne⟩
      · rcases c4 with ⟨-, -, e⟩ | ⟨e, -⟩
        · rw [e, hres1]
        · rw [hc.2, hc2.2] at e
          exact absurd e (lt_irrefl _)
      · intro hn k hk a ha
        have hp := hpos _ rfl hn
        rcases List.mem_cons.1 ha with rfl | ha
        · obtain ⟨x, f, e1, e2, e3⟩ := a5 k (by rw [a2 hc.1]; omega)
          refine ⟨x, f, e1, e2, ?_⟩
          have := e3 hn
          rw [hc.2, le_div_iff₀ hp, one_mul] at this
          exact this
        · rw [List.mem_singleton] at ha
          subst ha
          obtain ⟨x, f, e1, e2, e3⟩ := c5 k (by rw [c2 hc2.1]; omega)
          refine ⟨x, f, e1, e2, ?_⟩
          have := e3 hn
          rw [hc2.2, le_div_iff₀ hp, one_mul] at this
          exact this
    · rename_i hc2
      cases h
      have himp : s2.best < s1.best ∧ normSq f0 ≠ 0 ∧ (∃ k, k < limit ∧ s2.alphaBest = -1 / 2 ^ k) ∧
          s2.best = normSq s2.residual / normSq f0 ∧
          ∃ x, addScaled x0 dir s2.alphaBest = .ok x ∧ F.map x = .ok s2.residual := by
        rcases c4 with ⟨e, -, -⟩ | e
        · exfalso
          apply hc2
          rw [hc.2] at e
          refine ⟨?_, e⟩
          cases hb : b2 with
          | false => rfl
          | true =>
            have := c3 hb
            rw [e] at this
            norm_num at this
        · exact e
      obtain ⟨e1, e2, ⟨k, hk, e3⟩, e4, e5⟩ := himp
      have hp := hpos _ rfl e2
      refine ⟨by omega, fun h0 => ?_, fun _ => ⟨⟨k, hk, Or.inr e3⟩, ?_, e5⟩⟩
      · exfalso
        rw [e3] at h0
        have : (-1 : K) / 2 ^ k ≠ 0 := div_ne_zero (by norm_num) (by positivity)
        exact this h0
      · apply hgt _ _ e2 _ hp
        rw [← e4, ← hc.2]
        exact e1
  · rename_i hc
    cases h
    have himp : s1.best < 1 ∧ normSq f0 ≠ 0 ∧ (∃ k, k < limit ∧ s1.alphaBest = 1 / 2 ^ k) ∧
        s1.best = normSq s1.residual / normSq f0 ∧
        ∃ x, addScaled x0 dir s1.alphaBest = .ok x ∧ F.map x = .ok s1.residual := by
      rcases a4 with ⟨e, -, -⟩ | e
      · exfalso
        apply hc
        refine ⟨?_, e⟩
        cases hb : b1 with
        | false => rfl
        | true =>
          have := a3 hb
          rw [e] at this
          norm_num at this
      · exact e
    obtain ⟨e1, e2, ⟨k, hk, e3⟩, e4, e5⟩ := himp
    have hp := hpos _ rfl e2
    refine ⟨by omega, fun h0 => ?_, fun _ => ⟨⟨k, hk, Or.inl e3⟩, ?_, e5⟩⟩
    · exfalso
      rw [e3] at h0
      have : (1 : K) / 2 ^ k ≠ 0 := div_ne_zero (by norm_num) (by positivity)
      exact this h0
    · apply hgt _ _ e2 _ hp
      rw [← e4]
      exact e1

/-- C19: with a zero residual or without truncations allowed the ratio is zero. -/
theorem C19_zero {F : Mapping K} {limit : Nat} {dir x0 f0 res : List K} {ratio : K} {r : List K} {n : Nat}
    (h : lineSearch F limit dir x0 f0 res = .ok (ratio, r, n)) (h0 : normSq f0 = 0 ∨ limit = 0) :
    ratio = 0 ∧ r = res := by
  obtain ⟨-, h1, h2⟩ := C19_search h
  have : ratio = 0 := by
    by_contra hne
    obtain ⟨⟨k, hk, -⟩, h3, -⟩ := h2 hne
    rcases h0 with h0 | h0
    · rw [h0] at h3
      exact absurd h3 (not_lt.2 (normSq_nonneg _))
    · omega
  exact ⟨this, (h1 this).1⟩

/-- C19: if the full step reduces the square norm of the residual below 4/5 of its value, it is taken
after a single evaluation. -/
theorem C19_full_step {F : Mapping K} {limit : Nat} {dir x0 f0 : List K} (res : List K) {x f : List K}
    (hl : 0 < limit) (hx : addScaled x0 dir 1 = .ok x) (hf : F.map x = .ok f)
    (hlt : normSq f < 4 / 5 * normSq f0) : lineSearch F limit dir x0 f0 res = .ok (1, f, 1) := by
  obtain ⟨l, rfl⟩ : ∃ l, limit = l + 1 := ⟨limit - 1, by omega⟩
  have hp : 0 < normSq f0 := by
    have := normSq_nonneg f
    linarith
  have hq : normSq f / normSq f0 < 4 / 5 := by
    rw [div_lt_iff₀ hp]
    exact hlt
  have hq1 : normSq f / normSq f0 < 1 := lt_trans hq (by norm_num)
  have ht : truncations F dir x0 (normSq f0) (l + 1) 1 ⟨1, 1, res, 0⟩ =
      .ok (⟨normSq f / normSq f0, 1, f, 1⟩, true) := by
    unfold truncations
    rw [hx, bind_ok, hf, bind_ok]
    dsimp only
    have hif : (if normSq f0 ≠ 0 ∧ normSq f / normSq f0 < 1
        then (⟨normSq f / normSq f0, 1, f, 0 + 1⟩ : Search K) else ⟨1, 1, res, 0 + 1⟩) =
        ⟨normSq f / normSq f0, 1, f, 1⟩ := if_pos ⟨ne_of_gt hp, hq1⟩
    rw [hif]
    exact if_pos hq
  unfold lineSearch
  dsimp only
  rw [ht, bind_ok, if_neg (by simp)]

/-! ### C20: error estimator -/

/-- C20: after `setCurrentSolution(sol, res)` with a previous solution `e.current`: `Converged` exactly when
every residual is within the absolute tolerance and every change within the relative tolerance times the
largest absolute value of the previous solution; a previous solution zero counts as no change. -/
theorem C20_converged {e e' : Est K} {sol res : List K} (h : e.setCurrentSolution sol res = .ok e')
    (ha : 0 ≤ e.absTol) (hr : 0 ≤ e.relTol) :
    e'.status = .converged ↔ (∀ r ∈ res, |r| ≤ e.absTol) ∧
      ((∀ x ∈ e.current, x = 0) ∨ ∀ i, i < sol.length →
        ∃ x ∈ e.current, |sol.getD i 0 - e.current.getD i 0| ≤ e.relTol * |x|) := by
  unfold Est.setCurrentSolution at h
  obtain ⟨dx, hdx, h⟩ := bind_inv h
  cases h
  obtain ⟨dx', e1, e2, e3⟩ := vsub_ok (vsub_len hdx)
  rw [hdx] at e1
  cases e1
  have hstat : ∀ e : Est K, e.status = .converged ↔ e.absError ≤ e.absTol ∧ e.relError ≤ e.relTol := by
    intro e
    unfold Est.status
    split
    · rename_i hc
      exact ⟨fun _ => hc, fun _ => rfl⟩
    · rename_i hc
      split
      · exact ⟨fun h => (by cases h), fun h => absurd h hc⟩
      · split
        · exact ⟨fun h => (by cases h), fun h => absurd h hc⟩
        · exact ⟨fun h => (by cases h), fun h => absurd h hc⟩
  rw [hstat]
  dsimp only
  apply and_congr (infNorm_le ha)
  by_cases hp : 0 < infNorm e.current
  · rw [if_pos hp, div_le_iff₀ hp, infNorm_le (mul_nonneg hr (le_of_lt hp))]
    obtain ⟨-, g2, g3⟩ := infNorm_spec e.current
    obtain ⟨x, hx, hxn⟩ := g3.resolve_left (ne_of_gt hp)
    have hmem : (∀ y ∈ dx, |y| ≤ e.relTol * infNorm e.current) ↔
        ∀ i, i < sol.length → |sol.getD i 0 - e.current.getD i 0| ≤ e.relTol * infNorm e.current := by
      constructor
      · intro hy i hi
        rw [← e3 i hi]
        apply hy
        rw [List.getD_eq_getElem?_getD, List.getElem?_eq_getElem (by omega)]
        exact List.getElem_mem _
      · intro hy y hym
        obtain ⟨i, hi, rfl⟩ := List.getElem_of_mem hym
        have := hy i (by omega)
        rw [← e3 i (by omega), List.getD_eq_getElem?_getD, List.getElem?_eq_getElem hi] at this
        exact this
    rw [hmem]
    constructor
    · intro hy
      exact Or.inr (fun i hi => ⟨x, hx, by rw [hxn]; exact hy i hi⟩)
    · rintro (hz | hy)
      · obtain ⟨z, hz1, hz2⟩ := infNorm_pos.1 hp
        exact absurd (hz z hz1) hz2
      · intro i hi
        obtain ⟨z, hz1, hz2⟩ := hy i hi
        exact le_trans hz2 (mul_le_mul_of_nonneg_left (g2 z hz1) hr)
  · rw [if_neg hp]
    have hz : ∀ x ∈ e.current, x = 0 := by
      intro x hx
      by_contra hne
      exact hp (infNorm_pos.2 ⟨x, hx, hne⟩)
    exact ⟨fun _ => Or.inl hz, fun _ => hr⟩

/-- C20: `Diverged` exactly when not converged and an enabled threshold is reached by a residual, or by a
change relative to the largest absolute value of the previous solution. -/
theorem C20_diverged {e e' : Est K} {sol res : List K} (h : e.setCurrentSolution sol res = .ok e') :
    e'.status = .diverged ↔ e'.status ≠ .converged ∧
      ((0 < e.absMax ∧ ∃ r ∈ res, e.absMax ≤ |r|) ∨
       (0 < e.relMax ∧ (∃ x ∈ e.current, x ≠ 0) ∧ ∃ i, i < sol.length ∧
        ∀ x ∈ e.current, e.relMax * |x| ≤ |sol.getD i 0 - e.current.getD i 0|)) := by
  unfold Est.setCurrentSolution at h
  obtain ⟨dx, hdx, h⟩ := bind_inv h
  cases h
  obtain ⟨dx', e1, e2, e3⟩ := vsub_ok (vsub_len hdx)
  rw [hdx] at e1
  cases e1
  have hstat : ∀ e : Est K, e.status = .diverged ↔ e.status ≠ .converged ∧
      ((0 < e.absMax ∧ e.absMax ≤ e.absError) ∨ (0 < e.relMax ∧ e.relMax ≤ e.relError)) := by
    intro e
    unfold Est.status
    split
    · simp
    · split
      · rename_i hc
        simp [hc.1, hc.2]
      · rename_i hc
        split
        · rename_i hc2
          simp [hc2.1, hc2.2]
        · rename_i hc2
          simp only [reduceCtorEq, ne_eq, not_false_eq_true, true_and, false_iff, not_or]
          exact ⟨hc, hc2⟩
  rw [hstat]
  dsimp only
  apply and_congr Iff.rfl
  apply or_congr
  · constructor
    · rintro ⟨h1, h2⟩
      exact ⟨h1, (infNorm_ge h1).1 h2⟩
    · rintro ⟨h1, h2⟩
      exact ⟨h1, (infNorm_ge h1).2 h2⟩
  · constructor
    · rintro ⟨h1, h2⟩
      split at h2
      · rename_i hp
        rw [le_div_iff₀ hp] at h2
        obtain ⟨y, hy, hy2⟩ := (infNorm_ge (mul_pos h1 hp)).1 h2
        refine ⟨h1, infNorm_pos.1 hp, ?_⟩
        obtain ⟨i, hi, rfl⟩ := List.getElem_of_mem hy
        refine ⟨i, by omega, fun x hx => ?_⟩
        have h3 := e3 i (by omega)
        rw [List.getD_eq_getElem?_getD, List.getElem?_eq_getElem hi] at h3
        rw [← h3]
        exact le_trans (mul_le_mul_of_nonneg_left ((infNorm_spec _).2.1 x hx) (le_of_lt h1)) hy2
      · exact absurd h2 (not_le.2 h1)
    · rintro ⟨h1, h2, i, hi, h3⟩
      have hp := infNorm_pos.2 h2
      refine ⟨h1, ?_⟩
      rw [if_pos hp, le_div_iff₀ hp]
      obtain ⟨x, hx, hxn⟩ := ((infNorm_spec e.current).2.2).resolve_left (ne_of_gt hp)
      refine (infNorm_ge (mul_pos h1 hp)).2 ⟨dx.getD i 0, ?_, ?_⟩
      · rw [List.getD_eq_getElem?_getD, List.getElem?_eq_getElem (by omega)]
        exact List.getElem_mem _
      · rw [e3 i hi, ← hxn]
        exact h3 x hx

/-- C20: the tolerances stay and the next call compares with the solution set now; after `reset` the
status is `Converged`, before any residual is known. -/
theorem C20_history (e : Est K) (guess sol res : List K) :
    (e.reset guess).current = guess ∧
    (0 ≤ e.absTol → 0 ≤ e.relTol → (e.reset guess).status = .converged) ∧
    (∀ e', e.setCurrentSolution sol res = .ok e' → e'.current = sol ∧ e'.absTol = e.absTol ∧
      e'.relTol = e.relTol ∧ e'.absMax = e.absMax ∧ e'.relMax = e.relMax) ∧
    ((∃ e', e.setCurrentSolution sol res = .ok e') ↔ sol.length ≤ e.current.length) := by
  refine ⟨rfl, fun h1 h2 => ?_, ?_, ?_⟩
  · unfold Est.status
    exact if_pos ⟨h1, h2⟩
  · intro e' h
    unfold Est.setCurrentSolution at h
    obtain ⟨dx, hdx, h⟩ := bind_inv h
    cases h
    exact ⟨rfl, rfl, rfl, rfl, rfl⟩
  · constructor
    · rintro ⟨e', h⟩
      unfold Est.setCurrentSolution at h
      obtain ⟨dx, hdx, h⟩ := bind_inv h
      exact vsub_len hdx
    · intro h
      obtain ⟨dx, h1, -, -⟩ := vsub_ok h
      unfold Est.setCurrentSolution
      rw [h1, bind_ok]
      exact ⟨_, rfl⟩

/-! ### C21: residual and solution -/

variable {D : Type}

/-- The contract of a line search: it reports the residual of the point it leads to, and touches nothing
if the ratio is zero. -/
def Honest (P : Parts D K) : Prop :=
  ∀ d x f0 res r f, P.search d x f0 res = .ok (r, f) →
    (r = 0 → f = res) ∧ (r ≠ 0 → ∃ y, addScaled x d r = .ok y ∧ P.F.map y = .ok f)

/-- Iteration performers after any sequence of calls -/
inductive PerfUsed (P : Parts D K) : Perf D K → Prop
  | new (x f : List K) (ratio : K) (est : Est K) (dir : D) : PerfUsed P ⟨x, f, false, ratio, est, dir⟩
  | guess {s : Perf D K} (x : List K) (hard : Bool) : PerfUsed P s → PerfUsed P (s.setInitialGuess P x hard)
  | reset {s : Perf D K} (hard : Bool) : PerfUsed P s → PerfUsed P (s.reset P hard)
  | residual {s s' : Perf D K} : PerfUsed P s → s.currentResidual P = .ok s' → PerfUsed P s'
  | iteration {s s' : Perf D K} {it : Nat} {st : Status} : PerfUsed P s → s.iteration P it = .ok (s', st) →
      PerfUsed P s'
  | other {s : Perf D K} (dir : D) (est : Est K) : PerfUsed P s → PerfUsed P { s with dir := dir, est := est }

/-- The residual kept is that of the solution. -/
def Consistent (P : Parts D K) (s : Perf D K) : Prop := s.fValid = true → P.F.map s.x = .ok s.f

theorem residual_ok {P : Parts D K} {s s' : Perf D K} (hs : Consistent P s)
    (h : s.currentResidual P = .ok s') :
    s'.fValid = true ∧ P.F.map s'.x = .ok s'.f ∧ s'.x = s.x ∧ s'.est = s.est ∧ s'.dir = s.dir := by
  unfold Perf.currentResidual at h
  split at h
  · rename_i hv
    cases h
    exact ⟨hv, hs hv, rfl, rfl, rfl⟩
  · obtain ⟨f, hf, h⟩ := bind_inv h
    cases h
    exact ⟨rfl, hf, rfl, rfl, rfl⟩

/-- One iteration of a consistent performer: the point, the residual, the status. -/
theorem iteration_ok {P : Parts D K} (hP : Honest P) {s s' : Perf D K} {it : Nat} {st : Status}
    (hs : Consistent P s) (h : s.iteration P it = .ok (s', st)) :
    s'.fValid = true ∧ P.F.map s'.x = .ok s'.f ∧
    ∃ f0 d, P.F.map s.x = .ok f0 ∧ addScaled s.x d s'.ratio = .ok s'.x ∧
      s.est.setCurrentSolution s'.x s'.f = .ok s'.est ∧ (s'.ratio = 0 → s'.f = f0 ∧ s'.x = s.x) ∧
      P.search d s.x f0 f0 = .ok (s'.ratio, s'.f) ∧
      (∃ dir', P.direction s.x f0 it s.dir = .ok (dir', d) ∧ s'.dir = dir') ∧
      (st = if s'.ratio = 0 ∧ s'.est.status = .proceed then .diverged else s'.est.status) := by
  unfold Perf.iteration at h
  obtain ⟨s1, h1, h⟩ := bind_inv h
  obtain ⟨r1, r2, r3, r4, r5⟩ := residual_ok hs h1
  obtain ⟨d, h2, h⟩ := bind_inv h
  obtain ⟨r, h3, h⟩ := bind_inv h
  obtain ⟨x, h4, h⟩ := bind_inv h
  obtain ⟨est, h5, h⟩ := bind_inv h
  cases h
  dsimp only
  rw [r3] at r2 h2 h3 h4
  rw [r4] at h5
  rw [r5] at h2
  obtain ⟨c1, c2⟩ := hP _ _ _ _ _ _ h3
  refine ⟨r1, ?_, s1.f, d.2, r2, h4, h5, ?_, h3, ⟨d.1, h2, rfl⟩, rfl⟩
  · by_cases hz : r.1 = 0
    · rw [hz] at h4
      rw [addScaled_zero h4, c1 hz]
      exact r2
    · obtain ⟨y, e1, e2⟩ := c2 hz
      rw [h4] at e1
      cases e1
      exact e2
  · intro hz
    rw [hz] at h4
    exact ⟨c1 hz, addScaled_zero h4⟩

theorem used_consistent {P : Parts D K} (hP : Honest P) {s : Perf D K} (h : PerfUsed P s) :
    Consistent P s := by
  induction h with
  | new => exact fun h => by cases h
  | guess x hard _ _ => exact fun h => by cases h
  | reset hard _ ih => exact ih
  | residual _ h ih => exact fun _ => (residual_ok ih h).2.1
  | iteration _ h ih => exact fun _ => (iteration_ok hP ih h).2.1
  | other dir est _ ih => exact ih

/-- C21: after any sequence of calls with any mapping and descent direction, `currentResidual()` is the
mapping at `currentSolution()`, if the line search keeps its contract. -/
theorem C21_residual {P : Parts D K} (hP : Honest P) {s s' : Perf D K} (h : PerfUsed P s)
    (hr : s.currentResidual P = .ok s') : P.F.map s.x = .ok s'.f ∧ s'.x = s.x := by
  obtain ⟨-, h2, h3, -, -⟩ := residual_ok (used_consistent hP h) hr
  rw [h3] at h2
  exact ⟨h2, h3⟩

/-- C21: the simple line search keeps it. -/
theorem C21_simple (P : Parts D K) (limit : Nat)
    (hs : ∀ d x f0 res, P.search d x f0 res = (do
      let r ← lineSearch P.F limit d x f0 res
      .ok (r.1, r.2.1))) : Honest P := by
  intro d x f0 res r f h
  rw [hs] at h
  obtain ⟨⟨r', f', n⟩, h1, h⟩ := bind_inv h
  cases h
  obtain ⟨-, h2, h3⟩ := C19_search h1
  exact ⟨fun hz => (h2 hz).1, fun hn => (h3 hn).2.2⟩

end

/-! ### Concrete cases -/

/-- `x - 12` -/
def exShift : Mapping ℚ := affine 1 (fun _ _ => 1) (fun _ => 12)

/-- The step is halved twice. -/
example : ∃ n, lineSearch exShift 8 [44] [1] [-11] [-11] = .ok (1 / 4, [0], n) := ⟨3, by decide +kernel⟩

/-- The direction is reversed. -/
example : lineSearch exShift 2 [-11] [1] [-11] [-11] = .ok (-1, [0], 3) := by decide +kernel

/-- Nothing helps: all steps are too long. -/
example : lineSearch exShift 2 [1000] [1] [-11] [-11] = .ok (0, [-11], 4) := by decide +kernel

/-- The hypotheses of `C19_full_step` are met. -/
example : lineSearch exShift 8 [10] [1] [-11] [] = .ok (1, [-1], 1) :=
  C19_full_step (x := [11]) (f := [-1]) [] (by norm_num) (by decide +kernel) (by decide +kernel) (by decide +kernel)

/-- An estimator with the tolerances the library sets -/
def exEst : Est ℚ := ⟨1 / 1000000, 1 / 1000000, 100000000000000000000, 10, [], 0, 0⟩

/-- Each status occurs; the residual zero does not prevent `Diverged`. -/
example : ∃ e1 e2 e3, (exEst.reset [1]).setCurrentSolution [12] [0] = .ok e1 ∧ e1.status = .diverged ∧
    (exEst.reset [2]).setCurrentSolution [12] [0] = .ok e2 ∧ e2.status = .proceed ∧
    e2.setCurrentSolution [12] [0] = .ok e3 ∧ e3.status = .converged := by
  exact ⟨_, _, _, rfl, by decide +kernel, rfl, by decide +kernel, rfl, by decide +kernel⟩

/-- A performer with a simple direction, used for two iterations, is among those of `C21_residual`. -/
example : ∃ s : Perf (Dir ℚ) ℚ, PerfUsed (parts .simple exShift 1 8) s ∧ s.x = [12] ∧ s.fValid = true ∧
    Honest (parts .simple exShift 1 8) := by
  let s0 : Perf (Dir ℚ) ℚ := ⟨[], [], false, 1, exEst, Dir.new (Prov.new .default)⟩
  obtain ⟨⟨s1, st1⟩, h1, h2⟩ := Verif.Res.exists_of_test
    (r := (s0.setInitialGuess (parts .simple exShift 1 8) [1] false).iteration (parts .simple exShift 1 8) 0)
    (p := fun r => match r.1.iteration (parts .simple exShift 1 8) 1 with
      | .ok r => decide (r.1.x = [12] ∧ r.1.fValid = true)
      | .error _ => false) (by decide +kernel)
  split at h2
  · rename_i r e
    obtain ⟨h3, h4⟩ := of_decide_eq_true h2
    exact ⟨r.1, .iteration (st := r.2) (.iteration (.guess [1] false (.new _ _ _ _ _)) h1) e, h3, h4,
      C21_simple _ 8 (fun _ _ _ _ => rfl)⟩
  · cases h2

end Verif.Alg
