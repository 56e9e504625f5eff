import Verif.Event.Watch
import Verif.Event.Locate
import Verif.RK.Converge
import Verif.RK.Orders
import Verif.TestModels.OscProps

/-! # C134: how accurately events are located -/

set_option linter.unusedSectionVars false

namespace Verif.Event

open Verif.Res Verif.RK Filter Topology Set

/-- The first event of a run with steps of the size `h` is found with an error of `h^p`, but not better than `h^2`.

Function `i` of `n` is the first to reach zero along the solution `y`, at the time `a`, and crosses zero there; all functions are
watched and are not zero at the start. Then the solver makes `k` steps, as accurate as they are without events, and the step
after them either is cut: `switchPhaseState` is called for function `i` at a time and with a state close to the time `a` and the
solution there, and the solver goes on from what it returns; or this step throws, if function `i` is zero just at its end. -/
def Located (co : Coefficients ℚ) (p : Nat) : Prop :=
  ∀ {E Q : Type} [NormedAddCommGroup E] [NormedSpace ℝ E] [CompleteSpace E] (r : EvRhs ℝ E Q) (n : Nat)
    (_ : ∀ q t x, (r.zeroFunctions q t x).length = n) (q : Q) (_ : r.zeroFuncCount q = n)
    (_ : (r.zeroFuncFlags q).length = n) (m : Method ℝ E (Ctl ℝ × Q)) (_ : m.co = co.cast ℝ)
    (_ : m.ec = some (controller r)) (y : ℝ → E) (t₀ b : ℝ)
    (_ : ∀ t ∈ Icc t₀ b, ContDiffAt ℝ (p + 1 : Nat) (fun z : ℝ × E => m.rhs z.1 z.2) (t, y t))
    (_ : ∀ t ∈ Icc t₀ b, ∀ᶠ s in 𝓝 t, HasDerivAt y (m.rhs s (y s)) s)
    (g : Nat → ℝ × E → ℝ) (_ : ∀ j z, g j z = (r.zeroFunctions q z.1 z.2).getD j 0)
    (i : Nat) (_ : i < n) (a : ℝ) (_ : t₀ < a) (_ : a < b)
    (_ : ∀ j < n, Watched ((r.zeroFuncFlags q).getD j 0) (g j (t₀, y t₀)))
    (_ : ∀ j < n, ∀ t ∈ Icc t₀ a, ContinuousAt (g j) (t, y t))
    (_ : ∀ j < n, ∀ t ∈ Icc t₀ a, (j ≠ i ∨ t ≠ a) → g j (t, y t) ≠ 0)
    (_ : g i (a, y a) = 0) (_ : ContDiffAt ℝ 2 (g i) (a, y a)) (_ : deriv (fun t => g i (t, y t)) a ≠ 0),
    ∃ C : ℝ, ∃ h₀ > (0 : ℝ), ∀ h, 0 < h → h ≤ h₀ → ∀ (hold : Option ℝ) (e : Ctl ℝ) (_ : e.clean = true),
      ∃ (k : Nat) (st : Nat → FixedSt ℝ E (Ctl ℝ × Q)),
        st 0 = ⟨t₀, y t₀, hold, Output.mkEmpty, h, (e, q), []⟩ ∧
        (∀ j < k, (st j).doStep m = .ok (st (j + 1))) ∧
        (∀ j ≤ k, (st j).t = t₀ + j * h ∧ ‖(st j).x - y (st j).t‖ ≤ C * h ^ p ∧ (st j).ec.2 = q) ∧
        ((∃ τ z q' s', |τ - a| ≤ C * h ^ min p 2 ∧ ‖z - y a‖ ≤ C * h ^ min p 2 ∧ (st k).t ≤ τ ∧ τ ≤ (st k).t + h ∧
          r.switchPhaseState q ((List.replicate n 0).set i (if 0 < g i (t₀, y t₀) then -1 else 1)) τ z = (q', s'.x) ∧
          (st k).doStep m = .ok s' ∧ s'.t = τ ∧ s'.ec.2 = q') ∨
        (∃ s', (st k).doStep { m with ec := none } = .ok s' ∧ g i (s'.t, s'.x) = 0 ∧ |s'.t - a| ≤ C * h ^ p ∧
          (st k).doStep m = .error (.exc "out_of_range")))

set_option maxHeartbeats 2000000 in
theorem located {co : Coefficients ℚ} {s p : Nat} (hs : 1 ≤ s) (hpk : (co.tableau s).pack 1 (-1) = co)
    (hr : RowCheck co s = true) (hc : OrderCheck co s 0 p = true) (hp : 1 ≤ p) : Located co p := by
  intro E Q _ _ _ r n hlen q hcount hflags m hm hec y t₀ b hf hy g hg i hi a hta hab hw hcont hne hzero hg2 hder
  obtain ⟨C, hC, hA, hhA, conv⟩ := grid_converges hr hc hp m.rhs t₀ b y hf hy
  have haI : a ∈ Icc t₀ b := ⟨hta.le, hab.le⟩
  have hn : 0 < n := by omega
  have hya : ContDiffAt ℝ 2 y a := (solution_contDiffAt (hf a haI) (hy a haI)).of_le (by
    exact_mod_cast (by omega : 2 ≤ p + 1))
  have hycont : ∀ t ∈ Icc t₀ b, ContinuousAt y t := fun t ht => (hy t ht).self_of_nhds.continuousAt
  have hGd : HasDerivAt (fun t => g i (t, y t)) (deriv (fun t => g i (t, y t)) a) a :=
    (differentiableAt_of_deriv_ne_zero hder).hasDerivAt
  generalize deriv (fun t => g i (t, y t)) a = d at hder hGd
  obtain ⟨K, hK, δ, hδ, loc, side⟩ := locate hg2 hya hzero hGd hder
  -- signs along the solution
  have hGcont : ∀ j < n, ContinuousOn (fun t => g j (t, y t)) (Icc t₀ a) := fun j hj t ht =>
    (ContinuousAt.comp (f := fun t => (t, y t)) (hcont j hj t ht)
      (continuousAt_id.prodMk (hycont t ⟨ht.1, ht.2.trans hab.le⟩))).continuousWithinAt
  set z0 : Nat → ℝ := fun j => g j (t₀, y t₀) with hz0
  have sgnOther : ∀ j < n, j ≠ i → ∀ t ∈ Icc t₀ a, 0 < z0 j * g j (t, y t) := fun j hj hji =>
    keeps_sign (hGcont j hj) (fun t ht => hne j hj t ht (.inl hji))
  have sgnAll : ∀ j < n, ∀ t ∈ Icc t₀ a, t ≠ a → 0 < z0 j * g j (t, y t) := fun j hj t ht hta' =>
    keeps_sign (c := t) ((hGcont j hj).mono (Icc_subset_Icc le_rfl ht.2)) (fun u hu => hne j hj u ⟨hu.1, hu.2.trans ht.2⟩
      (.inr (fun h => hta' (le_antisymm ht.2 (h ▸ hu.2))))) t ⟨ht.1, le_rfl⟩
  have hdneg : z0 i * d < 0 := by
    obtain ⟨t, h1, h2⟩ : ∃ t, max t₀ (a - δ) < t ∧ t < a := exists_between (max_lt hta (by linarith))
    rw [max_lt_iff] at h1
    have s1 := sgnAll i hi t ⟨h1.1.le, h2.le⟩ h2.ne
    have s2 := side t (y t) 0 (by rw [abs_lt]; constructor <;> linarith) hδ (by simp) (by
      rw [mul_zero]; exact abs_pos.2 (by linarith))
    rcases lt_or_gt_of_ne hder with hd | hd
    · have : 0 < g i (t, y t) := by
        have h3 : 0 < d * (t - a) := mul_pos_of_neg_of_neg hd (by linarith)
        exact (mul_pos_iff_of_pos_left h3).1 s2
      have : 0 < z0 i := (mul_pos_iff_of_pos_right this).1 s1
      exact mul_neg_of_pos_of_neg this hd
    · have : g i (t, y t) < 0 := by
        have h3 : d * (t - a) < 0 := mul_neg_of_pos_of_neg hd (by linarith)
        by_contra hc
        nlinarith
      have : z0 i < 0 := by
        by_contra hc
        nlinarith
      exact mul_neg_of_neg_of_pos this hd
  -- tubes around the solution
  obtain ⟨ρ1, hρ1, tube1⟩ := tube (P := fun z => ∀ j ∈ Finset.range n, j ≠ i → 0 < z0 j * g j z) (y := y) (a := t₀) (c := a)
    (fun t ht => (hycont t ⟨ht.1, ht.2.trans hab.le⟩).continuousWithinAt) (fun t ht => by
      rw [eventually_all_finset]
      intro j hj
      rw [Finset.mem_range] at hj
      by_cases hji : j = i
      · exact Eventually.of_forall (fun z hc => absurd hji hc)
      · have := (continuousAt_const (y := z0 j)).mul (hcont j hj t ht)
        filter_upwards [this.eventually (lt_mem_nhds (sgnOther j hj hji t ht))] with z hz _ using hz)
  obtain ⟨δ', hδ', near⟩ := Metric.continuousAt_iff.1 (hycont a haI) (ρ1 / 2) (by linarith)
  set D := min (min δ δ') (min (b - a) ρ1) / 2 with hD
  have hDpos : 0 < D := by
    rw [hD]
    have : 0 < min (min δ δ') (min (b - a) ρ1) := lt_min (lt_min hδ hδ') (lt_min (by linarith) hρ1)
    linarith
  have hD2 : 2 * D = min (min δ δ') (min (b - a) ρ1) := by rw [hD]; ring
  have Dδ : 2 * D ≤ δ := by rw [hD2]; simp
  have Dδ' : 2 * D ≤ δ' := by rw [hD2]; simp
  have Db : 2 * D ≤ b - a := by rw [hD2]; simp
  have Dρ : 2 * D ≤ ρ1 := by rw [hD2]; simp
  obtain ⟨ρ2, hρ2, tube2⟩ := tube (P := fun z => ∀ j ∈ Finset.range n, 0 < z0 j * g j z) (y := y) (a := t₀) (c := a - D / 2)
    (fun t ht => (hycont t ⟨ht.1, by linarith [ht.2]⟩).continuousWithinAt) (fun t ht => by
      rw [eventually_all_finset]
      intro j hj
      rw [Finset.mem_range] at hj
      have hta' : t ∈ Icc t₀ a := ⟨ht.1, by linarith [ht.2]⟩
      have := (continuousAt_const (y := z0 j)).mul (hcont j hj t hta')
      exact this.eventually (lt_mem_nhds (sgnAll j hj t hta' (by intro h; linarith [ht.2]))))
  -- the step size
  set B := min (min (ρ1 / 2) ρ2) (min δ (D / 4)) / (C * (K + 1) + 1) with hB
  have hden : 0 < C * (K + 1) + 1 := by positivity
  have hmin : 0 < min (min (ρ1 / 2) ρ2) (min δ (D / 4)) := lt_min (lt_min (by linarith) hρ2) (lt_min hδ (by linarith))
  have hBpos : 0 < B := div_pos hmin hden
  refine ⟨max C (K * (C + 1)) + K * C, min (min hA 1) (min (D / 4) (B / 2)), lt_min (lt_min hhA one_pos) (lt_min (by linarith) (by linarith)),
    fun h hh hle hold e hclean => ?_⟩
  simp only [le_min_iff] at hle
  obtain ⟨⟨hle1, hle2⟩, hle3, hle4⟩ := hle
  set ε := C * h ^ p with hε
  have hpow : h ^ p ≤ h := by
    calc h ^ p ≤ h ^ 1 := pow_le_pow_of_le_one hh.le hle2 hp
      _ = h := pow_one h
  have hεK : ε * (K + 1) < min (min (ρ1 / 2) ρ2) (min δ (D / 4)) := by
    have h1 : ε * (K + 1) ≤ C * (K + 1) * h := by
      rw [hε]
      have := mul_le_mul_of_nonneg_left hpow (by positivity : 0 ≤ C * (K + 1))
      linarith
    have h2 : h < B := by linarith
    have h3 : h * (C * (K + 1) + 1) < min (min (ρ1 / 2) ρ2) (min δ (D / 4)) := by
      rw [hB, lt_div_iff₀ hden] at h2
      exact h2
    linarith
  have hε0 : 0 ≤ ε := by positivity
  have hεle : ε ≤ ε * (K + 1) := by nlinarith
  simp only [lt_min_iff] at hεK
  obtain ⟨⟨e1, e2⟩, e3, e4⟩ := hεK
  have hKε : K * ε < D / 4 := by nlinarith
  -- the states of the method
  let T := (co.cast ℝ).tableau s
  let xs : Nat → E := fun k => Nat.rec (y t₀) (fun k x => T.output m.rhs (t₀ + k * h) h x 0) k
  have hxs : ∀ k, xs (k + 1) = T.output m.rhs (t₀ + k * h) h (xs k) 0 := fun _ => rfl
  have acc : ∀ k : Nat, t₀ + k * h ≤ b → ‖xs k - y (t₀ + k * h)‖ ≤ ε := fun k hk =>
    conv h hh.le hle1 k xs (fun k => t₀ + k * h) (fun _ => h) rfl (by simp)
      (fun k _ => ⟨hh.le, le_refl h, by push_cast; ring, rfl⟩)
      (fun j hj => by
        have : (j : ℝ) * h ≤ k * h := mul_le_mul_of_nonneg_right (by exact_mod_cast hj) hh.le
        linarith) k le_rfl
  have other : ∀ k : Nat, t₀ + k * h ≤ a + D → ∀ j < n, j ≠ i → 0 < z0 j * g j (t₀ + k * h, xs k) := by
    intro k hk j hj hji
    have hac := acc k (by linarith)
    have hk0 : 0 ≤ (k : ℝ) * h := by positivity
    by_cases hka : t₀ + k * h ≤ a
    · exact tube1 (t₀ + k * h) ⟨by linarith, hka⟩ _ _ (by simpa using hρ1) (by linarith) j (Finset.mem_range.2 hj) hji
    · refine tube1 a ⟨hta.le, le_rfl⟩ _ _ (by rw [abs_lt]; constructor <;> linarith) ?_ j (Finset.mem_range.2 hj) hji
      have h1 := near (x := t₀ + k * h) (by rw [Real.dist_eq, abs_lt]; constructor <;> linarith)
      rw [dist_eq_norm] at h1
      have h2 := norm_add_le (xs k - y (t₀ + k * h)) (y (t₀ + k * h) - y a)
      rw [sub_add_sub_cancel] at h2
      linarith
  have before : ∀ k : Nat, t₀ + k * h ≤ a - D / 2 → 0 < z0 i * g i (t₀ + k * h, xs k) := by
    intro k hk
    have hk0 : 0 ≤ (k : ℝ) * h := by positivity
    exact tube2 (t₀ + k * h) ⟨by linarith, hk⟩ _ _ (by simpa using hρ2) (by linarith [acc k (by linarith)]) i
      (Finset.mem_range.2 hi)
  have after : ∀ k : Nat, a + D / 2 ≤ t₀ + k * h → t₀ + k * h ≤ a + D → z0 i * g i (t₀ + k * h, xs k) < 0 := by
    intro k h1 h2
    have s2 := side (t₀ + k * h) (xs k) ε (by rw [abs_lt]; constructor <;> linarith) (by linarith) (acc k (by linarith))
      (by rw [abs_of_pos (by linarith)]; linarith)
    have h3 : 0 < t₀ + k * h - a := by linarith
    have h4 : 0 < d * g i (t₀ + k * h, xs k) := by
      have : d * (t₀ + k * h - a) * g i (t₀ + k * h, xs k) = (t₀ + k * h - a) * (d * g i (t₀ + k * h, xs k)) := by ring
      rw [this] at s2
      exact (mul_pos_iff_of_pos_left h3).1 s2
    rcases lt_or_gt_of_ne hder with hd | hd
    · have h5 : 0 < z0 i := by by_contra hc; nlinarith
      have h6 : g i (t₀ + k * h, xs k) < 0 := by by_contra hc; nlinarith
      exact mul_neg_of_pos_of_neg h5 h6
    · have h5 : z0 i < 0 := by by_contra hc; nlinarith
      have h6 : 0 < g i (t₀ + k * h, xs k) := by by_contra hc; nlinarith
      exact mul_neg_of_neg_of_pos h5 h6
  -- the first grid point at which the function has left its side
  obtain ⟨M, hM1, hM2⟩ : ∃ M : Nat, a + D / 2 ≤ t₀ + M * h ∧ t₀ + M * h ≤ a + D := by
    refine ⟨⌈(a + D / 2 - t₀) / h⌉₊, ?_, ?_⟩
    · have := mul_le_mul_of_nonneg_right (Nat.le_ceil ((a + D / 2 - t₀) / h)) hh.le
      rw [div_mul_cancel₀ _ hh.ne'] at this
      linarith
    · have := mul_lt_mul_of_pos_right (Nat.ceil_lt_add_one (div_nonneg (by linarith : 0 ≤ a + D / 2 - t₀) hh.le)) hh
      rw [add_mul, div_mul_cancel₀ _ hh.ne'] at this
      linarith
  have hex : ∃ k : Nat, z0 i * g i (t₀ + k * h, xs k) ≤ 0 := ⟨M, (after M hM1 hM2).le⟩
  classical
  obtain ⟨N, hN, hNmin, hNM⟩ : ∃ N : Nat, z0 i * g i (t₀ + N * h, xs N) ≤ 0 ∧
      (∀ k < N, 0 < z0 i * g i (t₀ + k * h, xs k)) ∧ N ≤ M :=
    ⟨Nat.find hex, Nat.find_spec hex, fun k hk => not_le.1 (Nat.find_min hex hk), Nat.find_min' hex (after M hM1 hM2).le⟩
  have hz0ne : z0 i ≠ 0 := fun h => by rw [h, zero_mul] at hdneg; exact lt_irrefl _ hdneg
  obtain ⟨k, rfl⟩ : ∃ k, N = k + 1 := by
    cases N with
    | zero =>
      exfalso
      have e0 : g i (t₀ + (0 : Nat) * h, xs 0) = z0 i := by
        rw [Nat.cast_zero, zero_mul, add_zero]
        rfl
      rw [e0] at hN
      exact absurd (mul_self_pos.2 hz0ne) (not_lt.2 hN)
    | succ k => exact ⟨k, rfl⟩
  have htN : t₀ + (k + 1 : Nat) * h ≤ a + D := by
    have : ((k + 1 : Nat) : ℝ) * h ≤ M * h := mul_le_mul_of_nonneg_right (by exact_mod_cast hNM) hh.le
    linarith
  have htN' : a - D / 2 < t₀ + (k + 1 : Nat) * h := by
    by_contra hc
    exact absurd (before _ (not_lt.1 hc)) (not_lt.2 hN)
  have hgrid : ∀ j : Nat, j ≤ k + 1 → t₀ + j * h ≤ a + D := fun j hj => by
    have : (j : ℝ) * h ≤ (k + 1 : Nat) * h := mul_le_mul_of_nonneg_right (by exact_mod_cast hj) hh.le
    linarith
  have hT1 : 1 ≤ T.s := hs
  have hT0 : T.c 0 = 0 := rfl
  have hTm : m.co = T.pack 1 (-1) := by rw [hm]; exact (cast_pack hpk).symm
  obtain ⟨st, b0, b1, b2, cut, land⟩ := run_event hT1 hT0 hlen hcount hflags hTm hec hg hi hxs hw k
    (fun l _ hl j hj => by
      by_cases hji : j = i
      · subst hji; exact hNmin l (by omega)
      · exact other l (hgrid _ (by omega)) j hj hji)
    (fun j hj hji => other (k + 1) htN j hj hji) hold e hclean
  have hKC : 0 ≤ K * C := by positivity
  have hbigC : C ≤ max C (K * (C + 1)) + K * C := by linarith [le_max_left C (K * (C + 1))]
  have hbigK : K * C ≤ max C (K * (C + 1)) + K * C := by
    linarith [le_max_left C (K * (C + 1))]
  have hmin2 : K * (ε + h ^ 2) ≤ (max C (K * (C + 1)) + K * C) * h ^ min p 2 := by
    have m1 : h ^ p ≤ h ^ min p 2 := pow_le_pow_of_le_one hh.le hle2 (min_le_left _ _)
    have m2 : h ^ 2 ≤ h ^ min p 2 := pow_le_pow_of_le_one hh.le hle2 (min_le_right _ _)
    have m3 : K * (ε + h ^ 2) ≤ K * (C + 1) * h ^ min p 2 := by
      have := mul_le_mul_of_nonneg_left m1 hC
      have : ε + h ^ 2 ≤ (C + 1) * h ^ min p 2 := by rw [hε]; linarith
      have := mul_le_mul_of_nonneg_left this hK
      linarith
    have m4 : K * (C + 1) ≤ max C (K * (C + 1)) + K * C := by linarith [le_max_right C (K * (C + 1))]
    exact m3.trans (mul_le_mul_of_nonneg_right m4 (by positivity))
  refine ⟨k, st, b0, b1, fun j hj => ⟨(b2 j hj).1, ?_, (b2 j hj).2.2⟩, ?_⟩
  · rw [(b2 j hj).1, (b2 j hj).2.1]
    exact (acc j (by linarith [hgrid j (by omega)])).trans (mul_le_mul_of_nonneg_right hbigC (by positivity))
  have hkb : |t₀ + k * h - a| < δ := by
    have : (t₀ + (k + 1 : Nat) * h : ℝ) = t₀ + k * h + h := by push_cast; ring
    rw [abs_lt]
    constructor <;> linarith
  have hkb1 : |t₀ + (k + 1 : Nat) * h - a| < δ := by
    rw [abs_lt]; constructor <;> linarith
  rcases hN.lt_or_eq with hlt | heq
  · left
    obtain ⟨θ, q', s', θ0, θ1, lin, sw, f2, k3, k1⟩ := cut hlt
    obtain ⟨l1, l2⟩ := loc (t₀ + k * h) (t₀ + (k + 1 : Nat) * h) (xs k) (xs (k + 1)) ε θ hkb hkb1 (by linarith)
      (acc k (by linarith [hgrid k (by omega)])) (acc (k + 1) (by linarith)) θ0 θ1 lin
    have hstep : (t₀ + (k + 1 : Nat) * h : ℝ) - (t₀ + k * h) = h := by push_cast; ring
    rw [hstep] at l1 l2
    have ht := (b2 k le_rfl).1
    refine ⟨t₀ + k * h + θ * h, (1 - θ) • xs k + θ • xs (k + 1), q', s', l1.trans hmin2, l2.trans hmin2, ?_, ?_, sw, f2, k3, k1⟩
    · rw [ht]; nlinarith
    · rw [ht]; nlinarith
  · right
    have hzz : g i (t₀ + (k + 1 : Nat) * h, xs (k + 1)) = 0 := by
      rcases mul_eq_zero.1 heq with h1 | h1
      · exact absurd h1 hz0ne
      · exact h1
    obtain ⟨s', f2', k3, k2, f2⟩ := land hzz
    refine ⟨s', f2', ?_, ?_, f2⟩
    · rw [k2, k3]; exact hzz
    · rw [k3]
      by_contra hc
      have h1 : K * ε < |t₀ + (k + 1 : Nat) * h - a| := by
        have h2 := mul_le_mul_of_nonneg_right hbigK (by positivity : 0 ≤ h ^ p)
        have h3 : K * ε = K * C * h ^ p := by rw [hε]; ring
        linarith [not_le.1 hc]
      have := side _ (xs (k + 1)) ε hkb1 (by linarith) (acc (k + 1) (by linarith)) h1
      rw [hzz, mul_zero] at this
      exact lt_irrefl _ this

/-- C134. Explicit Euler: events are located to first order. -/
theorem C134_euler : Located euler 1 :=
  located (s := 1) (by decide) (coefficients_ext (by decide +kernel) (by decide +kernel) (by decide +kernel) rfl)
    (by decide +kernel) euler_check (by decide)

/-- C134. The classical Runge-Kutta method, of order 4: events are located to second order. -/
theorem C134_rk4 : Located rk4 4 :=
  located (s := 4) (by decide) (coefficients_ext (by decide +kernel) (by decide +kernel) (by decide +kernel) rfl)
    (by decide +kernel) rk4_check (by decide)

/-! ### A case in which the location is of second order, though the solver is exact -/

/-- One event function `1 - x`, watched from above; nothing is switched. -/
def falling : EvRhs ℝ ℝ Unit where
  zeroFuncCount _ := 1
  zeroFuncFlags _ := [1]
  zeroFunctions _ _ x := [1 - x]
  switchPhaseState q _ _ x := (q, x)
  truncateStep _ t x := (false, t, x)

/-- `x' = 2 t`, with the solution `t²`, for which the method makes no error -/
noncomputable def fallingMethod : Method ℝ ℝ (Ctl ℝ × Unit) := ⟨rk4.cast ℝ, fun t _ => 2 * t, some (controller falling)⟩

theorem falling_fun (j : Nat) (hj : j < 1) (v : ℝ) : ([v] : List ℝ).getD j 0 = v := by
  obtain rfl : j = 0 := by omega
  rfl

theorem falling_deriv (t : ℝ) : HasDerivAt (fun s : ℝ => s ^ 2) (2 * t) t := by
  simpa using hasDerivAt_pow 2 t

/-- The case meets the conditions of C134, with the event at the time 1. -/
example := C134_rk4 falling 1 (fun _ _ _ => rfl) () rfl rfl fallingMethod rfl rfl (fun t => t ^ 2) 0 2
  (fun t _ => by
    show ContDiffAt ℝ _ (fun z : ℝ × ℝ => 2 * z.1) _
    exact (contDiff_const.mul contDiff_fst).contDiffAt)
  (fun t _ => Eventually.of_forall falling_deriv)
  (fun j z => ([1 - z.2] : List ℝ).getD j 0) (fun _ _ => rfl) 0 (by decide) 1 (by norm_num) (by norm_num)
  (fun j hj => by
    obtain rfl : j = 0 := by omega
    left
    refine ⟨rfl, ?_⟩
    show (0 : ℝ) < 1 - 0 ^ 2
    norm_num)
  (fun j hj t _ => by
    simp only [falling_fun j hj]
    exact (continuous_const.sub continuous_snd).continuousAt)
  (fun j hj t ht hne => by
    simp only [falling_fun j hj]
    have h1 : t ≠ 1 := by
      rcases hne with h | h
      · omega
      · exact h
    have h2 : t < 1 := lt_of_le_of_ne ht.2 h1
    have h3 := ht.1
    nlinarith)
  (by simp) (by
    show ContDiffAt ℝ 2 (fun z : ℝ × ℝ => 1 - z.2) _
    exact (contDiff_const.sub contDiff_snd).contDiffAt)
  (by
    show deriv (fun t : ℝ => 1 - t ^ 2) 1 ≠ 0
    rw [((falling_deriv 1).const_sub 1).deriv]
    norm_num)

/-- C134. The second order cannot be improved: the method of order 4 makes no error at all here, and with steps of the size
`h = 2 / (2 N + 1)` the event at the time 1 is located at `1 - h² / 8`. -/
theorem C134_second_order (N : Nat) (hold : Option ℝ) (e : Ctl ℝ) (hclean : e.clean = true) (h : ℝ) (hh : h = 2 / (2 * N + 1)) :
    ∃ st : Nat → FixedSt ℝ ℝ (Ctl ℝ × Unit), st 0 = ⟨0, 0, hold, Output.mkEmpty, h, (e, ()), []⟩ ∧
      (∀ l ≤ N, (st l).doStep fallingMethod = .ok (st (l + 1))) ∧
      (∀ l ≤ N, (st l).t = l * h ∧ (st l).x = (st l).t ^ 2) ∧
      (st (N + 1)).t = 1 - h ^ 2 / 8 := by
  have hpos : 0 < h := by rw [hh]; positivity
  have hN : (N : ℝ) * h = 1 - h / 2 := by
    rw [hh]; field_simp; ring
  have hout : ∀ t x : ℝ, ((rk4.cast ℝ).tableau 4).output fallingMethod.rhs t h x 0 = x + 2 * t * h + h ^ 2 := by
    intro t x
    obtain ⟨k1, k2, k3, k4, e1, e2, e3, e4, e5⟩ := TestModels.rk4_output (V := ℝ) fallingMethod.rhs t h x
    rw [e5, e4, e3, e2, e1]
    simp only [fallingMethod, smul_eq_mul]
    ring
  have hl : ∀ l : Nat, l ≤ N → (l : ℝ) * h ≤ 1 - h / 2 := fun l hl => by
    rw [← hN]
    exact mul_le_mul_of_nonneg_right (by exact_mod_cast hl) hpos.le
  obtain ⟨st, b0, b1, b2, cut, -⟩ := run_event (T := (rk4.cast ℝ).tableau 4) (r := falling) (n := 1) (q := ()) (m := fallingMethod)
    (g := fun j z => ([1 - z.2] : List ℝ).getD j 0) (i := 0) (t₀ := 0) (h := h) (xs := fun k => ((k : ℝ) * h) ^ 2)
    (by decide) rfl (fun _ _ _ => rfl) rfl rfl
    (cast_pack (coefficients_ext (by decide +kernel) (by decide +kernel) (by decide +kernel) rfl)).symm rfl (fun _ _ => rfl)
    (by decide) (fun k => by rw [hout]; push_cast; ring)
    (fun j hj => by
      obtain rfl : j = 0 := by omega
      left
      refine ⟨rfl, ?_⟩
      simp)
    N (fun l _ hlN j hj => by
      simp only [falling_fun j hj]
      have h1 := hl l hlN
      have h2 : 0 ≤ (l : ℝ) * h := by positivity
      rw [Nat.cast_zero, zero_mul, zero_pow (by decide), sub_zero, one_mul]
      nlinarith)
    (fun j hj hj0 => by omega) hold e hclean
  obtain ⟨θ, q', s', -, -, lin, -, hs, ht, -⟩ := cut (by
    simp only [falling_fun 0 (by decide)]
    push_cast
    rw [add_mul, hN, zero_mul, zero_pow (by decide), sub_zero, one_mul]
    nlinarith)
  simp only [falling_fun 0 (by decide)] at lin
  push_cast at lin
  rw [add_mul, hN] at lin
  have hθ : θ = 1 / 2 - h / 8 := by
    have : (2 * h) * (θ - (1 / 2 - h / 8)) = 0 := by linear_combination (-1) * lin
    rcases mul_eq_zero.1 this with h1 | h1
    · linarith
    · linarith
  refine ⟨fun l => if l ≤ N then st l else s', ?_, fun l hlN => ?_, fun l hlN => ?_, ?_⟩
  · simp [b0]
  · by_cases h1 : l = N
    · subst h1
      simp only [le_refl, if_true, show ¬ (l + 1 ≤ l) by omega, if_false]
      exact hs
    · simp only [hlN, show l + 1 ≤ N by omega, if_true]
      exact b1 l (by omega)
  · simp only [hlN, if_true]
    obtain ⟨c1, c2, -⟩ := b2 l hlN
    rw [c1, c2]
    constructor <;> ring
  · simp only [show ¬ (N + 1 ≤ N) by omega, if_false]
    rw [ht, hN, hθ]
    ring

end Verif.Event
