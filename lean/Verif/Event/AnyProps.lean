import Verif.Event.AnyModel
import Verif.Event.HybridProps
import Verif.Event.AccuracyProps

/-! # C136: events are located by any solver as accurately as its states and the lengths of its steps allow -/

set_option linter.unusedSectionVars false

namespace Verif.Event

open Verif.Res Verif.RK Filter Topology Set

section
variable {K V Q : Type} [Field K] [LinearOrder K] [IsStrictOrderedRing K] [AddCommGroup V] [Module K V]
variable {r : EvRhs K V Q} {n : Nat} {fl : List Nat} {S σ : Nat → Int} {q : Q} {e : Ctl K}

theorem starts_eq {x : V} {t : K} {e1 : Ctl K} (h : e.atStepStart r q x t = .ok e1) (hc : e1.clean = false) (ht : e1.t1 = t) (m : Nat) :
    e.starts r q x t m = .ok e1 := by
  have again : ∀ m, e1.starts r q x t m = .ok e1 := by
    have h1 : e1.atStepStart r q x t = .ok e1 := by
      rw [atStepStart_dirty r q e1 x t hc, ← ht]
    intro m
    induction m with
    | zero => exact h1
    | succ m ih => simp only [Ctl.starts, h1, bind_ok, ih]
  cases m with
  | zero => exact h
  | succ m => simp only [Ctl.starts, h, bind_ok, again]

theorem Begins.handle {x : V} {t : K} {Z : List K → Prop} (h : Begins r n fl S e q t x Z) {e1 : Ctl K}
    (h1 : e.atStepStart r q x t = .ok e1) (m : Nat) (x2 : V) (t2 : K) :
    e.handle r q m x t x2 t2 = e1.atStepEnd r q x x2 t2 := by
  obtain ⟨e1', a1, a2, a3, -⟩ := h
  rw [h1] at a1
  cases a1
  simp only [Ctl.handle, starts_eq h1 a3.clean a2, bind_ok]

/-- Steps in which no function crosses -/
theorem any_quiet (hlen : ∀ q t x, (r.zeroFunctions q t x).length = n) {ts : Nat → K} {xs : Nat → V}
    (hB : Begins r n fl S e q (ts 0) (xs 0) (fun _ => True)) (tries : Nat → Nat) (k : Nat)
    (hno : ∀ l : Nat, 0 < l → l ≤ k → ∀ j < n, ¬ Crosses (fl.getD j 0) (S j) ((r.zeroFunctions q (ts l) (xs l)).getD j 0)) :
    ∃ es : Nat → Ctl K, es 0 = e ∧
      (∀ l < k, (es l).handle r q (tries l) (xs l) (ts l) (xs (l + 1)) (ts (l + 1)) = .ok ((es (l + 1), q), xs (l + 1), ts (l + 1), Trunc.none)) ∧
      Begins r n fl S (es k) q (ts k) (xs k) (fun z => 0 < k → z = r.zeroFunctions q (ts k) (xs k)) := by
  induction k with
  | zero =>
    obtain ⟨e1, c1, c2, c3, c4, c5, -⟩ := hB
    exact ⟨fun _ => e, rfl, fun l hl => by omega, e1, c1, c2, c3, c4, c5, fun h => by omega⟩
  | succ k ih =>
    obtain ⟨es, b0, b1, b2⟩ := ih (fun l h1 h2 => hno l h1 (by omega))
    obtain ⟨e1, e', d1, d2, d3, d4⟩ := b2.quiet (t2 := ts (k + 1)) (x2 := xs (k + 1)) hlen (fun j hj => hno (k + 1) (by omega) le_rfl j hj)
    refine ⟨fun l => if l ≤ k then es l else e', by simp [b0], fun l hl => ?_, ?_⟩
    · by_cases hlk : l = k
      · subst hlk
        simp only [le_refl, if_true, show ¬ (l + 1 ≤ l) by omega, if_false]
        rw [b2.handle d1, d2]
      · simp only [show l ≤ k by omega, show l + 1 ≤ k by omega, if_true]
        exact b1 l (by omega)
    · simp only [show ¬ (k + 1 ≤ k) by omega, if_false]
      exact d3.begins (fun _ => d4)

end

section
variable {E Q : Type} [NormedAddCommGroup E] [NormedSpace ℝ E]

/-- The controller watches the functions from the sides `σ`. -/
def Watching (r : EvRhs ℝ E Q) (n : Nat) (fl : List Nat) (σ : Nat → Int) (e : Ctl ℝ) (q : Q) (t : ℝ) (x : E) : Prop :=
  ∃ S : Nat → Int, (∀ j, j < n → Guard (fl.getD j 0) (S j) (σ j)) ∧ Begins r n fl S e q t x (fun _ => True)

set_option maxHeartbeats 800000 in
/-- C136. Any solver: the states it proposes are within `ε` of the curve `y` (here the solution in a phase, but nothing is required
of it but smoothness), its steps are not longer than `h`, and each may be accepted after any number of rejected attempts. Then the
event is located with an error of order `ε + h²`, and what has been assumed of the controller at the beginning is again true after
the event. If a function was not strictly on its side at the beginning, but left zero there, then the first step must not be too
short. -/
theorem C136_located (r : EvRhs ℝ E Q) (n : Nat) (fl : List Nat) (hlen : ∀ q t x, (r.zeroFunctions q t x).length = n)
    (P : Piece E Q) (hta : P.t₀ < P.a) (hy : ∀ t ∈ Icc P.t₀ P.a, ContDiffAt ℝ 2 P.y t) (ev : P.EndsIn r n) :
    ∃ C : ℝ, ∃ δ > (0 : ℝ), ∀ h ε : ℝ, h ≤ δ → ε ≤ δ → ∀ (ts : Nat → ℝ) (xs : Nat → E) (M : Nat),
      |ts 0 - P.t₀| ≤ ε → (∀ k ≤ M, ‖xs k - P.y (ts k)‖ ≤ ε) → (∀ k < M, ts k < ts (k + 1) ∧ ts (k + 1) ≤ ts k + h) →
      P.a + C * ε < ts M →
      (ts 0 = P.t₀ ∧ (∀ j < n, 0 < (P.σ j : ℝ) * zf r P.q j (P.t₀, P.y P.t₀)) ∨ ts 0 + C * ε < ts 1) →
      ∀ (e : Ctl ℝ) (_ : Watching r n fl P.σ e P.q (ts 0) (xs 0)) (tries : Nat → Nat),
      ∃ k < M, ∃ es : Nat → Ctl ℝ, es 0 = e ∧
        (∀ l < k, (es l).handle r P.q (tries l) (xs l) (ts l) (xs (l + 1)) (ts (l + 1)) =
          .ok ((es (l + 1), P.q), xs (l + 1), ts (l + 1), Trunc.none)) ∧
        ((∃ τ z q' x' e', |τ - P.a| ≤ C * (ε + h ^ 2) ∧ ‖z - P.y P.a‖ ≤ C * (ε + h ^ 2) ∧ ts k ≤ τ ∧ τ ≤ ts (k + 1) ∧
          r.switchPhaseState P.q ((List.replicate n 0).set P.i (-P.σ P.i)) τ z = (q', x') ∧
          (es k).handle r P.q (tries k) (xs k) (ts k) (xs (k + 1)) (ts (k + 1)) = .ok ((e', q'), x', τ, ⟨true, some P.i, -P.σ P.i⟩) ∧
          ∀ σ', NextSides n fl P.i P.σ σ' (fun j => zf r q' j (τ, x')) → Watching r n fl σ' e' q' τ x') ∨
        (zf r P.q P.i (ts (k + 1), xs (k + 1)) = 0 ∧ |ts (k + 1) - P.a| ≤ C * ε ∧
          (es k).handle r P.q (tries k) (xs k) (ts k) (xs (k + 1)) (ts (k + 1)) = .error (.exc "out_of_range"))) := by
  have hcont : ∀ t ∈ Icc P.t₀ P.a, ContinuousAt P.y t := fun t ht => (hy t ht).continuousAt
  have haI : P.a ∈ Icc P.t₀ P.a := ⟨hta.le, le_rfl⟩
  -- near the event
  have hGd := (differentiableAt_of_deriv_ne_zero ev.crosses).hasDerivAt
  have hder := ev.crosses
  generalize deriv (fun t => zf r P.q P.i (t, P.y t)) P.a = d at hder hGd
  obtain ⟨K1, hK1, δ1, hδ1, loc, beside⟩ := locate ev.smooth (hy _ haI) ev.zero hGd hder
  -- sides before the event
  obtain ⟨K2, hK2, hK20, ρ2, hρ2, near2⟩ := onSide_near_all (S := fun j => j ≠ P.i) ev.others hta hcont (hy _ ⟨le_rfl, hta.le⟩)
  set D := min (min δ1 ρ2) (P.a - P.t₀) / 2 with hD
  have hDpos : 0 < D := by
    have : 0 < min (min δ1 ρ2) (P.a - P.t₀) := lt_min (lt_min hδ1 hρ2) (by linarith)
    rw [hD]; linarith
  have hD2 : 2 * D ≤ min (min δ1 ρ2) (P.a - P.t₀) := by rw [hD]; linarith
  simp only [le_min_iff] at hD2
  obtain ⟨⟨Da, Db⟩, Dd⟩ := hD2
  obtain ⟨K3, hK3, hK30, ρ3, hρ3, near3⟩ := (ev.before (P.a - D / 2) (by linarith) (by linarith)).near (by linarith)
    (fun t ht => hcont t ⟨ht.1, by linarith [ht.2]⟩) (hy _ ⟨le_rfl, hta.le⟩)
  have hσd : (P.σ P.i : ℝ) * d < 0 := by
    have h1 := (ev.before (P.a - D / 2) (by linarith) (by linarith)).pos (P.a - D / 2) ⟨by linarith, le_rfl⟩ (by
      intro h; linarith)
    have h2 := beside (P.a - D / 2) (P.y (P.a - D / 2)) 0 (by rw [abs_lt]; constructor <;> linarith) hδ1 (by simp) (by
      rw [mul_zero]; exact abs_pos.2 (by linarith))
    generalize zf r P.q P.i (P.a - D / 2, P.y (P.a - D / 2)) = z at h1 h2
    have h3 : d * z < 0 := by
      have : d * (P.a - D / 2 - P.a) * z = -(D / 2) * (d * z) := by ring
      rw [this] at h2
      by_contra hc
      have := mul_nonneg (by linarith : 0 ≤ D / 2) (not_lt.1 hc)
      linarith
    have h4 : ((P.σ P.i : ℝ) * z) * (d * z) < 0 := mul_neg_of_pos_of_neg h1 h3
    have h5 : ((P.σ P.i : ℝ) * z) * (d * z) = ((P.σ P.i : ℝ) * d) * z ^ 2 := by ring
    rw [h5] at h4
    by_contra hc
    have := mul_nonneg (not_lt.1 hc) (sq_nonneg z)
    linarith
  set m := min (min ρ2 ρ3) (min δ1 (D / 4)) with hm
  have hmpos : 0 < m := lt_min (lt_min hρ2 hρ3) (lt_min hδ1 (by linarith))
  have w3 : m ≤ m := le_rfl
  conv_rhs at w3 => rw [hm]
  simp only [le_min_iff] at w3
  obtain ⟨⟨wa, wb⟩, wc, wd⟩ := w3
  clear_value m
  set C := K1 + K2 + K3 + 1 with hC
  have hC1 : 1 ≤ C := by linarith
  refine ⟨C, m / (2 * C), by positivity, fun h ε hh hε ts xs M ht0 hacc hts hM hfirst e hW tries => ?_⟩
  obtain ⟨S, hG, hB⟩ := hW
  rw [le_div_iff₀ (by positivity)] at hh hε
  have hε0 : 0 ≤ ε := (abs_nonneg _).trans ht0
  have hCε : ε + K1 * ε + K2 * ε + K3 * ε = C * ε := by rw [hC]; ring
  have p1 : 0 ≤ K1 * ε := by positivity
  have p2 : 0 ≤ K2 * ε := by positivity
  have p3 : 0 ≤ K3 * ε := by positivity
  have hM0 : 0 < M := by
    rcases Nat.eq_zero_or_pos M with h0 | h0
    · rw [h0] at hM
      rw [abs_le] at ht0
      linarith
    · exact h0
  have hh0 : 0 < h := by linarith [(hts 0 hM0).1, (hts 0 hM0).2]
  have hhm : h ≤ m / 2 := by nlinarith
  have hεm : ε ≤ m / 2 := by linarith
  have mono : ∀ k l : Nat, k ≤ l → l ≤ M → ts k ≤ ts l := by
    intro k l hkl
    induction l, hkl using Nat.le_induction with
    | base => intro _; exact le_rfl
    | succ l hl ih => intro hlM; exact (ih (by omega)).trans (hts l (by omega)).1.le
  rw [abs_le] at ht0
  have far : ∀ l : Nat, 0 < l → l ≤ M → P.t₀ < ts l ∧ K2 * ε < ts l - P.t₀ ∧ K3 * ε < ts l - P.t₀ := by
    intro l hl hlM
    have h1 := mono 1 l hl hlM
    rcases hfirst with ⟨f1, f2⟩ | f1
    · have h2 := (hts 0 hM0).1
      rw [hK20 (fun j hj _ => f2 j hj), hK30 (f2 _ ev.lt), f1] at *
      exact ⟨by linarith, by linarith, by linarith⟩
    · exact ⟨by linarith, by linarith, by linarith⟩
  have other : ∀ l : Nat, 0 < l → l ≤ M → ts l ≤ P.a + D → ∀ j < n, j ≠ P.i →
      ¬ Crosses (fl.getD j 0) (S j) (zf r P.q j (ts l, xs l)) := by
    intro l hl hlM hla j hj hji
    obtain ⟨f1, f2, -⟩ := far l hl hlM
    exact (hG j hj).quiet (near2 j hj hji _ _ ε f1 (by linarith) (by linarith) (hacc l hlM) f2)
  have before : ∀ l : Nat, 0 < l → l ≤ M → ts l ≤ P.a - D / 2 → ¬ Crosses (fl.getD P.i 0) (S P.i) (zf r P.q P.i (ts l, xs l)) := by
    intro l hl hlM hla
    obtain ⟨f1, -, f3⟩ := far l hl hlM
    exact (hG _ ev.lt).quiet (near3 _ _ ε f1 (by linarith) (by linarith) (hacc l hlM) f3)
  have after : ∀ l : Nat, l ≤ M → P.a + C * ε < ts l → ts l ≤ P.a + D →
      Crosses (fl.getD P.i 0) (S P.i) (zf r P.q P.i (ts l, xs l)) := by
    intro l hlM h1 h2
    have s2 := beside (ts l) (xs l) ε (by rw [abs_lt]; constructor <;> linarith) (by linarith) (hacc l hlM)
      (by rw [abs_of_pos (by linarith)]; linarith)
    refine (hG _ ev.lt).cross ?_
    generalize zf r P.q P.i (ts l, xs l) = z at s2
    have h3 : 0 < d * z := by
      have : d * (ts l - P.a) * z = (ts l - P.a) * (d * z) := by ring
      rw [this] at s2
      exact (mul_pos_iff_of_pos_left (by linarith)).1 s2
    have h4 : ((P.σ P.i : ℝ) * d) * (d * z) < 0 := mul_neg_of_neg_of_pos hσd h3
    have h5 : ((P.σ P.i : ℝ) * d) * (d * z) = d ^ 2 * ((P.σ P.i : ℝ) * z) := by ring
    rw [h5] at h4
    by_contra hc
    have := mul_nonneg (sq_nonneg d) (not_lt.1 hc)
    linarith
  classical
  -- the first point behind the event
  obtain ⟨M', hM'M, hM'1, hM'2⟩ : ∃ M' ≤ M, P.a + C * ε < ts M' ∧ ts M' ≤ P.a + C * ε + h := by
    have hex : ∃ l, P.a + C * ε < ts l := ⟨M, hM⟩
    refine ⟨Nat.find hex, Nat.find_min' hex hM, Nat.find_spec hex, ?_⟩
    have hmin := fun l (hl : l < Nat.find hex) => not_lt.1 (Nat.find_min hex hl)
    have hle := Nat.find_min' hex hM
    have hsp := Nat.find_spec hex
    generalize Nat.find hex = N at hmin hle hsp
    cases N with
    | zero => linarith
    | succ N => linarith [hmin N (by omega), (hts N (by omega)).2]
  have hCεm : C * ε ≤ m / 2 := by linarith
  have hM'D : ts M' ≤ P.a + D := by linarith
  have hM'0 : 0 < M' := by
    rcases Nat.eq_zero_or_pos M' with h0 | h0
    · rw [h0] at hM'1
      linarith
    · exact h0
  have hex : ∃ l : Nat, 0 < l ∧ Crosses (fl.getD P.i 0) (S P.i) (zf r P.q P.i (ts l, xs l)) := ⟨M', hM'0, after M' hM'M hM'1 hM'D⟩
  obtain ⟨N, ⟨hN0, hN⟩, hNmin, hNM⟩ : ∃ N : Nat, (0 < N ∧ Crosses (fl.getD P.i 0) (S P.i) (zf r P.q P.i (ts N, xs N))) ∧
      (∀ l < N, ¬ (0 < l ∧ Crosses (fl.getD P.i 0) (S P.i) (zf r P.q P.i (ts l, xs l)))) ∧ N ≤ M' :=
    ⟨Nat.find hex, Nat.find_spec hex, fun l hl => Nat.find_min hex hl, Nat.find_min' hex ⟨hM'0, after M' hM'M hM'1 hM'D⟩⟩
  have htN' : P.a - D / 2 < ts N := by
    by_contra hc
    exact before N hN0 (by omega) (not_lt.1 hc) hN
  obtain ⟨k, rfl⟩ : ∃ k, N = k + 1 := ⟨N - 1, by omega⟩
  have hk0 : 0 < k := by
    rcases Nat.eq_zero_or_pos k with h0 | h0
    · rw [h0] at htN'
      have := (hts 0 hM0).2
      simp only [zero_add] at htN' this
      linarith
    · exact h0
  have hgrid : ∀ j : Nat, j ≤ k + 1 → ts j ≤ P.a + D := fun j hj => (mono j M' (by omega) hM'M).trans hM'D
  obtain ⟨es, b0, b1, b2⟩ := any_quiet (xs := xs) (ts := ts) hlen hB tries k (fun l h1 h2 j hj => by
      by_cases hji : j = P.i
      · subst hji
        exact fun hcr => hNmin l (by omega) ⟨h1, hcr⟩
      · exact other l h1 (by omega) (hgrid l (by omega)) j hj hji)
  refine ⟨k, by omega, es, b0, b1, ?_⟩
  have b2' : Begins r n fl S (es k) P.q (ts k) (xs k) (· = r.zeroFunctions P.q (ts k) (xs k)) := by
    obtain ⟨e1, d1, d2, d3, d4, d5, d6⟩ := b2
    exact ⟨e1, d1, d2, d3, d4, d5, d6 hk0⟩
  obtain ⟨e1, d1, res⟩ := b2'.cut (t2 := ts (k + 1)) (x2 := xs (k + 1)) (σ := P.σ) hlen hG ev.lt
    (fun j hj hji => other (k + 1) (by omega) (by omega) (hgrid _ le_rfl) j hj hji)
    (fun hcr => hNmin k (by omega) ⟨hk0, hcr⟩) hN
  rw [b2.handle d1]
  obtain ⟨s1, s2⟩ := hts k (by omega)
  have hkb : |ts k - P.a| < δ1 := by
    have := hgrid k (by omega)
    rw [abs_lt]; constructor <;> linarith
  have hkb1 : |ts (k + 1) - P.a| < δ1 := by
    have := hgrid (k + 1) le_rfl
    rw [abs_lt]; constructor <;> linarith
  rcases res with ⟨e', θ, q', x', θ0, θ1, lin, sw, hend, nx⟩ | ⟨hz, herr⟩
  · left
    obtain ⟨l1, l2⟩ := loc (ts k) (ts (k + 1)) (xs k) (xs (k + 1)) ε θ hkb hkb1 (by linarith) (hacc k (by omega))
      (hacc (k + 1) (by omega)) θ0 θ1 lin
    have hbd : K1 * (ε + (ts (k + 1) - ts k) ^ 2) ≤ C * (ε + h ^ 2) := by
      have h1 : (ts (k + 1) - ts k) ^ 2 ≤ h ^ 2 := pow_le_pow_left₀ (by linarith) (by linarith) 2
      have h2 : K1 * (ε + (ts (k + 1) - ts k) ^ 2) ≤ K1 * (ε + h ^ 2) := mul_le_mul_of_nonneg_left (by linarith) hK1
      have h3 : K1 * (ε + h ^ 2) ≤ C * (ε + h ^ 2) := mul_le_mul_of_nonneg_right (by linarith) (by positivity)
      linarith
    have g1 : 0 ≤ θ * (ts (k + 1) - ts k) := mul_nonneg θ0 (by linarith)
    have g2 : θ * (ts (k + 1) - ts k) ≤ ts (k + 1) - ts k := by nlinarith
    refine ⟨_, _, q', x', e', l1.trans hbd, l2.trans hbd, by linarith, by linarith, sw, hend, fun σ' hN' => ?_⟩
    obtain ⟨S', n1, n2⟩ := nx σ' hN'
    exact ⟨S', n1, n2.begins trivial⟩
  · right
    refine ⟨hz, ?_, herr⟩
    by_contra hcon
    have := beside _ (xs (k + 1)) ε hkb1 (by linarith) (hacc (k + 1) (by omega)) (by linarith [not_le.1 hcon])
    have hz' : zf r P.q P.i (ts (k + 1), xs (k + 1)) = 0 := hz
    rw [hz', mul_zero] at this
    exact lt_irrefl _ this

/-- C136. A clean controller watches the functions if they are on sides that the flags allow. -/
theorem C136_start (r : EvRhs ℝ E Q) (n : Nat) (hn : 0 < n) (hlen : ∀ q t x, (r.zeroFunctions q t x).length = n) (q : Q)
    (hcount : r.zeroFuncCount q = n) (hflags : (r.zeroFuncFlags q).length = n) (σ : Nat → Int) (e : Ctl ℝ) (he : e.clean = true) (t : ℝ)
    (x : E) (h : ∀ j < n, Allowed ((r.zeroFuncFlags q).getD j 0) (σ j) ∧ 0 < (σ j : ℝ) * zf r q j (t, x)) :
    Watching r n (r.zeroFuncFlags q) σ e q t x :=
  ⟨_, fun j hj => guard_sFlag (h j hj).1 (h j hj).2, begins_clean hlen hn hcount rfl hflags he (fun j hj => (h j hj).1) (fun j hj => (h j hj).2)⟩

end

/-- The function `1 - x` along the curve `t²`, which is zero at the time 1 -/
theorem falling_ends : (⟨(), fun t => t ^ 2, 0, 1, 0, fun _ => 1⟩ : Piece ℝ Unit).EndsIn falling 1 := by
  have hz : ∀ z : ℝ × ℝ, zf falling () 0 z = 1 - z.2 := fun _ => rfl
  have hs : ContDiff ℝ 2 (zf falling () 0) := contDiff_const.sub contDiff_snd
  have hpos : ∀ t : ℝ, 0 ≤ t → t < 1 → 0 < ((1 : Int) : ℝ) * zf falling () 0 (t, t ^ 2) := fun t h1 h2 => by
    rw [hz, Int.cast_one, one_mul]
    nlinarith
  refine ⟨by simp, fun j hj hne => absurd hne (by simp only; omega), fun c hc0 hc1 => ⟨fun t _ => hs.continuous.continuousAt, fun t ht _ =>
    hpos t ht.1 (ht.2.trans_lt hc1), .inl (hpos 0 le_rfl one_pos)⟩, ?_, hs.contDiffAt, ?_⟩
  · rw [hz]
    norm_num
  · show deriv (fun t : ℝ => 1 - t ^ 2) 1 ≠ 0
    rw [((falling_deriv 1).const_sub 1).deriv]
    norm_num

/-- States that are all too large by `ε`, on a grid with steps of the size `h`: the event is located with an error of order `ε + h²`,
or a step lands on it. -/
example : ∃ C : ℝ, ∃ δ > (0 : ℝ), ∀ h ε : ℝ, 0 < h → h ≤ δ → 0 ≤ ε → ε ≤ δ → ε < 1 → ∀ M : Nat, 1 + C * ε < M * h →
    ∀ (e : Ctl ℝ) (_ : e.clean = true) (tries : Nat → Nat), ∃ k < M, ∃ es : Nat → Ctl ℝ, es 0 = e ∧
      ((∃ τ x' e', |τ - 1| ≤ C * (ε + h ^ 2) ∧
        (es k).handle falling () (tries k) ((k * h) ^ 2 + ε) (k * h) (((k + 1 : Nat) * h) ^ 2 + ε) ((k + 1 : Nat) * h) =
          .ok ((e', ()), x', τ, ⟨true, some 0, -1⟩)) ∨ |(k + 1 : Nat) * h - 1| ≤ C * ε) := by
  obtain ⟨C, δ, hδ, H⟩ := C136_located falling 1 [1] (fun _ _ _ => rfl) ⟨(), fun t => t ^ 2, 0, 1, 0, fun _ => 1⟩ one_pos
    (fun t _ => (contDiff_id.pow 2).contDiffAt) falling_ends
  refine ⟨C, δ, hδ, fun h ε hh hle hε0 hε hε1 M hM e he tries => ?_⟩
  obtain ⟨k, hk, es, h0, -, res⟩ := H h ε hle hε (fun k => k * h) (fun k => (k * h) ^ 2 + ε) M (by simpa using hε0)
    (fun k _ => by simp [abs_of_nonneg hε0]) (fun k _ => by push_cast; constructor <;> linarith) hM
    (.inl ⟨by simp, fun j hj => by
      obtain rfl : j = 0 := by omega
      show 0 < ((1 : Int) : ℝ) * (1 - 0 ^ 2)
      norm_num⟩) e
    (C136_start falling 1 one_pos (fun _ _ _ => rfl) () rfl rfl (fun _ => 1) e he _ _ (fun j hj => by
      obtain rfl : j = 0 := by omega
      refine ⟨.inl ⟨rfl, rfl⟩, ?_⟩
      show 0 < ((1 : Int) : ℝ) * (1 - (((0 : Nat) * h) ^ 2 + ε))
      simp
      linarith)) tries
  refine ⟨k, hk, es, h0, ?_⟩
  rcases res with ⟨τ, z, q', x', e', a1, -, -, -, -, a2, -⟩ | ⟨-, a1, -⟩
  · exact .inl ⟨τ, x', e', a1, a2⟩
  · exact .inr a1

end Verif.Event
