import Verif.RK.Converge
import Verif.Extrap.Props

/-! # Convergence of the extrapolator -/

set_option linter.unusedSectionVars false

namespace Verif.Extrap

open Verif.Res Verif.RK Filter Topology Asymptotics Set
open scoped BigOperators

section
variable {F : Type} [NormedAddCommGroup F] [NormedSpace ℝ F]

theorem rkIter_zero (T : Tableau ℝ) (f : ℝ → F → F) (t : ℝ) (x : F) (n : Nat) : rkIter T f t x 0 n = x := by
  rw [rkIter_sum, zero_smul, add_zero]

theorem rkIter_smooth (T : Tableau ℝ) {f : ℝ → F → F} {t : ℝ} {x : F} {q : Nat}
    (hf : ContDiffAt ℝ q (fun z : ℝ × F => f z.1 z.2) (t, x)) (n : Nat) :
    ContDiffAt ℝ q (fun z : ℝ × F × ℝ => rkIter T f z.1 z.2.1 z.2.2 n) (t, x, 0) := by
  have p1 : ContDiffAt ℝ q (fun z : ℝ × F × ℝ => z.1) (t, x, 0) := contDiffAt_fst
  have p2 : ContDiffAt ℝ q (fun z : ℝ × F × ℝ => z.2.1) (t, x, 0) := contDiffAt_snd.fst
  have p3 : ContDiffAt ℝ q (fun z : ℝ × F × ℝ => z.2.2) (t, x, 0) := contDiffAt_snd.snd
  induction n with
  | zero => exact p2
  | succ n ih =>
    have hi : ContDiffAt ℝ q (fun z : ℝ × F × ℝ => ∑ l ∈ Finset.range T.s,
        T.b 0 l • T.stage f (z.1 + n * z.2.2) z.2.2 (rkIter T f z.1 z.2.1 z.2.2 n) l) (t, x, 0) := by
      have h1 := incr_contDiffAt T hf 0
      refine ContDiffAt.comp (g := fun z : ℝ × F × ℝ => ∑ l ∈ Finset.range T.s, T.b 0 l • T.stage f z.1 z.2.2 z.2.1 l)
        (f := fun z : ℝ × F × ℝ => (z.1 + n * z.2.2, rkIter T f z.1 z.2.1 z.2.2 n, z.2.2)) (t, x, (0 : ℝ)) ?_
        ((p1.add (contDiffAt_const.mul p3)).prodMk (ih.prodMk p3))
      simpa [rkIter_zero] using h1
    exact ih.add (p3.smul hi)

/-- The value of `n` steps is the initial value plus the step times `ψ`. -/
def Increment (Φ ψ : ℝ → F → ℝ → Nat → F) : Prop := ∀ t x h n, Φ t x h n = x + h • ψ t x h n

/-- Increment of `n` Runge-Kutta steps -/
def rkIncr (T : Tableau ℝ) (f : ℝ → F → F) (t : ℝ) (x : F) (h : ℝ) (n : Nat) : F :=
  ∑ i ∈ Finset.range n, ∑ l ∈ Finset.range T.s, T.b 0 l • T.stage f (t + i * h) h (rkIter T f t x h i) l

theorem rk_increment (T : Tableau ℝ) (f : ℝ → F → F) : Increment (rkIter T f) (rkIncr T f) :=
  fun t x h n => rkIter_sum T f t h x n

theorem rkIncr_smooth (T : Tableau ℝ) {f : ℝ → F → F} {t : ℝ} {x : F} {q : Nat}
    (hf : ContDiffAt ℝ q (fun z : ℝ × F => f z.1 z.2) (t, x)) (n : Nat) :
    ContDiffAt ℝ q (fun z : ℝ × F × ℝ => rkIncr T f z.1 z.2.1 z.2.2 n) (t, x, 0) := by
  have p1 : ContDiffAt ℝ q (fun z : ℝ × F × ℝ => z.1) (t, x, 0) := contDiffAt_fst
  have p3 : ContDiffAt ℝ q (fun z : ℝ × F × ℝ => z.2.2) (t, x, 0) := contDiffAt_snd.snd
  refine ContDiffAt.sum (fun i _ => ?_)
  have h1 := incr_contDiffAt T hf 0
  refine ContDiffAt.comp (g := fun z : ℝ × F × ℝ => ∑ l ∈ Finset.range T.s, T.b 0 l • T.stage f z.1 z.2.2 z.2.1 l)
    (f := fun z : ℝ × F × ℝ => (z.1 + i * z.2.2, rkIter T f z.1 z.2.1 z.2.2 i, z.2.2)) (t, x, (0 : ℝ)) ?_
    ((p1.add (contDiffAt_const.mul p3)).prodMk ((rkIter_smooth T hf i).prodMk p3))
  simpa [rkIter_zero] using h1

theorem leapfrog_zero (f : ℝ → F → F) (t : ℝ) (x : F) (n : Nat) : leapfrog f t 0 x n = (x, x) := by
  induction n with
  | zero => simp [leapfrog]
  | succ n ih => rw [leapfrog_succ, ih]; simp

theorem leapfrog_smooth {f : ℝ → F → F} {t : ℝ} {x : F} {q : Nat}
    (hf : ContDiffAt ℝ q (fun z : ℝ × F => f z.1 z.2) (t, x)) (n : Nat) :
    ContDiffAt ℝ q (fun z : ℝ × F × ℝ => leapfrog f z.1 z.2.2 z.2.1 n) (t, x, 0) := by
  have p1 : ContDiffAt ℝ q (fun z : ℝ × F × ℝ => z.1) (t, x, 0) := contDiffAt_fst
  have p2 : ContDiffAt ℝ q (fun z : ℝ × F × ℝ => z.2.1) (t, x, 0) := contDiffAt_snd.fst
  have p3 : ContDiffAt ℝ q (fun z : ℝ × F × ℝ => z.2.2) (t, x, 0) := contDiffAt_snd.snd
  induction n with
  | zero =>
    have : ContDiffAt ℝ q (fun z : ℝ × F × ℝ => f z.1 z.2.1) (t, x, 0) :=
      ContDiffAt.comp (g := fun z : ℝ × F => f z.1 z.2) (f := fun z : ℝ × F × ℝ => (z.1, z.2.1)) (t, x, (0 : ℝ)) hf
        (p1.prodMk p2)
    exact p2.prodMk (p2.add ((p3.div_const 2).smul this))
  | succ n ih =>
    have h1 : ContDiffAt ℝ q (fun z : ℝ × F × ℝ => f (z.1 + (n + 1 / 2) * z.2.2) (leapfrog f z.1 z.2.2 z.2.1 n).2)
        (t, x, 0) := by
      refine ContDiffAt.comp (g := fun z : ℝ × F => f z.1 z.2)
        (f := fun z : ℝ × F × ℝ => (z.1 + (n + 1 / 2) * z.2.2, (leapfrog f z.1 z.2.2 z.2.1 n).2)) (t, x, (0 : ℝ)) ?_
        ((p1.add (contDiffAt_const.mul p3)).prodMk ih.snd)
      simpa [leapfrog_zero] using hf
    have h2 := ih.fst.add (p3.smul h1)
    have h3 : ContDiffAt ℝ q (fun z : ℝ × F × ℝ => f (z.1 + (n + 1) * z.2.2) (leapfrog f z.1 z.2.2 z.2.1 (n + 1)).1)
        (t, x, 0) := by
      refine ContDiffAt.comp (g := fun z : ℝ × F => f z.1 z.2)
        (f := fun z : ℝ × F × ℝ => (z.1 + (n + 1) * z.2.2, (leapfrog f z.1 z.2.2 z.2.1 (n + 1)).1)) (t, x, (0 : ℝ)) ?_
        ((p1.add (contDiffAt_const.mul p3)).prodMk h2)
      simpa [leapfrog_zero] using hf
    exact h2.prodMk (ih.snd.add (p3.smul h3))

/-- Increment of `n` steps of the Gragg method -/
noncomputable def graggIncr (smooth : Bool) (f : ℝ → F → F) (t : ℝ) (x : F) (h : ℝ) (n : Nat) : F :=
  let u := ∑ i ∈ Finset.range n, f (t + (i + 1 / 2) * h) (leapfrog f t h x i).2
  let w := (1 / 2 : ℝ) • f t x + ∑ i ∈ Finset.range n, f (t + (i + 1) * h) (leapfrog f t h x (i + 1)).1
  if smooth && decide (0 < n) then
    (1 / 2 : ℝ) • u + (1 / 2 : ℝ) • (w - (1 / 2 : ℝ) • f (t + n * h) (leapfrog f t h x n).1)
  else u

theorem gragg_increment (smooth : Bool) (f : ℝ → F → F) : Increment (graggValue smooth f) (graggIncr smooth f) := by
  intro t x h n
  obtain ⟨h1, h2⟩ := leapfrog_sum f t h x n
  unfold graggValue graggIncr
  simp only
  split
  · rw [h2]
    generalize f (t + n * h) (leapfrog f t h x n).1 = g
    rw [h1]
    module
  · exact h1

theorem graggIncr_smooth (smooth : Bool) {f : ℝ → F → F} {t : ℝ} {x : F} {q : Nat}
    (hf : ContDiffAt ℝ q (fun z : ℝ × F => f z.1 z.2) (t, x)) (n : Nat) :
    ContDiffAt ℝ q (fun z : ℝ × F × ℝ => graggIncr smooth f z.1 z.2.1 z.2.2 n) (t, x, 0) := by
  have p1 : ContDiffAt ℝ q (fun z : ℝ × F × ℝ => z.1) (t, x, 0) := contDiffAt_fst
  have p2 : ContDiffAt ℝ q (fun z : ℝ × F × ℝ => z.2.1) (t, x, 0) := contDiffAt_snd.fst
  have p3 : ContDiffAt ℝ q (fun z : ℝ × F × ℝ => z.2.2) (t, x, 0) := contDiffAt_snd.snd
  have at1 : ∀ (c : ℝ) (i : Nat), ContDiffAt ℝ q
      (fun z : ℝ × F × ℝ => f (z.1 + c * z.2.2) (leapfrog f z.1 z.2.2 z.2.1 i).1) (t, x, 0) := by
    intro c i
    refine ContDiffAt.comp (g := fun z : ℝ × F => f z.1 z.2)
      (f := fun z : ℝ × F × ℝ => (z.1 + c * z.2.2, (leapfrog f z.1 z.2.2 z.2.1 i).1)) (t, x, (0 : ℝ)) ?_
      ((p1.add (contDiffAt_const.mul p3)).prodMk (leapfrog_smooth hf i).fst)
    simpa [leapfrog_zero] using hf
  have at2 : ∀ (c : ℝ) (i : Nat), ContDiffAt ℝ q
      (fun z : ℝ × F × ℝ => f (z.1 + c * z.2.2) (leapfrog f z.1 z.2.2 z.2.1 i).2) (t, x, 0) := by
    intro c i
    refine ContDiffAt.comp (g := fun z : ℝ × F => f z.1 z.2)
      (f := fun z : ℝ × F × ℝ => (z.1 + c * z.2.2, (leapfrog f z.1 z.2.2 z.2.1 i).2)) (t, x, (0 : ℝ)) ?_
      ((p1.add (contDiffAt_const.mul p3)).prodMk (leapfrog_smooth hf i).snd)
    simpa [leapfrog_zero] using hf
  have hu : ContDiffAt ℝ q (fun z : ℝ × F × ℝ => ∑ i ∈ Finset.range n,
      f (z.1 + (i + 1 / 2) * z.2.2) (leapfrog f z.1 z.2.2 z.2.1 i).2) (t, x, 0) :=
    ContDiffAt.sum (fun i _ => at2 _ i)
  have h0 : ContDiffAt ℝ q (fun z : ℝ × F × ℝ => f z.1 z.2.1) (t, x, 0) :=
    ContDiffAt.comp (g := fun z : ℝ × F => f z.1 z.2) (f := fun z : ℝ × F × ℝ => (z.1, z.2.1)) (t, x, (0 : ℝ)) hf
      (p1.prodMk p2)
  have hw : ContDiffAt ℝ q (fun z : ℝ × F × ℝ => (1 / 2 : ℝ) • f z.1 z.2.1 + ∑ i ∈ Finset.range n,
      f (z.1 + (i + 1) * z.2.2) (leapfrog f z.1 z.2.2 z.2.1 (i + 1)).1) (t, x, 0) :=
    (contDiffAt_const.smul h0).add (ContDiffAt.sum (fun i _ => at1 _ (i + 1)))
  unfold graggIncr
  simp only
  split
  · exact (contDiffAt_const.smul hu).add (contDiffAt_const.smul (hw.sub (contDiffAt_const.smul (at1 n n))))
  · exact hu

/-- Increment of the extrapolated value -/
noncomputable def exIncr (sym : Bool) (b : Nat → Nat) (ψ : ℝ → F → ℝ → Nat → F) (M : Nat) (t : ℝ) (x : F) (h : ℝ) : F :=
  extrap (Finset.Ico 0 M) (fun k => (node sym (b k) : ℝ)) (fun k => (1 / (b k : ℝ)) • ψ t x (h / b k) (b k))

theorem extrapolated_increment {sym : Bool} {b : Nat → Nat} (hb : StrictMono b) (hb0 : 0 < b 0) {Φ ψ : ℝ → F → ℝ → Nat → F}
    (hΦ : Increment Φ ψ) {M : Nat} (hM : 1 ≤ M) (t : ℝ) (x : F) (h : ℝ) :
    extrapolated sym b Φ 0 M t x h = x + h • exIncr sym b ψ M t x h := by
  obtain ⟨w1, _⟩ := extrap_weights (Finset.Ico 0 M) (fun m => (node sym (b m) : ℝ))
    (node_inj sym b hb hb0 _) (by rw [Nat.card_Ico]; omega)
  unfold extrapolated exIncr extrap
  simp only [hΦ t x, smul_add, Finset.sum_add_distrib]
  rw [← Finset.sum_smul, w1, one_smul, Finset.smul_sum]
  congr 1
  refine Finset.sum_congr rfl (fun m _ => ?_)
  rw [smul_smul, smul_smul, smul_smul]
  congr 1
  ring

theorem exIncr_smooth (sym : Bool) (b : Nat → Nat) {ψ : ℝ → F → ℝ → Nat → F} {q : Nat} {t : ℝ} {x : F}
    (hψ : ∀ n, ContDiffAt ℝ q (fun z : ℝ × F × ℝ => ψ z.1 z.2.1 z.2.2 n) (t, x, 0)) (M : Nat) :
    ContDiffAt ℝ q (fun z : ℝ × F × ℝ => exIncr sym b ψ M z.1 z.2.1 z.2.2) (t, x, 0) := by
  unfold exIncr extrap
  refine ContDiffAt.sum (fun k _ => contDiffAt_const.smul (contDiffAt_const.smul ?_))
  refine ContDiffAt.comp (g := fun z : ℝ × F × ℝ => ψ z.1 z.2.1 z.2.2 (b k))
    (f := fun z : ℝ × F × ℝ => (z.1, z.2.1, z.2.2 / b k)) (t, x, (0 : ℝ)) ?_
    (contDiffAt_fst.prodMk (contDiffAt_snd.fst.prodMk (contDiffAt_snd.snd.div_const _)))
  simpa using hψ (b k)

end

section
variable {F E S Q : Type} [NormedAddCommGroup F] [NormedSpace ℝ F]

/-- The extrapolator `m` for the right-hand side `f` converges with order `q`: on every interval with an exact
solution along which `f` is smooth, the states after calls of `doStep` that return differ from the solution by at
most a constant times the `q`-th power of the largest step made, whatever the step size controller and the error
norm do. `S0` says from which solver states. -/
def ExConverges (m : ExMethod ℝ F E S Q) (f : ℝ → F → F) (S0 : ExSt ℝ F E S Q → Prop) (q : Nat) : Prop :=
  ∀ (y : ℝ → F) (t₀ b : ℝ) (_ : ∀ t ∈ Icc t₀ b, ContDiffAt ℝ (q + 1 : Nat) (fun z : ℝ × F => f z.1 z.2) (t, y t))
    (_ : ∀ t ∈ Icc t₀ b, ∀ᶠ s in 𝓝 t, HasDerivAt y (f s (y s)) s),
    ∃ C, ∃ h₀ > 0, ∀ H, 0 ≤ H → H ≤ h₀ → ∀ (N : Nat) (st : Nat → ExSt ℝ F E S Q), S0 (st 0) → (st 0).t = t₀ →
      (st 0).x = y t₀ → (∀ k < N, ∃ fuel, (st k).doStep m fuel = some (.ok (.accepted (st (k + 1))))) →
      (∀ k < N, (st k).t ≤ (st (k + 1)).t ∧ (st (k + 1)).t ≤ (st k).t + H) → (∀ k ≤ N, (st k).t ≤ b) →
      ∀ k ≤ N, ‖(st k).x - y (st k).t‖ ≤ C * H ^ q

theorem ex_converges {m : ExMethod ℝ F E S Q} {r : RefSolver ℝ F S} {Φ ψ : ℝ → F → ℝ → Nat → F} {sq : StepSeq Q}
    {b : Nat → Nat} {B : Nat} (hm : Sane m r Φ sq b B) (hec : m.ec = none) (hΦ : Increment Φ ψ) {q : Nat} (hq : 1 ≤ q)
    {f : ℝ → F → F} (hψ : ∀ (t : ℝ) (x : F), ContDiffAt ℝ (q + 1 : Nat) (fun z : ℝ × F => f z.1 z.2) (t, x) → ∀ n,
      ContDiffAt ℝ (q + 1 : Nat) (fun z : ℝ × F × ℝ => ψ z.1 z.2.1 z.2.2 n) (t, x, 0))
    (hord : ∀ (t : ℝ) (y : ℝ → F), ContDiffAt ℝ (q + 1 : Nat) (fun z : ℝ × F => f z.1 z.2) (t, y t) →
      (∀ᶠ s in 𝓝 t, HasDerivAt y (f s (y s)) s) →
      (fun h => extrapolated m.symmetric b Φ 0 m.maxStages t (y t) h - y (t + h)) =O[𝓝[>] 0] fun h : ℝ => h ^ (q + 1)) :
    ExConverges m f (Fits b m.maxStages) q := by
  intro y t₀ bb hf hy
  have hinc := fun t x h => extrapolated_increment (sym := m.symmetric) hm.gives.mono hm.gives.pos hΦ hm.one t x h
  obtain ⟨C, hC, h₀, hh₀, key⟩ := one_step_converges q hq (exIncr m.symmetric b ψ m.maxStages) y t₀ bb
    (fun t ht => exIncr_smooth m.symmetric b (hψ t (y t) (hf t ht)) m.maxStages)
    (fun t ht => solution_contDiffAt (hf t ht) (hy t ht))
    (fun t ht => by
      refine (hord t y (hf t ht) (hy t ht)).congr_left (fun h => ?_)
      rw [hinc])
  refine ⟨C, h₀, hh₀, fun H hH hle N st hS h1 h2 hst hH' hb => ?_⟩
  have hfit : ∀ k ≤ N, Fits b m.maxStages (st k) := by
    intro k
    induction k with
    | zero => intro _; exact hS
    | succ k ih =>
      intro hk
      obtain ⟨fuel, hk'⟩ := hst k (by omega)
      obtain ⟨A, a1, a2, _⟩ := doStep_ok hm hec fuel _ (ih (by omega)) _ hk'
      cases a1
      exact a2
  refine key H hH hle N (fun k => (st k).x) (fun k => (st k).t) (fun k => (st (k + 1)).t - (st k).t) h2 h1
    (fun k hk => ?_) hb
  obtain ⟨fuel, hk'⟩ := hst k hk
  obtain ⟨A, a1, _, a3⟩ := doStep_ok hm hec fuel _ (hfit k hk.le) _ hk'
  cases a1
  obtain ⟨b1, b2⟩ := hH' k hk
  refine ⟨by linarith, by linarith, by ring, ?_⟩
  rw [a3 _ rfl, hinc]

variable [CompleteSpace F]

/-- `n` steps of a coded method of order `p` have a local error of order `p`. -/
theorem iter_local {co : Coefficients ℚ} {s p : Nat} (hr : RowCheck co s = true)
    (hc : OrderCheck co s 0 p = true) (hp : 1 ≤ p) (f : ℝ → F → F) (t : ℝ) (y : ℝ → F)
    (hf : ContDiffAt ℝ (p + 1 : Nat) (fun z : ℝ × F => f z.1 z.2) (t, y t))
    (hy : ∀ᶠ s in 𝓝 t, HasDerivAt y (f s (y s)) s) {n : Nat} (hn : 0 < n) :
    (fun h => rkIter ((co.cast ℝ).tableau s) f t (y t) (h / n) n - y (t + h)) =O[𝓝[>] 0] fun h : ℝ => h ^ (p + 1) := by
  have hyc : ContinuousAt (fun s => (s, y s)) t :=
    continuousAt_id.prodMk (solution_contDiffAt hf hy).continuousAt
  have hall : ∀ᶠ s in 𝓝 t, ContDiffAt ℝ (p + 1 : Nat) (fun z : ℝ × F => f z.1 z.2) (s, y s) ∧
      ∀ᶠ r in 𝓝 s, HasDerivAt y (f r (y r)) r :=
    (hyc.eventually (hf.eventually (by simp))).and hy.eventually_nhds
  obtain ⟨ε, hε, hball⟩ := Metric.eventually_nhds_iff_ball.1 hall
  have hin : ∀ s ∈ Icc t (t + ε / 2), s ∈ Metric.ball t ε := by
    intro s hs
    rw [Metric.mem_ball, Real.dist_eq, abs_lt]
    constructor <;> linarith [hs.1, hs.2]
  obtain ⟨C, hC, h₀, hh₀, key⟩ := grid_accumulates hr hc hp f t (t + ε / 2) y (fun s hs => (hball s (hin s hs)).1)
    (fun s hs => (hball s (hin s hs)).2)
  refine IsBigO.of_bound C ?_
  have hsmall : ∀ᶠ h in 𝓝[>] (0 : ℝ), 0 < h ∧ h < min h₀ (ε / 2) :=
    Ioo_mem_nhdsGT (by positivity)
  filter_upwards [hsmall] with h ⟨h1, h2⟩
  have hnR : (1 : ℝ) ≤ n := by exact_mod_cast hn
  have hn0 : (0 : ℝ) < n := by linarith
  have hdiv : h / n ≤ h := div_le_self h1.le hnR
  have hdn : (n : ℝ) * (h / n) = h := by field_simp
  have := key (h / n) (by positivity) (hdiv.trans (h2.le.trans (min_le_left _ _))) n
    (fun k => rkIter ((co.cast ℝ).tableau s) f t (y t) (h / n) k) (fun k => t + k * (h / n)) (fun _ => h / n) rfl (by simp)
    (fun k _ => ⟨by positivity, le_refl _, by push_cast; ring, rfl⟩)
    (fun k hk => by
      have : (k : ℝ) * (h / n) ≤ n * (h / n) := mul_le_mul_of_nonneg_right (by exact_mod_cast hk) (by positivity)
      rw [hdn] at this
      have := h2.le.trans (min_le_right _ _)
      linarith) n (le_refl n)
  simp only [hdn, add_sub_cancel_left] at this
  rw [Real.norm_of_nonneg (by positivity)]
  refine this.trans ?_
  calc C * (h / n) ^ p * h ≤ C * h ^ p * h := by gcongr
    _ = C * h ^ (p + 1) := by ring

/-- Extrapolation, with whatever nodes, keeps the order of the method. -/
theorem extrapolated_keeps {co : Coefficients ℚ} {s p : Nat} (hr : RowCheck co s = true)
    (hc : OrderCheck co s 0 p = true) (hp : 1 ≤ p) (f : ℝ → F → F) (t : ℝ) (y : ℝ → F)
    (hf : ContDiffAt ℝ (p + 1 : Nat) (fun z : ℝ × F => f z.1 z.2) (t, y t))
    (hy : ∀ᶠ s in 𝓝 t, HasDerivAt y (f s (y s)) s) (sym : Bool) {b : Nat → Nat} (hb : StrictMono b) (hb0 : 0 < b 0)
    {M : Nat} (hM : 1 ≤ M) :
    (fun h => extrapolated sym b (rkIter ((co.cast ℝ).tableau s) f) 0 M t (y t) h - y (t + h))
      =O[𝓝[>] 0] fun h : ℝ => h ^ (p + 1) := by
  obtain ⟨w1, _⟩ := extrap_weights (Finset.Ico 0 M) (fun m => (node sym (b m) : ℝ))
    (node_inj sym b hb hb0 _) (by rw [Nat.card_Ico]; omega)
  have hpos : ∀ i, 0 < b i := fun i => lt_of_lt_of_le hb0 (hb.monotone (Nat.zero_le i))
  have := IsBigO.fun_sum (s := Finset.Ico 0 M) (fun m _ => (iter_local hr hc hp f t y hf hy (hpos m)).const_smul_left
    ((Lagrange.basis (Finset.Ico 0 M) (fun m => (node sym (b m) : ℝ)) m).eval 0))
  refine this.congr_left (fun h => ?_)
  unfold extrapolated extrap
  simp only [Pi.smul_apply, smul_sub, Finset.sum_sub_distrib]
  rw [← Finset.sum_smul, w1, one_smul]

/-- C114. The extrapolator of any consistent explicit Runge-Kutta method converges with order at least the number
of stages. -/
theorem C114_rk (T : Tableau ℝ) (hs : 1 ≤ T.s) (h0 : T.c 0 = 0)
    (hrow : ∀ l, l < T.s → T.c l = ∑ j ∈ Finset.range l, T.a l j) (hb1 : ∑ l ∈ Finset.range T.s, T.b 0 l = 1)
    {E0 : Type} (g : Method ℝ F E0) (p : Int) (hco : g.co = T.pack 1 (-1)) (hgec : g.ec = none)
    (m : ExMethod ℝ F E (FixedSt ℝ F E0) Q) (href : m.ref = some (g.ref p)) (hec : m.ec = none)
    (sq : StepSeq Q) (hsq : m.seq = some sq) (b : Nat → Nat) (B : Nat) (hg : Gives sq b B)
    (h1 : 1 ≤ m.maxStages) (h2 : m.disableErrorCheck = true ∨ 2 ≤ m.maxStages)
    (h3 : m.maxStages ≤ B) (hsym : m.symmetric = false) :
    ExConverges m g.rhs (Fits b m.maxStages) m.maxStages := by
  have hsane : Sane m (g.ref p) (rkIter T g.rhs) sq b B := ⟨href, hsq, behaves_rk T g p hs h0 hco hgec, hg, h1, h2, h3⟩
  refine ex_converges hsane hec (rk_increment T g.rhs) h1 (fun t x hf n => rkIncr_smooth T hf n) (fun t y hf hy => ?_)
  have := rk_extrapolated_order T hs hrow hb1 b hg.mono hg.pos 0 m.maxStages h1
    (hf.of_le (by norm_cast; omega)) y rfl hy
  rw [hsym]
  rw [Nat.sub_zero] at this
  exact this.mono nhdsWithin_le_nhds

/-- C114. The extrapolator of the Gragg method with the flag `symmetric` converges with twice the number of stages,
the order it reports. -/
theorem C114_gragg {E0 : Type} (g : GrMethod ℝ F E0) (hgec : g.ec = none)
    (m : ExMethod ℝ F E (GrSt ℝ F E0) Q) (href : m.ref = some g.ref) (hec : m.ec = none)
    (sq : StepSeq Q) (hsq : m.seq = some sq) (b : Nat → Nat) (B : Nat) (hg : Gives sq b B)
    (h1 : 1 ≤ m.maxStages) (h2 : m.disableErrorCheck = true ∨ 2 ≤ m.maxStages)
    (h3 : m.maxStages ≤ B) (hsym : m.symmetric = true) :
    m.order = 2 * m.maxStages ∧ ExConverges m g.rhs (Fits b m.maxStages) (2 * m.maxStages) := by
  refine ⟨(C78_gragg_partial g hgec m href hec sq hsq b B hg h1 h2 h3 hsym).1, ?_⟩
  have hsane : Sane m g.ref (graggValue g.smooth g.rhs) sq b B := ⟨href, hsq, behaves_gragg g hgec, hg, h1, h2, h3⟩
  refine ex_converges hsane hec (gragg_increment g.smooth g.rhs) (by omega)
    (fun t x hf n => graggIncr_smooth g.smooth hf n) (fun t y hf hy => ?_)
  have := gragg_extrapolated_order g.smooth b hg.mono hg.pos 0 m.maxStages h1
    (f := g.rhs) (x₀ := y t) (t₀ := t) (hf.of_le (by norm_cast; omega)) y rfl hy
  rw [hsym]
  rw [Nat.sub_zero] at this
  exact this.mono nhdsWithin_le_nhds

/-- C114. The extrapolator of the classical Runge-Kutta method converges with order 4 at least, whatever the number
of stages, the sequence and the flag; with more than four stages and the flag off see `C114_rk`. It reports order
`4 + (stages - 1)`. -/
theorem C114_rk4 {E0 : Type} (g : Method ℝ F E0) (hco : g.co = rk4.cast ℝ) (hgec : g.ec = none)
    (m : ExMethod ℝ F E (FixedSt ℝ F E0) Q) (href : m.ref = some (g.ref 4)) (hec : m.ec = none)
    (sq : StepSeq Q) (hsq : m.seq = some sq) (b : Nat → Nat) (B : Nat) (hg : Gives sq b B)
    (h1 : 1 ≤ m.maxStages) (h2 : m.disableErrorCheck = true ∨ 2 ≤ m.maxStages) (h3 : m.maxStages ≤ B) :
    ExConverges m g.rhs (Fits b m.maxStages) 4 := by
  have hpk : (rk4.tableau 4).pack 1 (-1) = rk4 :=
    coefficients_ext (by decide +kernel) (by decide +kernel) (by decide +kernel) rfl
  have hsane : Sane m (g.ref 4) (rkIter ((rk4.cast ℝ).tableau 4) g.rhs) sq b B :=
    ⟨href, hsq, behaves_rk _ g 4 (by decide) rfl (by rw [hco]; exact (cast_pack hpk).symm) hgec, hg, h1, h2, h3⟩
  refine ex_converges hsane hec (rk_increment _ g.rhs) (by omega) (fun t x hf n => rkIncr_smooth _ hf n)
    (fun t y hf hy => ?_)
  exact extrapolated_keeps (by decide +kernel) rk4_check (by omega) g.rhs t y hf hy m.symmetric hg.mono hg.pos h1

/-- C114. Without the error check any number of calls of `doStep` return and make steps of the size asked for. -/
theorem C114_steps {m : ExMethod ℝ F E S Q} {r : RefSolver ℝ F S} {Φ : ℝ → F → ℝ → Nat → F} {sq : StepSeq Q}
    {b : Nat → Nat} {B : Nat} (hm : Sane m r Φ sq b B) (hec : m.ec = none) (hd : m.disableErrorCheck = true)
    (t₀ h : ℝ) (x₀ : F) (s0 : ExSt ℝ F E S Q) :
    ∃ st : Nat → ExSt ℝ F E S Q, (s0.setInitialStepSize h).setInitialState m t₀ x₀ false = .ok (st 0) ∧
      Fits b m.maxStages (st 0) ∧ (st 0).x = x₀ ∧
      ∀ k : Nat, (st k).t = t₀ + k * h ∧ (st k).doStep m 1 = some (.ok (.accepted (st (k + 1)))) := by
  have hset : ∃ s, (s0.setInitialStepSize h).setInitialState m t₀ x₀ false = .ok s ∧ s.t = t₀ ∧
      s.x = x₀ ∧ s.T = [] ∧ s.hInit = h := by
    unfold ExSt.setInitialState
    rw [hm.ref]
    exact ⟨_, rfl, rfl, rfl, rfl, rfl⟩
  obtain ⟨s, g1, g2, g3, g4, g5⟩ := hset
  have step : ∀ s : ExSt ℝ F E S Q, Fits b m.maxStages s ∧ s.hInit = h ∧ (s.T = [] ∨ s.h = some h) →
      ∃ s', s.doStep m 1 = some (.ok (.accepted s')) ∧ s'.t = s.t + h ∧
        Fits b m.maxStages s' ∧ s'.hInit = h ∧ (s'.T = [] ∨ s'.h = some h) := by
    rintro s ⟨a1, a2, a3⟩
    obtain ⟨A, h1, c1, c2, h', hr, _, k, h2⟩ := pass_ok hm hec s a1
    obtain ⟨s', hs', c3⟩ := h2 hd
    have hh : h' = h := by
      rcases hr with ⟨_, e⟩ | ⟨e, _, e2⟩
      · rw [e, a2]
      · rcases a3 with a3 | a3
        · rw [a3] at e
          have := hm.gives.le (m.maxStages - 1)
          simp at e
          omega
        · rw [a3] at e2
          exact (Option.some.inj e2).symm
    obtain ⟨l1, _⟩ := k s' hs'
    subst hs'
    refine ⟨s', ?_, by rw [l1, hh], c1, c2.trans a2, Or.inr (by rw [c3, hh])⟩
    rw [ExSt.doStep, h1]
  choose nx n1 n2 n3 using step
  let sub := { s : ExSt ℝ F E S Q // Fits b m.maxStages s ∧ s.hInit = h ∧ (s.T = [] ∨ s.h = some h) }
  let st : Nat → sub := fun k => Nat.rec ⟨s, Or.inl g4, g5, Or.inl g4⟩ (fun _ s => ⟨nx s.1 s.2, n3 s.1 s.2⟩) k
  refine ⟨fun k => (st k).1, g1, Or.inl g4, g3, fun k => ⟨?_, n1 (st k).1 (st k).2⟩⟩
  induction k with
  | zero =>
    show s.t = t₀ + ((0 : Nat) : ℝ) * h
    simpa using g2
  | succ k ih =>
    have ih' : (st k).1.t = t₀ + k * h := ih
    show (nx (st k).1 (st k).2).t = _
    rw [n2 (st k).1 (st k).2, ih']
    push_cast
    ring

end

end Verif.Extrap
