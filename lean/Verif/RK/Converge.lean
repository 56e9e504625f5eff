import Verif.RK.Uniform
import Verif.RK.Props
import Verif.RK.FixedProps
import Verif.RK.AdaptiveProps
import Mathlib.Analysis.Calculus.Deriv.Inv
import Mathlib.Analysis.SpecialFunctions.ExpDeriv

/-! # C101: the explicit solvers converge with their order -/

namespace Verif.RK

open Filter Topology Asymptotics Set

section
variable {E : Type} [NormedAddCommGroup E] [NormedSpace ℝ E]

/-- A solution of a smooth system is smooth. -/
theorem solution_contDiffAt {f : ℝ → E → E} {y : ℝ → E} {t : ℝ} {n : Nat}
    (hf : ContDiffAt ℝ n (fun z : ℝ × E => f z.1 z.2) (t, y t))
    (hy : ∀ᶠ s in 𝓝 t, HasDerivAt y (f s (y s)) s) : ContDiffAt ℝ n y t := by
  induction n with
  | zero =>
    rw [Nat.cast_zero, contDiffAt_zero]
    obtain ⟨u, hu, hd⟩ := hy.exists_mem
    exact ⟨u, hu, fun s hs => (hd s hs).continuousAt.continuousWithinAt⟩
  | succ n ih =>
    have ih := ih (hf.of_le (by norm_cast; omega))
    have hc : ContDiffAt ℝ n (fun s => f s (y s)) t :=
      ContDiffAt.comp (g := fun z : ℝ × E => f z.1 z.2) t (hf.of_le (by norm_cast; omega)) (contDiffAt_id.prodMk ih)
    have : ContDiffAt ℝ ((n : WithTop ℕ∞) + 1) y t := by
      rw [contDiffAt_succ_iff_hasFDerivAt]
      obtain ⟨u, hu, hd⟩ := hy.exists_mem
      refine ⟨fun s => ContinuousLinearMap.smulRight (1 : ℝ →L[ℝ] ℝ) (f s (y s)), ⟨u, hu, fun s hs => ?_⟩,
        contDiffAt_const.smulRight hc⟩
      exact (hd s hs).hasFDerivAt
    exact_mod_cast this

/-- The increment of an explicit method, as a function of time, state and step, is smooth where the right-hand
side is. -/
theorem stage_contDiffAt (T : Tableau ℝ) {f : ℝ → E → E} {t : ℝ} {x : E} {n : Nat}
    (hf : ContDiffAt ℝ n (fun z : ℝ × E => f z.1 z.2) (t, x)) (i : Nat) :
    ContDiffAt ℝ n (fun z : ℝ × E × ℝ => T.stage f z.1 z.2.2 z.2.1 i) (t, x, 0) := by
  induction i using Nat.strong_induction_on with
  | _ i ih =>
    have e : (fun z : ℝ × E × ℝ => T.stage f z.1 z.2.2 z.2.1 i) = (fun z : ℝ × E => f z.1 z.2) ∘
        (fun z : ℝ × E × ℝ => (z.1 + z.2.2 * T.c i,
          z.2.1 + z.2.2 • ∑ j ∈ Finset.range i, T.a i j • T.stage f z.1 z.2.2 z.2.1 j)) := by
      funext z
      exact T.stage_eq f z.1 z.2.2 z.2.1 i
    rw [e]
    have p1 : ContDiffAt ℝ n (fun z : ℝ × E × ℝ => z.1) (t, x, 0) := contDiffAt_fst
    have p2 : ContDiffAt ℝ n (fun z : ℝ × E × ℝ => z.2.1) (t, x, 0) := contDiffAt_snd.fst
    have p3 : ContDiffAt ℝ n (fun z : ℝ × E × ℝ => z.2.2) (t, x, 0) := contDiffAt_snd.snd
    have hsum : ContDiffAt ℝ n (fun z : ℝ × E × ℝ =>
        ∑ j ∈ Finset.range i, T.a i j • T.stage f z.1 z.2.2 z.2.1 j) (t, x, 0) :=
      ContDiffAt.sum (fun j hj => contDiffAt_const.smul (ih j (Finset.mem_range.1 hj)))
    refine ContDiffAt.comp _ ?_ ((p1.add (p3.mul contDiffAt_const)).prodMk (p2.add (p3.smul hsum)))
    simpa using hf

theorem incr_contDiffAt (T : Tableau ℝ) {f : ℝ → E → E} {t : ℝ} {x : E} {n : Nat}
    (hf : ContDiffAt ℝ n (fun z : ℝ × E => f z.1 z.2) (t, x)) (ix : Nat) :
    ContDiffAt ℝ n (fun z : ℝ × E × ℝ =>
      ∑ i ∈ Finset.range T.s, T.b ix i • T.stage f z.1 z.2.2 z.2.1 i) (t, x, 0) :=
  ContDiffAt.sum (fun i _ => contDiffAt_const.smul (stage_contDiffAt T hf i))

variable [CompleteSpace E]

/-- Local error of a coded method. -/
theorem coded_local {co : Coefficients ℚ} {s ix p : Nat} (hr : RowCheck co s = true)
    (hc : OrderCheck co s ix p = true) (hp : 1 ≤ p) (f : ℝ → E → E) (t : ℝ) (y : ℝ → E)
    (hf : ContDiffAt ℝ (p + 1 : Nat) (fun z : ℝ × E => f z.1 z.2) (t, y t))
    (hy : ∀ᶠ s in 𝓝 t, HasDerivAt y (f s (y s)) s) :
    (fun h => y t + h • ∑ i ∈ Finset.range s, ((co.cast ℝ).tableau s).b ix i •
      ((co.cast ℝ).tableau s).stage f t h (y t) i - y (t + h)) =O[𝓝[>] 0] fun h : ℝ => h ^ (p + 1) := by
  have hf' : ContDiffAt ℝ p (fun z : ℝ × E => f z.1 z.2) (t, y t) := hf.of_le (by norm_cast; omega)
  have := nonautonomous_order hf' hp (co.cast ℝ).A ((co.cast ℝ).B s ix) (co.cast ℝ).C
    (fun i h => ((co.cast ℝ).tableau s).stage f t h (y t) i) s
    (fun i hi => by
      rw [cast_C, rows_of_check co s hr i hi]
      push_cast
      exact Finset.sum_congr rfl (fun j _ => (cast_A co i j).symm))
    (fun i _ h => Tableau.stage_eq _ f t h (y t) i) y rfl hy
    (by
      have e := (orderConditions_of_check co s ix hc).cast (R := ℝ)
      intro t ht
      rw [← e t ht]
      congr 1
      · funext i j; exact cast_A co i j
      · funext i; exact cast_B co s ix i)
  exact this.mono nhdsWithin_le_nhds

/-- Errors of a coded method along a grid. -/
theorem grid_accumulates {co : Coefficients ℚ} {s ix p : Nat} (hr : RowCheck co s = true)
    (hc : OrderCheck co s ix p = true) (hp : 1 ≤ p) (f : ℝ → E → E) (t₀ b : ℝ) (y : ℝ → E)
    (hf : ∀ t ∈ Icc t₀ b, ContDiffAt ℝ (p + 1 : Nat) (fun z : ℝ × E => f z.1 z.2) (t, y t))
    (hy : ∀ t ∈ Icc t₀ b, ∀ᶠ s in 𝓝 t, HasDerivAt y (f s (y s)) s) :
    ∃ C, 0 ≤ C ∧ ∃ h₀ > 0, ∀ H, 0 ≤ H → H ≤ h₀ → ∀ (N : Nat) (x : Nat → E) (τ h : Nat → ℝ), x 0 = y t₀ →
      τ 0 = t₀ → (∀ k < N, 0 ≤ h k ∧ h k ≤ H ∧ τ (k + 1) = τ k + h k ∧
        x (k + 1) = ((co.cast ℝ).tableau s).output f (τ k) (h k) (x k) ix) → (∀ k ≤ N, τ k ≤ b) →
      ∀ k ≤ N, ‖x k - y (τ k)‖ ≤ C * H ^ p * (τ k - t₀) :=
  one_step_accumulates p hp (fun t x h => ∑ i ∈ Finset.range s,
    ((co.cast ℝ).tableau s).b ix i • ((co.cast ℝ).tableau s).stage f t h x i) y t₀ b
    (fun t ht => incr_contDiffAt ((co.cast ℝ).tableau s) (hf t ht) ix)
    (fun t ht => solution_contDiffAt (hf t ht) (hy t ht)) (fun t ht => coded_local hr hc hp f t y (hf t ht) (hy t ht))

/-- Steps of a coded method along a grid converge with its order. -/
theorem grid_converges {co : Coefficients ℚ} {s ix p : Nat} (hr : RowCheck co s = true)
    (hc : OrderCheck co s ix p = true) (hp : 1 ≤ p) (f : ℝ → E → E) (t₀ b : ℝ) (y : ℝ → E)
    (hf : ∀ t ∈ Icc t₀ b, ContDiffAt ℝ (p + 1 : Nat) (fun z : ℝ × E => f z.1 z.2) (t, y t))
    (hy : ∀ t ∈ Icc t₀ b, ∀ᶠ s in 𝓝 t, HasDerivAt y (f s (y s)) s) :
    ∃ C, 0 ≤ C ∧ ∃ h₀ > 0, ∀ H, 0 ≤ H → H ≤ h₀ → ∀ (N : Nat) (x : Nat → E) (τ h : Nat → ℝ), x 0 = y t₀ →
      τ 0 = t₀ → (∀ k < N, 0 ≤ h k ∧ h k ≤ H ∧ τ (k + 1) = τ k + h k ∧
        x (k + 1) = ((co.cast ℝ).tableau s).output f (τ k) (h k) (x k) ix) → (∀ k ≤ N, τ k ≤ b) →
      ∀ k ≤ N, ‖x k - y (τ k)‖ ≤ C * H ^ p :=
  one_step_converges p hp (fun t x h => ∑ i ∈ Finset.range s,
    ((co.cast ℝ).tableau s).b ix i • ((co.cast ℝ).tableau s).stage f t h x i) y t₀ b
    (fun t ht => incr_contDiffAt ((co.cast ℝ).tableau s) (hf t ht) ix)
    (fun t ht => solution_contDiffAt (hf t ht) (hy t ht)) (fun t ht => coded_local hr hc hp f t y (hf t ht) (hy t ht))

omit [CompleteSpace E] in
theorem cast_pack {co : Coefficients ℚ} {s n : Nat} {l : Int} (h : (co.tableau s).pack n l = co) :
    ((co.cast ℝ).tableau s).pack n l = co.cast ℝ := by
  have h1 := congrArg Coefficients.a h
  have h2 := congrArg Coefficients.b h
  have h3 := congrArg Coefficients.c h
  have h4 := congrArg Coefficients.lastK h
  simp only [Tableau.pack, Coefficients.tableau] at h1 h2 h3 h4
  have e1 := congrArg (List.map (fun q : ℚ => (q : ℝ))) h1
  have e2 := congrArg (List.map (fun q : ℚ => (q : ℝ))) h2
  have e3 := congrArg (List.map (fun q : ℚ => (q : ℝ))) h3
  rw [List.map_flatMap] at e1 e2
  simp only [List.map_map] at e1 e2 e3
  unfold Tableau.pack Coefficients.tableau
  have g1 : (List.range s).flatMap (fun i => (List.range i).map ((co.cast ℝ).A i)) = (co.cast ℝ).a := by
    refine Eq.trans ?_ e1
    congr 1
    funext i
    exact List.map_congr_left (fun j _ => cast_A co i j)
  have g2 : (List.range n).flatMap (fun ix => (List.range s).map ((co.cast ℝ).B s ix)) = (co.cast ℝ).b := by
    refine Eq.trans ?_ e2
    congr 1
    funext i
    exact List.map_congr_left (fun j _ => cast_B co s i j)
  have g3 : (List.range (s - 1)).map (fun i => (co.cast ℝ).C (i + 1)) = (co.cast ℝ).c := by
    refine Eq.trans ?_ e3
    exact List.map_congr_left (fun j _ => cast_C co (j + 1))
  simp only [g1, g2, g3]
  rw [h4]
  rfl

omit [CompleteSpace E] [NormedSpace ℝ E] [NormedAddCommGroup E] in
theorem coefficients_ext {c d : Coefficients ℚ} (h1 : c.a = d.a) (h2 : c.b = d.b) (h3 : c.c = d.c)
    (h4 : c.lastK = d.lastK) : c = d := by
  cases c; cases d; simp_all

/-- The solver with fixed steps and the coded tableau `co` converges with order `p`: on every interval on which
there is an exact solution along which the right-hand side is smooth, the state shown after `n` steps of any
small enough size `h` differs from the solution at the time shown by at most `C h^p`. -/
def FixedConverges (co : Coefficients ℚ) (p : Nat) : Prop :=
  ∀ {E Q : Type} [NormedAddCommGroup E] [NormedSpace ℝ E] [CompleteSpace E] (m : Method ℝ E Q)
    (_ : m.co = co.cast ℝ) (I : Q → Prop) (_ : Quiet m.ec I) (y : ℝ → E) (t₀ b : ℝ)
    (_ : ∀ t ∈ Icc t₀ b, ContDiffAt ℝ (p + 1 : Nat) (fun z : ℝ × E => m.rhs z.1 z.2) (t, y t))
    (_ : ∀ t ∈ Icc t₀ b, ∀ᶠ s in 𝓝 t, HasDerivAt y (m.rhs s (y s)) s),
    ∃ C, ∃ h₀ > 0, ∀ h, 0 < h → h ≤ h₀ → ∀ (n : Nat), t₀ + n * h ≤ b →
      ∀ (t : ℝ) (x : E) (hold : Option ℝ) (e : Q) (_ : I e),
      ∃ s, (⟨t, x, hold, Output.mkEmpty, h, e, []⟩ : FixedSt ℝ E Q).calls m
          (.setInitialState t₀ (y t₀) :: List.replicate n .doStep) = .ok s ∧
        s.t = t₀ + n * h ∧ ‖s.x - y s.t‖ ≤ C * h ^ p

omit [CompleteSpace E] in
theorem fixed_converges {co : Coefficients ℚ} {s p : Nat} (hs : 1 ≤ s) (hpk : (co.tableau s).pack 1 (-1) = co)
    (hr : RowCheck co s = true) (hc : OrderCheck co s 0 p = true) (hp : 1 ≤ p) : FixedConverges co p := by
  intro E Q _ _ _ m hm I hq y t₀ b hf hy
  obtain ⟨C, hC, h₀, hh₀, key⟩ := grid_converges hr hc hp m.rhs t₀ b y hf hy
  refine ⟨C, h₀, hh₀, fun h hh hle n hn t x hold e hI => ?_⟩
  let T := (co.cast ℝ).tableau s
  let xs : Nat → E := fun k => Nat.rec (y t₀) (fun k x => T.output m.rhs (t₀ + k * h) h x 0) k
  have h0 : T.c 0 = 0 := rfl
  obtain ⟨st, a1, a2, a3, _⟩ := C28_iterate T m hs h0 (by rw [hm]; exact (cast_pack hpk).symm) I hq t t₀ h x (y t₀)
    hold e hI xs rfl (fun _ => rfl) n
  refine ⟨st, a1, a2, ?_⟩
  rw [a2, a3]
  have := key h hh.le hle n xs (fun k => t₀ + k * h) (fun _ => h) rfl (by simp)
    (fun k _ => ⟨hh.le, le_refl h, by push_cast; ring, rfl⟩)
    (fun k hk => by
      have : (k : ℝ) * h ≤ n * h := mul_le_mul_of_nonneg_right (by exact_mod_cast hk) hh.le
      linarith) n (le_refl n)
  exact this

/-- C101. The explicit Euler solver converges with order 1. -/
theorem C101_euler : FixedConverges euler 1 :=
  fixed_converges (s := 1) (by decide) (coefficients_ext (by decide +kernel) (by decide +kernel) (by decide +kernel) rfl)
    (by decide +kernel) euler_check (by decide)

/-- C101. The classical Runge-Kutta solver converges with order 4. -/
theorem C101_rk4 : FixedConverges rk4 4 :=
  fixed_converges (s := 4) (by decide) (coefficients_ext (by decide +kernel) (by decide +kernel) (by decide +kernel) rfl)
    (by decide +kernel) rk4_check (by decide)

/-- The solver with variable steps converges with order `p` in the largest step made: for every sequence of
calls of `doStep` that return, whatever the step size controller and the error norm do. -/
def AdaptiveConverges (co : Coefficients ℚ) (p : Bool → Nat) : Prop :=
  ∀ {E Q : Type} [NormedAddCommGroup E] [NormedSpace ℝ E] [CompleteSpace E] (m : EmbMethod ℝ E Q)
    (_ : m.co = co.cast ℝ) (I : Q → Prop) (_ : Quiet m.ec I) (y : ℝ → E) (t₀ b : ℝ)
    (_ : ∀ t ∈ Icc t₀ b, ContDiffAt ℝ (p m.lowMode + 1 : Nat) (fun z : ℝ × E => m.rhs z.1 z.2) (t, y t))
    (_ : ∀ t ∈ Icc t₀ b, ∀ᶠ s in 𝓝 t, HasDerivAt y (m.rhs s (y s)) s),
    ∃ C, ∃ h₀ > 0, ∀ H, 0 ≤ H → H ≤ h₀ → ∀ (N : Nat) (st : Nat → FixedSt ℝ E Q), (st 0).t = t₀ → (st 0).x = y t₀ →
      (st 0).out = Output.mkEmpty → I (st 0).ec →
      (∀ k < N, ∃ fuel, (st k).doStepEmb m fuel = some (.ok (.accepted (st (k + 1))))) →
      (∀ k < N, (st k).t ≤ (st (k + 1)).t ∧ (st (k + 1)).t ≤ (st k).t + H) → (∀ k ≤ N, (st k).t ≤ b) →
      ∀ k ≤ N, ‖(st k).x - y (st k).t‖ ≤ C * H ^ p m.lowMode

omit [NormedAddCommGroup E] [NormedSpace ℝ E] [CompleteSpace E] in
theorem uses_of_cast {co : Coefficients ℚ} {s : Nat} (hs : 1 ≤ s) {l : Int}
    (hpk : (co.tableau s).pack 2 l = co) (hl : ∀ ix : Nat, ix < 2 → (ix : Int) = l →
      2 ≤ s ∧ (∀ j, j < s - 1 → co.A (s - 1) j = co.B s ix j) ∧ co.B s ix (s - 1) = 0)
    {V Q : Type} [AddCommGroup V] [Module ℝ V] (m : EmbMethod ℝ V Q) (hm : m.co = co.cast ℝ) :
    Uses m ((co.cast ℝ).tableau s) := ⟨hs, rfl, l, by rw [hm]; exact (cast_pack hpk).symm,
  fun ix hix he => by
    obtain ⟨g1, g2, g3⟩ := hl ix hix he
    refine ⟨g1, fun j hj => ?_, ?_⟩
    · show (co.cast ℝ).A (s - 1) j = (co.cast ℝ).B s ix j
      rw [cast_A, cast_B, g2 j hj]
    · show (co.cast ℝ).B s ix (s - 1) = 0
      rw [cast_B, g3, Rat.cast_zero]⟩

omit [CompleteSpace E] in
theorem adaptive_converges {co : Coefficients ℚ} {s : Nat} {p : Bool → Nat} (hs : 1 ≤ s) {l : Int}
    (hpk : (co.tableau s).pack 2 l = co) (hl : ∀ ix : Nat, ix < 2 → (ix : Int) = l →
      2 ≤ s ∧ (∀ j, j < s - 1 → co.A (s - 1) j = co.B s ix j) ∧ co.B s ix (s - 1) = 0)
    (hr : RowCheck co s = true) (hc : ∀ q, OrderCheck co s (if q then 1 else 0) (p q) = true) (hp : ∀ q, 1 ≤ p q) :
    AdaptiveConverges co p := by
  intro E Q _ _ _ m hm I hq y t₀ b hf hy
  obtain ⟨C, hC, h₀, hh₀, key⟩ := grid_converges hr (hc m.lowMode) (hp m.lowMode) m.rhs t₀ b y hf hy
  have hu := uses_of_cast hs hpk hl m hm
  refine ⟨C, h₀, hh₀, fun H hH hle N st ht hx hout hI hstep hH' hb => ?_⟩
  have inv : ∀ k ≤ N, Ready ((co.cast ℝ).tableau s) (st k) ∧ I (st k).ec := by
    intro k
    induction k with
    | zero => intro _; exact ⟨.inl (by rw [hout]; rfl), hI⟩
    | succ k ih =>
      intro hk
      obtain ⟨ih1, ih2⟩ := ih (by omega)
      obtain ⟨fuel, hfu⟩ := hstep k (by omega)
      obtain ⟨_, _, _, _, a3, _⟩ := C30_doStep m _ hu fuel (st k) ih1 _ hfu
      obtain ⟨_, _, _, _, _, _, _, _, a9⟩ := C30_quiet m _ hu I hq fuel (st k) (st (k + 1)) ih2 ih1 hfu
      exact ⟨a3, a9⟩
  refine key H hH hle N (fun k => (st k).x) (fun k => (st k).t) (fun k => (st (k + 1)).t - (st k).t) hx ht ?_ hb
  intro k hk
  obtain ⟨b1, b2⟩ := hH' k hk
  obtain ⟨c1, c2⟩ := inv k (by omega)
  obtain ⟨fuel, hfu⟩ := hstep k hk
  obtain ⟨_, h, _, _, _, a5, a6, _, _⟩ := C30_quiet m _ hu I hq fuel (st k) (st (k + 1)) c2 c1 hfu
  refine ⟨by linarith, by linarith, by ring, ?_⟩
  have e : (st (k + 1)).t - (st k).t = h := by rw [a5]; ring
  rw [e, a6]

/-- With the error check disabled every call of `doStep` returns after one pass and keeps the step size. -/
theorem unchecked_step {K V E : Type} [Field K] [LinearOrder K] [AddCommGroup V] [Module K V]
    (m : EmbMethod K V E) (T : Tableau K) (hu : Uses m T) (I : E → Prop) (hq : Quiet m.ec I)
    (hd : m.disableErrorCheck = true) (s : FixedSt K V E) (hI : I s.ec) (hr : Ready T s) (h : K)
    (hh : s.stepInUse = some h) : ∃ s', s.doStepEmb m 1 = some (.ok (.accepted s')) ∧ s'.t = s.t + h ∧
      s'.stepInUse = some h ∧ Ready T s' ∧ I s'.ec := by
  have hj : m.judge T s.t s.x h = ⟨h, true, false⟩ := by simp [EmbMethod.judge, EmbMethod.verdict, hd]
  obtain ⟨A, hA⟩ := C30_total m T hu I hq s hI hr
  obtain ⟨h', a1, a2, a3, a4, a5⟩ := C30_attempt m T hu s hr A hA
  rw [hh] at a1
  cases a1
  cases A with
  | rejected s' =>
    obtain ⟨_, _, _, _, h'', _, b⟩ := a3 s' rfl
    have := b.1
    simp [hj] at this
  | thrown msg s' =>
    have := (a5 msg s' rfl).1
    simp [hj] at this
  | accepted s' =>
    have hdo : s.doStepEmb m 1 = some (.ok (.accepted s')) := by simp [FixedSt.doStepEmb, hA]
    obtain ⟨h₀, h₁, b1, b2, b3, b4, b5, b6, b7⟩ := C30_quiet m T hu I hq 1 s s' hI hr hdo
    rw [hh] at b1
    cases b1
    have e : h₁ = h := by
      cases Relation.ReflTransGen.cases_head b2 with
      | inl e => exact e.symm
      | inr e => obtain ⟨c, e, _⟩ := e; have := e.1; simp [hj] at this
    subst e
    refine ⟨s', hdo, b4, ?_, a2, b7⟩
    have : s'.h = some h₁ := by rw [b6, hj]; rfl
    have hk : s'.out.k ≠ [] := by
      obtain ⟨h', hi, lo, o', _, c2, _, _, c5, _⟩ := attempt_inv hA
      obtain ⟨d1, d2, _⟩ := hu.init hr
      obtain ⟨o'', k1, k2, _⟩ := hu.kernel s.x s.t h' _ d1 d2
      rw [k1] at c2
      cases c2
      have hp := hu.pos
      intro hn
      have := congrArg List.length c5
      simp only [Attempt.state] at this
      rw [hn, k2] at this
      simp at this
      omega
    unfold FixedSt.stepInUse
    rw [if_neg (by simpa using hk)]
    exact this

omit [CompleteSpace E] in
/-- With the error check disabled the solver makes any number of steps of the given size. -/
theorem unchecked_run {K V E : Type} [Field K] [LinearOrder K] [AddCommGroup V] [Module K V]
    (m : EmbMethod K V E) (T : Tableau K) (hu : Uses m T) (I : E → Prop) (hq : Quiet m.ec I)
    (hd : m.disableErrorCheck = true) (s : FixedSt K V E) (hI : I s.ec) (hr : Ready T s) (h : K)
    (hh : s.stepInUse = some h) : ∃ st : Nat → FixedSt K V E, st 0 = s ∧
      (∀ k, (st k).doStepEmb m 1 = some (.ok (.accepted (st (k + 1))))) ∧ ∀ k, (st k).t = s.t + k * h := by
  let P := { s' : FixedSt K V E // I s'.ec ∧ Ready T s' ∧ s'.stepInUse = some h }
  have hst : ∀ s' : P, ∃ s'' : P, s'.1.doStepEmb m 1 = some (.ok (.accepted s''.1)) ∧ s''.1.t = s'.1.t + h := by
    intro s'
    obtain ⟨s'', a1, a2, a3, a4, a5⟩ := unchecked_step m T hu I hq hd s'.1 s'.2.1 s'.2.2.1 h s'.2.2.2
    exact ⟨⟨s'', a5, a4, a3⟩, a1, a2⟩
  choose F hF1 hF2 using hst
  let st : Nat → P := fun k => Nat.rec ⟨s, hI, hr, hh⟩ (fun _ q => F q) k
  refine ⟨fun k => (st k).1, rfl, fun k => hF1 (st k), fun k => ?_⟩
  induction k with
  | zero => simp [st]
  | succ k ih =>
    have : (st (k + 1)).1.t = (st k).1.t + h := hF2 (st k)
    rw [this, ih]
    push_cast
    ring

/-- C101. DOPRI45 converges with order 5, and with order 4 in the mode that goes on with the lower-order
result. -/
theorem C101_dopri45 : AdaptiveConverges dopri45 (fun low => if low then 4 else 5) :=
  adaptive_converges (co := dopri45) (s := 7) (l := 0) (p := fun low => if low then 4 else 5) (by decide)
    (coefficients_ext (by decide +kernel) (by decide +kernel) (by decide +kernel) rfl)
    (by decide +kernel) (by decide +kernel)
    (fun q => by cases q; exacts [dopri45_high, dopri45_low]) (fun q => by cases q <;> decide)

/-- C101. DOPRI56 converges with order 6, and with order 5 in the mode that goes on with the lower-order
result. -/
theorem C101_dopri56 : AdaptiveConverges dopri56 (fun low => if low then 5 else 6) :=
  adaptive_converges (co := dopri56) (s := 8) (l := -1) (p := fun low => if low then 5 else 6) (by decide)
    (coefficients_ext (by decide +kernel) (by decide +kernel) (by decide +kernel) rfl)
    (by decide +kernel) (by decide +kernel)
    (fun q => by cases q; exacts [dopri56_high, dopri56_low]) (fun q => by cases q <;> decide)

/-- With the error check disabled the embedded solver is a solver with a fixed step: any number of calls of
`doStep` return, and the error on a given interval is of order `p` in the step. -/
def UncheckedConverges (co : Coefficients ℚ) (p : Bool → Nat) : Prop :=
  ∀ {E Q : Type} [NormedAddCommGroup E] [NormedSpace ℝ E] [CompleteSpace E] (m : EmbMethod ℝ E Q)
    (_ : m.co = co.cast ℝ) (_ : m.disableErrorCheck = true) (I : Q → Prop) (_ : Quiet m.ec I) (y : ℝ → E) (t₀ b : ℝ)
    (_ : ∀ t ∈ Icc t₀ b, ContDiffAt ℝ (p m.lowMode + 1 : Nat) (fun z : ℝ × E => m.rhs z.1 z.2) (t, y t))
    (_ : ∀ t ∈ Icc t₀ b, ∀ᶠ s in 𝓝 t, HasDerivAt y (m.rhs s (y s)) s),
    ∃ C, ∃ h₀ > 0, ∀ h, 0 < h → h ≤ h₀ → ∀ s : FixedSt ℝ E Q, s.t = t₀ → s.x = y t₀ →
      s.out = Output.mkEmpty → s.hInit = h → I s.ec →
      ∃ st : Nat → FixedSt ℝ E Q, st 0 = s ∧ (∀ k, (st k).doStepEmb m 1 = some (.ok (.accepted (st (k + 1))))) ∧
        (∀ k, (st k).t = t₀ + k * h) ∧
        ∀ k : Nat, t₀ + k * h ≤ b → ‖(st k).x - y (t₀ + k * h)‖ ≤ C * h ^ p m.lowMode

omit [NormedAddCommGroup E] [NormedSpace ℝ E] [CompleteSpace E] in
theorem unchecked_converges {co : Coefficients ℚ} {s : Nat} {p : Bool → Nat} (hs : 1 ≤ s) {l : Int}
    (hpk : (co.tableau s).pack 2 l = co) (hl : ∀ ix : Nat, ix < 2 → (ix : Int) = l →
      2 ≤ s ∧ (∀ j, j < s - 1 → co.A (s - 1) j = co.B s ix j) ∧ co.B s ix (s - 1) = 0)
    (H : AdaptiveConverges co p) : UncheckedConverges co p := by
  intro E Q _ _ _ m hm hd I hq y t₀ b hf hy
  obtain ⟨C, h₀, hh₀, key⟩ := H m hm I hq y t₀ b hf hy
  refine ⟨C, h₀, hh₀, fun h hh hle s₀ ht hx hout hh' hI => ?_⟩
  obtain ⟨st, a1, a2, a3⟩ := unchecked_run m _ (uses_of_cast hs hpk hl m hm) I hq hd s₀ hI
    (.inl (by rw [hout]; rfl)) h (by simp [FixedSt.stepInUse, hout, Output.mkEmpty, hh'])
  rw [ht] at a3
  refine ⟨st, a1, a2, a3, fun n hn => ?_⟩
  have := key h hh.le hle n st (by rw [a1, ht]) (by rw [a1, hx]) (by rw [a1, hout]) (by rw [a1]; exact hI)
    (fun k _ => ⟨1, a2 k⟩)
    (fun k _ => by rw [a3, a3]; push_cast; exact ⟨by linarith, by linarith⟩)
    (fun k hk => by
      rw [a3]
      have : (k : ℝ) * h ≤ n * h := mul_le_mul_of_nonneg_right (by exact_mod_cast hk) hh.le
      linarith) n (le_refl n)
  rwa [a3] at this

/-- C101. DOPRI45 with its error check disabled converges with order 5 (4 in the other mode). -/
theorem C101_dopri45_unchecked : UncheckedConverges dopri45 (fun low => if low then 4 else 5) :=
  unchecked_converges (co := dopri45) (s := 7) (l := 0) (p := fun low => if low then 4 else 5) (by decide)
    (coefficients_ext (by decide +kernel) (by decide +kernel) (by decide +kernel) rfl)
    (by decide +kernel) C101_dopri45

/-- C101. DOPRI56 with its error check disabled converges with order 6 (5 in the other mode). -/
theorem C101_dopri56_unchecked : UncheckedConverges dopri56 (fun low => if low then 5 else 6) :=
  unchecked_converges (co := dopri56) (s := 8) (l := -1) (p := fun low => if low then 5 else 6) (by decide)
    (coefficients_ext (by decide +kernel) (by decide +kernel) (by decide +kernel) rfl)
    (by decide +kernel) C101_dopri56

end

/-- The hypotheses are met by `x' = x²`, `x(0) = 1`, whose solution `1/(1-t)` exists up to time 1 only and
whose right-hand side has no global Lipschitz constant: the classical method converges on `[0, 1/2]`. -/
example : ∃ C, ∃ h₀ > 0, ∀ h : ℝ, 0 < h → h ≤ h₀ → ∀ (n : Nat), 0 + n * h ≤ 1 / 2 →
    ∀ (t x : ℝ) (hold : Option ℝ) (e : Unit) (_ : True),
      ∃ s, (⟨t, x, hold, Output.mkEmpty, h, e, []⟩ : FixedSt ℝ ℝ Unit).calls ⟨rk4.cast ℝ, fun _ x => x ^ 2, none⟩
          (.setInitialState 0 ((fun t => (1 - t)⁻¹) 0) :: List.replicate n .doStep) = .ok s ∧
        s.t = 0 + n * h ∧ ‖s.x - (fun t => (1 - t)⁻¹) s.t‖ ≤ C * h ^ 4 := by
  refine C101_rk4 ⟨rk4.cast ℝ, fun _ x => x ^ 2, none⟩ rfl (fun _ => True) ?_ (fun t => (1 - t)⁻¹) 0 (1 / 2) ?_ ?_
  · exact ⟨fun c hc => by simp at hc, fun c hc => by simp at hc, fun c hc => by simp at hc⟩
  · intro t _
    exact (contDiffAt_snd.pow 2)
  · intro t ht
    have : ∀ᶠ s in 𝓝 t, s < 1 := gt_mem_nhds (by linarith [ht.2])
    filter_upwards [this] with s hs
    have hne : (1 - s) ≠ 0 := by linarith
    have := HasDerivAt.fun_inv ((hasDerivAt_id s).const_sub 1) hne
    simp only [id] at this
    have e : - -1 / (1 - s) ^ 2 = ((1 - s)⁻¹) ^ 2 := by simp
    rw [e] at this
    exact this

/-- A method with the error check disabled and the problem `x' = x`: the hypotheses are met, the run exists. -/
example : ∃ C, ∃ h₀ > 0, ∀ h : ℝ, 0 < h → h ≤ h₀ → ∃ st : Nat → FixedSt ℝ ℝ Unit,
    st 0 = ⟨0, 1, none, Output.mkEmpty, h, (), []⟩ ∧
    (∀ k, (st k).doStepEmb ⟨⟨dopri45.cast ℝ, fun _ x => x, none⟩, 5, 4, true, false, 0, false, 0, fun x => |x|,
      fun h _ _ => ⟨h, true, false⟩⟩ 1 = some (.ok (.accepted (st (k + 1))))) ∧
    ∀ k : Nat, 0 + k * h ≤ 1 → ‖(st k).x - Real.exp (0 + k * h)‖ ≤ C * h ^ 5 := by
  obtain ⟨C, h₀, hh₀, key⟩ := C101_dopri45_unchecked (Q := Unit)
    ⟨⟨dopri45.cast ℝ, fun _ (x : ℝ) => x, none⟩, 5, 4, true, false, 0, false, 0, fun x => |x|,
      fun h _ _ => ⟨h, true, false⟩⟩ rfl rfl (fun _ => True)
    ⟨fun c hc => by simp at hc, fun c hc => by simp at hc, fun c hc => by simp at hc⟩ Real.exp 0 1
    (fun t _ => contDiffAt_snd) (fun t _ => Filter.Eventually.of_forall fun s => Real.hasDerivAt_exp s)
  refine ⟨C, h₀, hh₀, fun h hh hle => ?_⟩
  obtain ⟨st, a1, a2, a3, a4⟩ := key h hh hle ⟨0, 1, none, Output.mkEmpty, h, (), []⟩ rfl (by simp) rfl rfl trivial
  exact ⟨st, a1, a2, a4⟩

end Verif.RK
