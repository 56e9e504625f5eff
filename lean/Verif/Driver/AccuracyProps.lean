import Verif.Driver.Tells
import Verif.RK.Converge
import Verif.Ros.Converge
import Verif.Extrap.Rk4Order
import Verif.Implicit.ConvergeEx

/-! # C124: the samples of a run of `solveOde` are close to the solution

What the user of the library asks for: `solveOde` is called with a solver and a time interval, and the output options are told
samples of the solution. Here the convergence of the solvers is carried over to these samples. -/

namespace Verif.Driver

open Verif.Res Verif.RK Filter Topology Set

/-- All samples told to the post-observers during a run, and what the solver shows in the end, differ from the function `y` by at
most `ε`. `view` gives the vector that a state stands for. -/
def Close {V S F : Type} [NormedAddCommGroup F] (sv : Solver ℝ V S) (view : V → F) (y : ℝ → F) (ε : ℝ) (evs : List (Ev ℝ V))
    (s' : S) : Prop :=
  (∀ n, .note n ∈ evs → ‖view n.state - y n.time‖ ≤ ε) ∧ ‖view (sv.state s') - y (sv.time s')‖ ≤ ε

/-- The solver makes samples of order `q`: whenever `solveOde` returns, from a state with `S0`, and no two times in a row among
the beginning and the samples of accepted steps are further apart than `H`, all samples are within `C H^q` of the solution `y`,
up to time `b`. The constant does not depend on the run. `sv` is a family because loops are given a number of passes. -/
def Samples {V S F : Type} [NormedAddCommGroup F] (sv : Nat → Solver ℝ V S) (view : V → F) (S0 : S → Prop) (y : ℝ → F) (b : ℝ)
    (q : Nat) : Prop :=
  ∃ C, ∃ h₀ > 0, ∀ H, 0 ≤ H → H ≤ h₀ → ∀ (c : Outputs) (_ : c.Start) (d : ℝ) (fuel j : Nat) (s s' : S) (evs : List (Ev ℝ V)),
    S0 s → solveOde (sv j) c d fuel s = some (evs, .ok s') →
    List.IsChain (fun a b => a ≤ b ∧ b ≤ a + H) ((sv j).time s :: (accepted evs).map (·.time)) → (sv j).time s' ≤ b →
    Close (sv j) view y (C * H ^ q) evs s'

section
variable {V S F : Type} [NormedAddCommGroup F]

/-- From chains of steps to runs -/
theorem run_close {sv : Solver ℝ V S} (hT : Tells sv) {view : V → F} {y : ℝ → F} {c : Outputs} (hc : c.Start) {d : ℝ}
    {fuel : Nat} {s s' : S} (hr : sv.hasRhs s = true) {evs : List (Ev ℝ V)}
    (h : solveOde sv c d fuel s = some (evs, .ok s')) {H : ℝ} :
    ∃ N, ∃ st : Nat → S, 1 ≤ N ∧ N ≤ fuel ∧ st 0 = s ∧ st N = s' ∧
      (∀ k < N, ∃ ns, sv.doStep (st k) = (ns, .ok (st (k + 1))) ∧ ∀ n ∈ ns, .note n ∈ evs) ∧
      (∀ k, 0 < k → k < N → sv.time (st k) < sv.time s + d) ∧ sv.time s + d ≤ sv.time s' ∧
      (List.IsChain (fun a b => a ≤ b ∧ b ≤ a + H) (sv.time s :: (accepted evs).map (·.time)) →
        ∀ k < N, sv.time (st k) ≤ sv.time (st (k + 1)) ∧ sv.time (st (k + 1)) ≤ sv.time (st k) + H) ∧
      (∀ k ≤ N, sv.state (st k) = sv.state s ∨ ∃ n, .note n ∈ evs ∧ n.state = sv.state (st k)) ∧
      (∀ ε, (∀ k ≤ N, ‖view (sv.state (st k)) - y (sv.time (st k))‖ ≤ ε) → Close sv view y ε evs s') ∧
      (accepted evs).length = N := by
  obtain ⟨N, st, a1, a0, a2, a3, a4, t1, t2, a5, a6⟩ := run_samples hT c hc d fuel s s' hr evs h
  refine ⟨N, st, a1, a0, a2, a3, a4, t1, t2, fun hch k hk => ?_, fun k hk => ?_, fun ε he => ⟨fun n hn => ?_, ?_⟩,
    by simpa using congrArg List.length a5⟩
  · have e : sv.time s :: (accepted evs).map (·.time) = (List.range (N + 1)).map (fun k => sv.time (st k)) := by
      rw [List.range_succ_eq_map, List.map_cons, List.map_map, a2]
      have := congrArg (List.map Prod.fst) a5
      rw [List.map_map, List.map_map] at this
      exact congrArg _ this
    rw [e, List.isChain_map, ← Nat.succ_eq_add_one, List.isChain_range_succ] at hch
    exact hch k hk
  · cases k with
    | zero => rw [a2]; exact .inl rfl
    | succ k =>
      obtain ⟨ns, b1, b2⟩ := a4 k (by omega)
      obtain ⟨rej, acc, c1, c2, c3, c4, c5⟩ := hT _ _ _ b1
      exact .inr ⟨acc, b2 acc (by rw [c1]; simp), c4⟩
  · obtain ⟨k, hk, h1, h2⟩ := a6 n hn
    rw [h1, h2]
    exact he k hk
  · rw [← a3]
    exact he N le_rfl

theorem monotone_le {τ : Nat → ℝ} {N : Nat} (h : ∀ k < N, τ k ≤ τ (k + 1)) {k : Nat} (hk : k ≤ N) : τ k ≤ τ N := by
  obtain ⟨j, rfl⟩ := Nat.exists_eq_add_of_le hk
  induction j with
  | zero => exact le_rfl
  | succ j ih => exact (ih (fun i hi => h i (by omega)) (by omega)).trans (h (k + j) (by omega))

/-- The number of steps of size `h` that `solveOde` makes -/
theorem steps_count {d h : ℝ} (hd : 0 ≤ d) (hh : 0 < h) :
    ∃ N : Nat, 1 ≤ N ∧ d ≤ N * h ∧ (N = 1 ∨ ((N : ℝ) - 1) * h < d) ∧ N * h ≤ d + h := by
  by_cases h0 : d = 0
  · exact ⟨1, le_rfl, by rw [h0]; simp [hh.le], .inl rfl, by rw [h0]; simp⟩
  · have hpos : 0 < d := lt_of_le_of_ne hd (Ne.symm h0)
    have e : d / h * h = d := div_mul_cancel₀ d hh.ne'
    have h1 : d ≤ (⌈d / h⌉₊ : ℝ) * h := by
      have := mul_le_mul_of_nonneg_right (Nat.le_ceil (d / h)) hh.le
      rwa [e] at this
    have h2 : ((⌈d / h⌉₊ : ℝ) - 1) * h < d := by
      have := mul_lt_mul_of_pos_right (show (⌈d / h⌉₊ : ℝ) - 1 < d / h by
        linarith [Nat.ceil_lt_add_one (div_nonneg hd hh.le)]) hh
      rwa [e] at this
    exact ⟨⌈d / h⌉₊, Nat.ceil_pos.2 (div_pos hpos hh), h1, .inr h2, by linarith⟩

/-- A run with steps of the size `h`: it returns, at a time between the one asked for and one step later. -/
theorem fixed_close {sv : Solver ℝ V S} (hT : Tells sv) (hr : ∀ s, sv.hasRhs s = true) {view : V → F} {y : ℝ → F} {ε : ℝ}
    {c : Outputs} (hc : c.Start) {d h t b : ℝ} (hd : 0 ≤ d) (hh : 0 < h) (hb : t + d + h ≤ b) (st : Nat → S)
    (ht : ∀ k : Nat, t + k * h ≤ b → sv.time (st k) = t + k * h)
    (hst : ∀ k : Nat, t + (k + 1 : Nat) * h ≤ b → ∃ ns, sv.doStep (st k) = (ns, .ok (st (k + 1))))
    (he : ∀ k : Nat, t + k * h ≤ b → ‖view (sv.state (st k)) - y (sv.time (st k))‖ ≤ ε) :
    ∃ fuel s' evs, solveOde sv c d fuel (st 0) = some (evs, .ok s') ∧ t + d ≤ sv.time s' ∧ sv.time s' ≤ t + d + h ∧
      Close sv view y ε evs s' := by
  obtain ⟨N, n1, n2, n3, n4⟩ := steps_count hd hh
  have hk : ∀ k, k ≤ N → t + k * h ≤ b := fun k hk => by
    have : (k : ℝ) * h ≤ N * h := mul_le_mul_of_nonneg_right (by exact_mod_cast hk) hh.le
    linarith
  obtain ⟨evs, hrun⟩ := fixed_run (sv := sv) c hc d t h N n1 st (hr _) (fun k hkN => ht k (hk k hkN)) hh.le
    (fun k hkN => hst k (hk (k + 1) hkN)) n2 n3
  refine ⟨N, st N, evs, hrun, ?_, ?_, ?_⟩
  · rw [ht N (hk N le_rfl)]; linarith
  · rw [ht N (hk N le_rfl)]; linarith
  obtain ⟨N', st', a1, a0, a2, a3, a4, -, -, -, -, a6, -⟩ := run_close hT (view := view) (y := y) hc (hr _) hrun (H := 0)
  have same : ∀ k ≤ N', st' k = st k := by
    intro k
    induction k with
    | zero => intro _; rw [a2]
    | succ k ih =>
      intro hkN
      obtain ⟨ns, c1, -⟩ := a4 k hkN
      rw [ih (by omega)] at c1
      obtain ⟨ns', c2⟩ := hst k (hk (k + 1) (by omega))
      rw [c2] at c1
      injection c1 with _ c1
      injection c1 with c1
      exact c1.symm
  refine a6 _ (fun k hkN => ?_)
  rw [same k hkN]
  exact he k (hk k (by omega))

end

/-! ### Explicit Runge-Kutta solvers -/

/-- The solver with fixed steps makes samples of order `p`: `solveOde` returns at a time between the one asked for and one step
later, and all samples and the state in the end are within `C h^p` of the solution. -/
def FixedRuns (co : Coefficients ℚ) (p : Nat) : Prop :=
  ∀ {E Q : Type} [NormedAddCommGroup E] [NormedSpace ℝ E] [CompleteSpace E] (m : Method ℝ E Q)
    (_ : m.co = co.cast ℝ) (I : Q → Prop) (_ : Quiet m.ec I) (y : ℝ → E) (t₀ b : ℝ)
    (_ : ∀ t ∈ Icc t₀ b, ContDiffAt ℝ (p + 1 : Nat) (fun z : ℝ × E => m.rhs z.1 z.2) (t, y t))
    (_ : ∀ t ∈ Icc t₀ b, ∀ᶠ s in 𝓝 t, HasDerivAt y (m.rhs s (y s)) s),
    ∃ C, ∃ h₀ > 0, ∀ h, 0 < h → h ≤ h₀ → ∀ d, 0 ≤ d → t₀ + d + h ≤ b → ∀ (c : Outputs) (_ : c.Start) (hold : Option ℝ) (e : Q)
      (_ : I e), ∃ fuel s' evs, solveOde (erk m) c d fuel ⟨t₀, y t₀, hold, Output.mkEmpty, h, e, []⟩ = some (evs, .ok s') ∧
        t₀ + d ≤ s'.t ∧ s'.t ≤ t₀ + d + h ∧ Close (erk m) id y (C * h ^ p) evs s'

theorem fixed_runs {co : Coefficients ℚ} {s p : Nat} (hs : 1 ≤ s) (hpk : (co.tableau s).pack 1 (-1) = co)
    (hr : RowCheck co s = true) (hc : OrderCheck co s 0 p = true) (hp : 1 ≤ p) : FixedRuns co p := by
  intro E Q _ _ _ m hm I hq y t₀ b hf hy
  obtain ⟨C, hC, h₀, hh₀, key⟩ := grid_converges hr hc hp m.rhs t₀ b y hf hy
  refine ⟨C, h₀, hh₀, fun h hh hle d hd hb c hc hold e hI => ?_⟩
  let T := (co.cast ℝ).tableau s
  let xs : Nat → E := fun k => Nat.rec (y t₀) (fun k x => T.output m.rhs (t₀ + k * h) h x 0) k
  have h0 : T.c 0 = 0 := rfl
  obtain ⟨n, n1, n2, n3, n4⟩ := steps_count hd hh
  obtain ⟨s', a1, a2, a3⟩ := C44_fixed T m hs h0 (by rw [hm]; exact (cast_pack hpk).symm) I hq t₀ h hh (y t₀) hold e hI xs rfl
    (fun _ => rfl) c hc d n n1 n2 n3
  have acc : ∀ k ≤ n, ‖xs k - y (t₀ + k * h)‖ ≤ C * h ^ p :=
    key h hh.le hle n xs (fun k => t₀ + k * h) (fun _ => h) rfl (by simp)
      (fun k _ => ⟨hh.le, le_refl h, by push_cast; ring, rfl⟩)
      (fun k hk => by
        have : (k : ℝ) * h ≤ n * h := mul_le_mul_of_nonneg_right (by exact_mod_cast hk) hh.le
        linarith)
  refine ⟨n, s', _, a3, by rw [a1]; linarith, by rw [a1]; linarith, fun nt hn => ?_, ?_⟩
  · simp only [List.mem_append, List.mem_map, reduceCtorEq, and_false, exists_false, false_or, or_false, Ev.note.injEq,
      exists_eq_right, List.mem_range'] at hn
    obtain ⟨_, ⟨k, hk, rfl⟩, rfl⟩ := hn
    simp only [id]
    exact acc (0 + 1 * k + 1) (by omega)
  · show ‖s'.x - y s'.t‖ ≤ _
    rw [a1, a2]
    exact acc n le_rfl

/-- C124. Explicit Euler -/
theorem C124_euler : FixedRuns euler 1 :=
  fixed_runs (s := 1) (by decide) (coefficients_ext (by decide +kernel) (by decide +kernel) (by decide +kernel) rfl)
    (by decide +kernel) euler_check (by decide)

/-- C124. The classical Runge-Kutta method -/
theorem C124_rk4 : FixedRuns rk4 4 :=
  fixed_runs (s := 4) (by decide) (coefficients_ext (by decide +kernel) (by decide +kernel) (by decide +kernel) rfl)
    (by decide +kernel) rk4_check (by decide)

theorem emb_doStep {K V E : Type} [Field K] [LinearOrder K] [AddCommGroup V] [Module K V] {m : EmbMethod K V E} {fuel : Nat}
    {s s' : FixedSt K V E} {ns : List (Note K V)} (h : (emb m fuel).doStep s = (ns, .ok s')) :
    s.doStepEmb m fuel = some (.ok (.accepted s')) := by
  simp only [emb] at h
  induction fuel generalizing s ns with
  | zero => cases h
  | succ fuel ih =>
    unfold passes at h
    unfold FixedSt.doStepEmb
    split at h
    · cases h
    · cases h
    · rename_i q hA
      rw [hA]
      cases h
      rfl
    · rename_i q hA
      rw [hA]
      simp only [Prod.mk.injEq] at h
      exact ih (ns := _) (Prod.ext rfl h.2)

/-- The solver with variable steps makes samples of order `p`, whatever the step size controller and the error norm do. -/
def AdaptiveRuns (co : Coefficients ℚ) (p : Bool → Nat) : Prop :=
  ∀ {E Q : Type} [NormedAddCommGroup E] [NormedSpace ℝ E] [CompleteSpace E] (m : EmbMethod ℝ E Q)
    (_ : m.co = co.cast ℝ) (I : Q → Prop) (_ : Quiet m.ec I) (y : ℝ → E) (t₀ b : ℝ)
    (_ : ∀ t ∈ Icc t₀ b, ContDiffAt ℝ (p m.lowMode + 1 : Nat) (fun z : ℝ × E => m.rhs z.1 z.2) (t, y t))
    (_ : ∀ t ∈ Icc t₀ b, ∀ᶠ s in 𝓝 t, HasDerivAt y (m.rhs s (y s)) s),
    Samples (emb m) id (fun s => s.t = t₀ ∧ s.x = y t₀ ∧ s.out = Output.mkEmpty ∧ I s.ec) y b (p m.lowMode)

theorem adaptive_runs {co : Coefficients ℚ} {p : Bool → Nat} (H : AdaptiveConverges co p) : AdaptiveRuns co p := by
  intro E Q _ _ _ m hm I hq y t₀ b hf hy
  obtain ⟨C, h₀, hh₀, key⟩ := H m hm I hq y t₀ b hf hy
  refine ⟨C, h₀, hh₀, fun H hH hle c hc d fuel j s s' evs ⟨s1, s2, s3, s4⟩ h hch hb => ?_⟩
  obtain ⟨N, st, a1, -, a2, a3, a4, -, -, a5, -, a6, -⟩ := run_close (emb_tells m j) (view := id) (y := y) hc rfl h (H := H)
  have a5 := a5 hch
  refine a6 _ (key H hH hle N st (by rw [a2, s1]) (by rw [a2, s2]) (by rw [a2, s3]) (by rw [a2]; exact s4) (fun k hk => ?_)
    a5 (fun k hk => ?_))
  · obtain ⟨ns, b1, -⟩ := a4 k hk
    exact ⟨j, emb_doStep b1⟩
  · refine (monotone_le (τ := fun k => (st k).t) (fun k hk => (a5 k hk).1) hk).trans ?_
    rw [a3]
    exact hb

/-- C124. DOPRI45, with order 5, or 4 in the mode that goes on with the lower-order result -/
theorem C124_dopri45 : AdaptiveRuns dopri45 (fun low => if low then 4 else 5) :=
  @adaptive_runs _ _ @C101_dopri45

/-- C124. DOPRI56, with order 6, or 5 in the mode that goes on with the lower-order result -/
theorem C124_dopri56 : AdaptiveRuns dopri56 (fun low => if low then 5 else 6) :=
  @adaptive_runs _ _ @C101_dopri56

theorem emb_first {K V E : Type} [Field K] [LinearOrder K] [AddCommGroup V] [Module K V] {m : EmbMethod K V E}
    {s s' : FixedSt K V E} (h : s.doStepEmb m 1 = some (.ok (.accepted s'))) : ∃ ns, (emb m 1).doStep s = (ns, .ok s') := by
  unfold FixedSt.doStepEmb at h
  simp only [emb]
  unfold passes
  split at h
  · injection h with h; cases h
  · rename_i q _
    unfold FixedSt.doStepEmb at h
    cases h
  · rename_i r _ hA
    rw [hA]
    injection h with h
    injection h with h
    subst h
    exact ⟨_, rfl⟩

/-- With the error check disabled the embedded solver makes samples of order `p` in the step size it is given, and `solveOde`
returns at a time between the one asked for and one step later. -/
def UncheckedRuns (co : Coefficients ℚ) (p : Bool → Nat) : Prop :=
  ∀ {E Q : Type} [NormedAddCommGroup E] [NormedSpace ℝ E] [CompleteSpace E] (m : EmbMethod ℝ E Q)
    (_ : m.co = co.cast ℝ) (_ : m.disableErrorCheck = true) (I : Q → Prop) (_ : Quiet m.ec I) (y : ℝ → E) (t₀ b : ℝ)
    (_ : ∀ t ∈ Icc t₀ b, ContDiffAt ℝ (p m.lowMode + 1 : Nat) (fun z : ℝ × E => m.rhs z.1 z.2) (t, y t))
    (_ : ∀ t ∈ Icc t₀ b, ∀ᶠ s in 𝓝 t, HasDerivAt y (m.rhs s (y s)) s),
    ∃ C, ∃ h₀ > 0, ∀ h, 0 < h → h ≤ h₀ → ∀ d, 0 ≤ d → t₀ + d + h ≤ b → ∀ (c : Outputs) (_ : c.Start) (s : FixedSt ℝ E Q),
      s.t = t₀ → s.x = y t₀ → s.out = Output.mkEmpty → s.hInit = h → I s.ec →
      ∃ fuel s' evs, solveOde (emb m 1) c d fuel s = some (evs, .ok s') ∧
        t₀ + d ≤ s'.t ∧ s'.t ≤ t₀ + d + h ∧ Close (emb m 1) id y (C * h ^ p m.lowMode) evs s'

theorem unchecked_runs {co : Coefficients ℚ} {p : Bool → Nat} (H : UncheckedConverges co p) : UncheckedRuns co p := by
  intro E Q _ _ _ m hm hdis I hq y t₀ b hf hy
  obtain ⟨C, h₀, hh₀, key⟩ := H m hm hdis I hq y t₀ b hf hy
  refine ⟨C, h₀, hh₀, fun h hh hle d hd hb c hc s s1 s2 s3 s4 s5 => ?_⟩
  obtain ⟨st, a1, a2, a3, a4⟩ := key h hh hle s s1 s2 s3 s4 s5
  subst a1
  exact fixed_close (emb_tells m 1) (fun _ => rfl) hc hd hh hb st (fun k _ => a3 k) (fun k _ => emb_first (a2 k))
    (fun k hk => by
      show ‖(st k).x - y (st k).t‖ ≤ _
      rw [a3 k]
      exact a4 k hk)

/-- C124. DOPRI45 with its error check disabled -/
theorem C124_dopri45_unchecked : UncheckedRuns dopri45 (fun low => if low then 4 else 5) :=
  @unchecked_runs _ _ @C101_dopri45_unchecked

/-- C124. DOPRI56 with its error check disabled -/
theorem C124_dopri56_unchecked : UncheckedRuns dopri56 (fun low => if low then 5 else 6) :=
  @unchecked_runs _ _ @C101_dopri56_unchecked

/-! ### Extrapolation -/

section
variable {F E S Q : Type} [NormedAddCommGroup F] [NormedSpace ℝ F] [CompleteSpace F]

omit [NormedAddCommGroup F] [NormedSpace ℝ F] [CompleteSpace F] in
theorem ex_doStep {K V : Type} [Field K] [LinearOrder K] [AddCommGroup V] [Module K V] {m : Extrap.ExMethod K V E S Q}
    {fuel : Nat} {s s' : Extrap.ExSt K V E S Q} {ns : List (Note K V)} (h : (extrapolator m fuel).doStep s = (ns, .ok s')) :
    s.doStep m fuel = some (.ok (.accepted s')) := by
  simp only [extrapolator] at h
  induction fuel generalizing s ns with
  | zero => cases h
  | succ fuel ih =>
    unfold passes at h
    unfold Extrap.ExSt.doStep
    split at h
    · cases h
    · cases h
    · rename_i q hA
      rw [hA]
      cases h
      rfl
    · rename_i q hA
      rw [hA]
      simp only [Prod.mk.injEq] at h
      exact ih (ns := _) (Prod.ext rfl h.2)

omit [CompleteSpace F] in
theorem ex_runs {m : Extrap.ExMethod ℝ F E S Q} {f : ℝ → F → F} {S0 : Extrap.ExSt ℝ F E S Q → Prop} {q : Nat}
    (H : Extrap.ExConverges m f S0 q) (y : ℝ → F) (t₀ b : ℝ)
    (hf : ∀ t ∈ Icc t₀ b, ContDiffAt ℝ (q + 1 : Nat) (fun z : ℝ × F => f z.1 z.2) (t, y t))
    (hy : ∀ t ∈ Icc t₀ b, ∀ᶠ s in 𝓝 t, HasDerivAt y (f s (y s)) s) :
    Samples (extrapolator m) id (fun s => S0 s ∧ s.t = t₀ ∧ s.x = y t₀) y b q := by
  obtain ⟨C, h₀, hh₀, key⟩ := H y t₀ b hf hy
  refine ⟨C, h₀, hh₀, fun H hH hle c hc d fuel j s s' evs ⟨s0, s1, s2⟩ h hch hb => ?_⟩
  obtain ⟨N, st, a1, -, a2, a3, a4, -, -, a5, -, a6, -⟩ := run_close (ex_tells m j) (view := id) (y := y) hc rfl h (H := H)
  have a5 := a5 hch
  refine a6 _ (key H hH hle N st (by rw [a2]; exact s0) (by rw [a2, s1]) (by rw [a2, s2]) (fun k hk => ?_)
    a5 (fun k hk => ?_))
  · obtain ⟨ns, b1, -⟩ := a4 k hk
    exact ⟨j, ex_doStep b1⟩
  · refine (monotone_le (τ := fun k => (st k).t) (fun k hk => (a5 k hk).1) hk).trans ?_
    rw [a3]
    exact hb

/-- C124. Extrapolation of the Gragg method with the flag `symmetric`, with twice the number of stages as the order, the one it
reports -/
theorem C124_gragg {E0 : Type} (g : Extrap.GrMethod ℝ F E0) (hgec : g.ec = none)
    (m : Extrap.ExMethod ℝ F E (Extrap.GrSt ℝ F E0) Q) (href : m.ref = some g.ref) (hec : m.ec = none)
    (sq : Extrap.StepSeq Q) (hsq : m.seq = some sq) (a : Nat → Nat) (B : Nat) (hg : Extrap.Gives sq a B)
    (h1 : 1 ≤ m.maxStages) (h2 : m.disableErrorCheck = true ∨ 2 ≤ m.maxStages)
    (h3 : m.maxStages ≤ B) (hsym : m.symmetric = true) (y : ℝ → F) (t₀ b : ℝ)
    (hf : ∀ t ∈ Icc t₀ b, ContDiffAt ℝ (2 * m.maxStages + 1 : Nat) (fun z : ℝ × F => g.rhs z.1 z.2) (t, y t))
    (hy : ∀ t ∈ Icc t₀ b, ∀ᶠ s in 𝓝 t, HasDerivAt y (g.rhs s (y s)) s) :
    Samples (extrapolator m) id (fun s => Extrap.Fits a m.maxStages s ∧ s.t = t₀ ∧ s.x = y t₀) y b (2 * m.maxStages) :=
  ex_runs (Extrap.C114_gragg g hgec m href hec sq hsq a B hg h1 h2 h3 hsym).2 y t₀ b hf hy

/-- C124. Extrapolation of the classical Runge-Kutta method, with order 4 at least -/
theorem C124_extrapolated_rk4 {E0 : Type} (g : Method ℝ F E0) (hco : g.co = rk4.cast ℝ) (hgec : g.ec = none)
    (m : Extrap.ExMethod ℝ F E (FixedSt ℝ F E0) Q) (href : m.ref = some (g.ref 4)) (hec : m.ec = none)
    (sq : Extrap.StepSeq Q) (hsq : m.seq = some sq) (a : Nat → Nat) (B : Nat) (hg : Extrap.Gives sq a B)
    (h1 : 1 ≤ m.maxStages) (h2 : m.disableErrorCheck = true ∨ 2 ≤ m.maxStages) (h3 : m.maxStages ≤ B) (y : ℝ → F) (t₀ b : ℝ)
    (hf : ∀ t ∈ Icc t₀ b, ContDiffAt ℝ (4 + 1 : Nat) (fun z : ℝ × F => g.rhs z.1 z.2) (t, y t))
    (hy : ∀ t ∈ Icc t₀ b, ∀ᶠ s in 𝓝 t, HasDerivAt y (g.rhs s (y s)) s) :
    Samples (extrapolator m) id (fun s => Extrap.Fits a m.maxStages s ∧ s.t = t₀ ∧ s.x = y t₀) y b 4 :=
  ex_runs (Extrap.C114_rk4 g hco hgec m href hec sq hsq a B hg h1 h2 h3) y t₀ b hf hy

omit [NormedAddCommGroup F] [NormedSpace ℝ F] [CompleteSpace F] in
theorem ex_first {K V : Type} [Field K] [LinearOrder K] [AddCommGroup V] [Module K V] {m : Extrap.ExMethod K V E S Q}
    {s s' : Extrap.ExSt K V E S Q} (h : s.doStep m 1 = some (.ok (.accepted s'))) :
    ∃ ns, (extrapolator m 1).doStep s = (ns, .ok s') := by
  unfold Extrap.ExSt.doStep at h
  simp only [extrapolator]
  unfold passes
  split at h
  · injection h with h; cases h
  · unfold Extrap.ExSt.doStep at h
    cases h
  · rename_i r _ hA
    rw [hA]
    injection h with h
    injection h with h
    subst h
    exact ⟨_, rfl⟩

/-- C124. An extrapolator with its error check disabled: `solveOde` returns at a time between the one asked for and one step
later, and all samples are within `C h^q` of the solution, where `q` is the order the extrapolator converges with. -/
theorem C124_extrapolator_unchecked {m : Extrap.ExMethod ℝ F E S Q} {r : Extrap.RefSolver ℝ F S} {Φ : ℝ → F → ℝ → Nat → F}
    {sq : Extrap.StepSeq Q} {a : Nat → Nat} {B : Nat} (hm : Extrap.Sane m r Φ sq a B) (hec : m.ec = none)
    (hdis : m.disableErrorCheck = true) {f : ℝ → F → F} {q : Nat} (H : Extrap.ExConverges m f (Extrap.Fits a m.maxStages) q)
    (y : ℝ → F) (t₀ b : ℝ)
    (hf : ∀ t ∈ Icc t₀ b, ContDiffAt ℝ (q + 1 : Nat) (fun z : ℝ × F => f z.1 z.2) (t, y t))
    (hy : ∀ t ∈ Icc t₀ b, ∀ᶠ s in 𝓝 t, HasDerivAt y (f s (y s)) s) :
    ∃ C, ∃ h₀ > 0, ∀ h, 0 < h → h ≤ h₀ → ∀ d, 0 ≤ d → t₀ + d + h ≤ b → ∀ (c : Outputs) (_ : c.Start)
      (s0 : Extrap.ExSt ℝ F E S Q), ∃ s, (s0.setInitialStepSize h).setInitialState m t₀ (y t₀) false = .ok s ∧
      ∃ fuel s' evs, solveOde (extrapolator m 1) c d fuel s = some (evs, .ok s') ∧
        t₀ + d ≤ s'.t ∧ s'.t ≤ t₀ + d + h ∧ Close (extrapolator m 1) id y (C * h ^ q) evs s' := by
  obtain ⟨C, h₀, hh₀, key⟩ := H y t₀ b hf hy
  refine ⟨C, h₀, hh₀, fun h hh hle d hd hb c hc s0 => ?_⟩
  obtain ⟨st, g1, g2, g3, g4⟩ := Extrap.C114_steps hm hec hdis t₀ h (y t₀) s0
  refine ⟨st 0, g1, ?_⟩
  refine fixed_close (ex_tells m 1) (fun _ => rfl) hc hd hh hb st (fun k _ => (g4 k).1) (fun k _ => ex_first (g4 k).2)
    (fun k hk => ?_)
  refine key h hh.le hle k st g2 (by rw [(g4 0).1]; simp) g3 (fun j _ => ⟨1, (g4 j).2⟩) (fun j _ => ?_) (fun j hj => ?_) k le_rfl
  · rw [(g4 j).1, (g4 (j + 1)).1]
    push_cast
    exact ⟨by linarith, by linarith⟩
  · rw [(g4 j).1]
    have : (j : ℝ) * h ≤ k * h := mul_le_mul_of_nonneg_right (by exact_mod_cast hj) hh.le
    linarith

end

/-! ### Rosenbrock solvers -/

section
variable {E : Type}

/-- C124. W1: `solveOde` returns at a time between the one asked for and one step later, and all samples and the state in the end
are within `C h` of the solution. -/
theorem C124_w1 {M : Ros.Method ℝ E} {n2 n1 : Nat} {f} {s : Ros.St ℝ E} {b0 : Ros.Base ℝ} (hs : Ros.Ready M n2 n1 f s b0)
    (hec : M.ec = none) (b : ℝ) (y : ℝ → Fin (2 * n2 + n1) → ℝ) (h0 : y s.t = Ros.fn _ s.x)
    (hf : ∀ t ∈ Icc s.t b, ContDiffAt ℝ 2 (fun z : ℝ × (Fin (2 * n2 + n1) → ℝ) => f z.1 z.2) (t, y t))
    (hy : ∀ t ∈ Icc s.t b, ∀ᶠ r in 𝓝 t, HasDerivAt y (f r (y r)) r) :
    ∃ C, ∃ h₀ > 0, ∀ h, 0 < h → h ≤ h₀ → ∀ d, 0 ≤ d → s.t + d + h ≤ b → ∀ (c : Outputs) (_ : c.Start),
      ∃ fuel s' evs, solveOde (w1 M) c d fuel (s.setInitialStepSize h) = some (evs, .ok s') ∧
        s.t + d ≤ s'.t ∧ s'.t ≤ s.t + d + h ∧ Close (w1 M) (Ros.fn _) y (C * h) evs s' := by
  obtain ⟨C, h₀, hh₀, key⟩ := Ros.C105_w1 hs hec b y h0 hf hy
  refine ⟨C, h₀, hh₀, fun h hh hle d hd hb c hc => ?_⟩
  have key' : ∀ k : Nat, ∃ s', s.t + k * h ≤ b → (s.setInitialStepSize h).steps1 M k = .ok s' ∧ s'.t = s.t + k * h ∧
      ‖Ros.fn _ s'.x - y s'.t‖ ≤ C * h := by
    intro k
    by_cases hkN : s.t + k * h ≤ b
    · obtain ⟨s', a⟩ := key h hh hle k hkN
      exact ⟨s', fun _ => a⟩
    · exact ⟨s, fun h => absurd h hkN⟩
  choose st hst using key'
  have e0 : st 0 = s.setInitialStepSize h := by
    have := (hst 0 (by rw [Nat.cast_zero, zero_mul]; linarith)).1
    unfold Ros.St.steps1 at this
    injection this with this
    exact this.symm
  rw [← e0]
  refine fixed_close (w1_tells M) (fun _ => rfl) hc hd hh hb st (fun k hk => (hst k hk).2.1) (fun k hk => ?_)
    (fun k hk => (hst k hk).2.2)
  have h1 := (hst (k + 1) hk).1
  unfold Ros.St.steps1 at h1
  rw [(hst k (by push_cast at hk; linarith)).1, bind_ok] at h1
  refine ⟨noteOf (st (k + 1)).t (st (k + 1)).x (st (k + 1)).log, ?_⟩
  simp only [w1]
  rw [h1]

/-- C124. SW2(4), when no step is rejected: all samples are within `C H²` of the solution, where `H` is the largest of the step
sizes told to the post-observers. After a rejected step the solver goes on with the factorization of the step size before
(C40), and nothing is claimed. -/
theorem C124_sw24 {M : Ros.Method ℝ E} {n2 n1 : Nat} {f} {s : Ros.St ℝ E} {b0 : Ros.Base ℝ} (hs : Ros.Ready M n2 n1 f s b0)
    (hf0 : s.k1 ≠ [] → s.f0 = List.ofFn (f s.t (Ros.fn _ s.x)))
    (hec : M.ec = none) (b : ℝ) (y : ℝ → Fin (2 * n2 + n1) → ℝ) (h0 : y s.t = Ros.fn _ s.x)
    (hf : ∀ t ∈ Icc s.t b, ContDiffAt ℝ 3 (fun z : ℝ × (Fin (2 * n2 + n1) → ℝ) => f z.1 z.2) (t, y t))
    (hy : ∀ t ∈ Icc s.t b, ∀ᶠ r in 𝓝 t, HasDerivAt y (f r (y r)) r) :
    ∃ C, ∃ h₀ > 0, ∀ H, 0 ≤ H → H ≤ h₀ → ∀ (c : Outputs) (_ : c.Start) (d h : ℝ) (fuel j : Nat) (s' : Ros.St ℝ E)
      (evs : List (Ev ℝ (List ℝ))), solveOde (sw24 M j) c d fuel (s.setInitialStepSize h) = some (evs, .ok s') →
      (∀ n, .note n ∈ evs → n.accepted = true ∧ 0 < n.h ∧ n.h ≤ H) → (∀ n, .note n ∈ evs → n.time ≤ b) → s.t ≤ b →
      Close (sw24 M j) (Ros.fn _) y (C * H ^ 2) evs s' := by
  obtain ⟨C, h₀, hh₀, key⟩ := Ros.C105_sw2 hs hf0 hec b y h0 hf hy
  refine ⟨C, h₀, hh₀, fun H hH hle c hc d h fuel j s' evs hr hn hb hb0 => ?_⟩
  obtain ⟨N, st, a1, -, a2, a3, a4, -, -, -, -, a6, -⟩ := run_close (sw24_tells M j) (view := Ros.fn _) (y := y) hc rfl hr (H := 0)
  refine a6 _ (key H hH hle N st ⟨h, a2⟩ (fun k hk => ?_) (fun k hk => ?_))
  · obtain ⟨ns, b1, b2⟩ := a4 k hk
    obtain ⟨c1, n, c2, c3⟩ := sw24_first b1 (fun n hn' => (hn n (b2 n hn')).1)
    rw [← c3]
    exact ⟨(hn n (b2 n c2)).2.1, (hn n (b2 n c2)).2.2, c1⟩
  · cases k with
    | zero => rw [a2]; exact hb0
    | succ k =>
      obtain ⟨ns, b1, b2⟩ := a4 k hk
      obtain ⟨rej, acc, c1, c2, c3, c4, c5⟩ := sw24_tells M j _ _ _ b1
      have := hb acc (b2 acc (by rw [c1]; simp))
      rwa [c3] at this

theorem sw24_of_first {K E : Type} [Field K] [LinearOrder K] {M : Ros.Method K E} {s s' : Ros.St K E}
    (h : s.doStep2 M 1 = some (.ok (.accepted s'))) : ∃ ns, (sw24 M 1).doStep s = (ns, .ok s') := by
  unfold Ros.St.doStep2 Ros.St.passes at h
  simp only [sw24]
  unfold sw24Passes
  dsimp only at h ⊢
  split at h
  · injection h with h; cases h
  · rename_i s1 hs1
    rw [hs1]
    dsimp only
    split at h
    · injection h with h; cases h
    · unfold Ros.St.passes at h
      cases h
    · rename_i r _ hA
      rw [hA]
      injection h with h
      injection h with h
      subst h
      exact ⟨_, rfl⟩

/-- C124. SW2(4) with its error check disabled: `solveOde` returns at a time between the one asked for and one step later, and all
samples are within `C h²` of the solution. -/
theorem C124_sw24_unchecked {M : Ros.Method ℝ E} {n2 n1 : Nat} {f} {s : Ros.St ℝ E} {b0 : Ros.Base ℝ}
    (hs : Ros.Ready M n2 n1 f s b0) (hf0 : s.k1 ≠ [] → s.f0 = List.ofFn (f s.t (Ros.fn _ s.x)))
    (hec : M.ec = none) (hdis : M.disableErrorCheck = true) (b : ℝ) (y : ℝ → Fin (2 * n2 + n1) → ℝ)
    (h0 : y s.t = Ros.fn _ s.x)
    (hf : ∀ t ∈ Icc s.t b, ContDiffAt ℝ 3 (fun z : ℝ × (Fin (2 * n2 + n1) → ℝ) => f z.1 z.2) (t, y t))
    (hy : ∀ t ∈ Icc s.t b, ∀ᶠ r in 𝓝 t, HasDerivAt y (f r (y r)) r) :
    ∃ C, ∃ h₀ > 0, ∀ h, 0 < h → h ≤ h₀ → ∀ d, 0 ≤ d → s.t + d + h ≤ b → ∀ (c : Outputs) (_ : c.Start),
      ∃ fuel s' evs, solveOde (sw24 M 1) c d fuel (s.setInitialStepSize h) = some (evs, .ok s') ∧
        s.t + d ≤ s'.t ∧ s'.t ≤ s.t + d + h ∧ Close (sw24 M 1) (Ros.fn _) y (C * h ^ 2) evs s' := by
  obtain ⟨C, h₀, hh₀, key⟩ := Ros.C105_sw2_unchecked hs hf0 hec hdis b y h0 hf hy
  refine ⟨C, h₀, hh₀, fun h hh hle d hd hb c hc => ?_⟩
  have key' : ∀ k : Nat, ∃ s', s.t + k * h ≤ b → (s.setInitialStepSize h).steps2 M k = some s' ∧ s'.t = s.t + k * h ∧
      ‖Ros.fn _ s'.x - y s'.t‖ ≤ C * h ^ 2 := by
    intro k
    by_cases hkN : s.t + k * h ≤ b
    · obtain ⟨s', a⟩ := key h hh hle k hkN
      exact ⟨s', fun _ => a⟩
    · exact ⟨s, fun h => absurd h hkN⟩
  choose st hst using key'
  have e0 : st 0 = s.setInitialStepSize h := by
    have := (hst 0 (by rw [Nat.cast_zero, zero_mul]; linarith)).1
    unfold Ros.St.steps2 at this
    injection this with this
    exact this.symm
  rw [← e0]
  refine fixed_close (sw24_tells M 1) (fun _ => rfl) hc hd hh hb st (fun k hk => (hst k hk).2.1) (fun k hk => ?_)
    (fun k hk => (hst k hk).2.2)
  have h1 := (hst (k + 1) hk).1
  unfold Ros.St.steps2 at h1
  rw [(hst k (by push_cast at hk; linarith)).1] at h1
  dsimp only at h1
  split at h1
  · rename_i q hq
    injection h1 with h1
    subst h1
    exact sw24_of_first hq
  · cases h1

end

/-! ### Implicit Euler -/

/-- C124. Implicit Euler (order 1) and the trapezoidal rule (order 2): all samples of a run that returns are within
`C (h^p + tol / h)` of the solution, where `tol` is the absolute tolerance of Newton's method. -/
theorem C124_implicit {D E : Type} (M : Implicit.IMethod D ℝ E) {tl : Nat}
    (hP : ∀ F, (M.parts F).F = F ∧ Alg.SimpleSearch (M.parts F) tl)
    (hec : M.ec = none) {e : E} {n2 n1 : Nat} {f} (hrhs : Ros.Computes (M.rhs e) n2 n1 f)
    (hkin : ∀ t x (i : Fin (2 * n2 + n1)) (hi : i.1 < n2), f t x i = x ⟨n2 + i.1, by omega⟩)
    (hord : ∀ o, M.order = some o → Alg.IsPerm (n2 + n1) o.1 ∧ Alg.IsPerm (n2 + n1) o.2)
    (hpred : ∀ p, M.predictor = some p → ∀ h n t x y, p h n t x = .ok y → x.length = y.length)
    {alpha : ℝ} {p : Nat} (hp : p = 1 ∨ p = 2 ∧ alpha = 1 / 2) {t₀ b : ℝ} {y : ℝ → Fin (2 * n2 + n1) → ℝ}
    {S : Set (Fin (2 * n2 + n1) → ℝ)} {L : ℝ} (hL : 0 ≤ L)
    (hlip : ∀ t ∈ Icc t₀ b, ∀ x ∈ S, ∀ z ∈ S, ‖f t x - f t z‖ ≤ L * ‖x - z‖) (hyS : ∀ t ∈ Icc t₀ b, y t ∈ S)
    (hf : ∀ t ∈ Icc t₀ b, ContDiffAt ℝ (p + 1 : Nat) (fun z : ℝ × (Fin (2 * n2 + n1) → ℝ) => f z.1 z.2) (t, y t))
    (hy : ∀ t ∈ Icc t₀ b, ∀ᶠ r in 𝓝 t, HasDerivAt y (f r (y r)) r) :
    ∃ C, ∃ h₀ > 0, ∀ h, 0 < h → h ≤ h₀ → ∀ tol, 0 ≤ tol → ∀ (c : Outputs) (_ : c.Start) (d : ℝ) (fuel : Nat)
      (s s' : Implicit.ISolver D ℝ E) (evs : List (Ev ℝ (List ℝ))), s.ec = e →
      s.hInit = h → s.map.alpha = alpha → s.perf.est.absTol = tol → 0 ≤ s.perf.est.relTol →
      s.map.t0 = t₀ → s.map.x0 = List.ofFn (y t₀) → 0 ≤ d → t₀ + d + h ≤ b →
      solveOde (implicitEuler M) c d fuel s = some (evs, .ok s') → (∀ n, .note n ∈ evs → Ros.fn _ n.state ∈ S) →
      t₀ + d ≤ s'.map.t0 ∧ s'.map.t0 ≤ t₀ + d + h ∧ Close (implicitEuler M) (Ros.fn _) y (C * (h ^ p + tol / h)) evs s' := by
  obtain ⟨C, h₀, hh₀, key⟩ := Implicit.C106_converges M hP hec hrhs hkin hord hpred hp hL hlip hyS hf hy
  refine ⟨C, h₀, hh₀, fun h hh hle tol htol c hc d fuel s s' evs s1 s2 s3 s4 s5 s6 s7 hd hb hr hS => ?_⟩
  obtain ⟨N, st, a1, -, a2, a3, a4, t1, t2, -, a5, a6, -⟩ := run_close (implicit_tells M) (view := Ros.fn _) (y := y) hc rfl hr (H := 0)
  have step : ∀ k < N, ∃ tr, (st k).doStep M = .ok (st (k + 1), tr) := by
    intro k hk
    obtain ⟨ns, b1, -⟩ := a4 k hk
    simp only [implicitEuler] at b1
    split at b1
    · rename_i q tr hq
      injection b1 with _ b1
      injection b1 with b1
      subst b1
      exact ⟨tr, hq⟩
    · cases b1
  have inS : ∀ k ≤ N, Ros.fn _ (st k).map.x0 ∈ S := by
    intro k hk
    rcases a5 k hk with h1 | ⟨n, h1, h2⟩
    · have h1 : (st k).map.x0 = s.map.x0 := h1
      rw [h1, s7, Ros.fn_ofFn]
      exact hyS _ ⟨le_rfl, by linarith⟩
    · have h2 : n.state = (st k).map.x0 := h2
      rw [← h2]
      exact hS n h1
  have main : ∀ j ≤ N, t₀ + j * h ≤ b → ∀ k ≤ j, (st k).map.t0 = t₀ + k * h ∧
      ‖Ros.fn _ (st k).map.x0 - y (t₀ + k * h)‖ ≤ C * (h ^ p + tol / h) := fun j hj hjb =>
    key h hh hle tol htol j st (by rw [a2, s1]) (by rw [a2, s2]) (by rw [a2, s3]) (by rw [a2, s4]) (by rw [a2]; exact s5)
      (by rw [a2, s6]) (by rw [a2, s7]) (fun k hk => step k (by omega)) (fun k hk => inS k (by omega)) hjb
  have bound : ∀ k < N, (k : ℝ) * h ≤ d := by
    intro k
    induction k with
    | zero => intro _; simpa using hd
    | succ k ih =>
      intro hk
      have h1 := ih (by omega)
      have h2 := (main (k + 1) (by omega) (by push_cast; linarith) (k + 1) le_rfl).1
      have h3 : (st (k + 1)).map.t0 < s.map.t0 + d := t1 (k + 1) (by omega) hk
      rw [h2, s6] at h3
      linarith
  have hN : (N : ℝ) * h ≤ d + h := by
    have h1 := bound (N - 1) (by omega)
    rw [Nat.cast_sub a1, Nat.cast_one] at h1
    linarith
  have all := main N le_rfl (by linarith)
  have t2 : s.map.t0 + d ≤ s'.map.t0 := t2
  refine ⟨by rw [← s6]; exact t2, ?_, a6 _ (fun k hk => ?_)⟩
  · rw [← a3, (all N le_rfl).1]; linarith
  · show ‖Ros.fn _ (st k).map.x0 - y (st k).map.t0‖ ≤ _
    rw [(all k hk).1]
    exact (all k hk).2

/-! ### The hypotheses are met -/

/-- `x' = x²`, `x(0) = 1` on `[0, 1/2]`: the classical method with any step size up to some `h₀`, asked to go to time 1/4, returns
with samples of `1 / (1 - t)` with an error of order 4, told to a console. -/
example : ∃ C, ∃ h₀ > 0, ∀ h : ℝ, 0 < h → h ≤ h₀ → h ≤ 1 / 4 →
    ∃ fuel s' evs, solveOde (erk (⟨rk4.cast ℝ, fun _ x => x ^ 2, none⟩ : Method ℝ ℝ Unit)) ⟨none, some (.ok ()), none⟩ (1 / 4) fuel
      ⟨0, 1, none, Output.mkEmpty, h, (), []⟩ = some (evs, .ok s') ∧ 1 / 4 ≤ s'.t ∧ s'.t ≤ 1 / 4 + h ∧
      (∀ n, .note n ∈ evs → ‖n.state - (1 - n.time)⁻¹‖ ≤ C * h ^ 4) ∧ ‖s'.x - (1 - s'.t)⁻¹‖ ≤ C * h ^ 4 := by
  obtain ⟨C, h₀, hh₀, key⟩ := C124_rk4 (⟨rk4.cast ℝ, fun _ x => x ^ 2, none⟩ : Method ℝ ℝ Unit) rfl (fun _ => True)
    ⟨fun c hc => by simp at hc, fun c hc => by simp at hc, fun c hc => by simp at hc⟩ (fun t => (1 - t)⁻¹) 0 (1 / 2)
    (fun t _ => contDiffAt_snd.pow 2) (fun t ht => by
      have : ∀ᶠ s in 𝓝 t, s < 1 := gt_mem_nhds (by linarith [ht.2])
      filter_upwards [this] with s hs
      have hne : (1 - s) ≠ 0 := by linarith
      have := HasDerivAt.fun_inv ((hasDerivAt_id s).const_sub 1) hne
      simp only [id] at this
      have e : - -1 / (1 - s) ^ 2 = ((1 - s)⁻¹) ^ 2 := by simp
      rw [e] at this
      exact this)
  refine ⟨C, h₀, hh₀, fun h hh hle hq => ?_⟩
  obtain ⟨fuel, s', evs, a1, a2, a3, a4⟩ := key h hh hle (1 / 4) (by norm_num) (by linarith) ⟨none, some (.ok ()), none⟩
    (fun r hr => by simp at hr; exact hr.symm) none () trivial
  simp only [sub_zero, inv_one] at a1
  exact ⟨fuel, s', evs, a1, by linarith, by linarith, a4⟩

/-- `x' = -x` with W1 on `[0, 5]` -/
example : ∃ C, ∃ h₀ > 0, ∀ h, 0 < h → h ≤ h₀ → ∀ d, 0 ≤ d → Ros.decayRStart.t + d + h ≤ 5 → ∀ (c : Outputs) (_ : c.Start),
    ∃ fuel s' evs, solveOde (w1 (Ros.decayR 1)) c d fuel (Ros.decayRStart.setInitialStepSize h) = some (evs, .ok s') ∧
      Ros.decayRStart.t + d ≤ s'.t ∧ s'.t ≤ Ros.decayRStart.t + d + h ∧
      Close (w1 (Ros.decayR 1)) (Ros.fn _) Ros.decayR_y (C * h) evs s' := by
  obtain ⟨b0, hs, -⟩ := Ros.decayR_ready (d := 1) one_ne_zero
  exact C124_w1 hs rfl 5 Ros.decayR_y Ros.decayR_init (fun t _ => Ros.decayR_smooth' 2 _)
    (fun t _ => Eventually.of_forall Ros.decayR_deriv)

/-- `x' = -x` with SW2(4) on `[0, 5]` -/
example : ∃ C, ∃ h₀ > 0, ∀ h, 0 < h → h ≤ h₀ → ∀ d, 0 ≤ d → Ros.decayRStart.t + d + h ≤ 5 → ∀ (c : Outputs) (_ : c.Start),
    ∃ fuel s' evs, solveOde (sw24 { Ros.decayR 1 with disableErrorCheck := true } 1) c d fuel
        (Ros.decayRStart.setInitialStepSize h) = some (evs, .ok s') ∧
      Ros.decayRStart.t + d ≤ s'.t ∧ s'.t ≤ Ros.decayRStart.t + d + h ∧
      Close (sw24 { Ros.decayR 1 with disableErrorCheck := true } 1) (Ros.fn _) Ros.decayR_y (C * h ^ 2) evs s' := by
  obtain ⟨b0, hs, -⟩ := Ros.decayR_ready (d := 1) one_ne_zero
  exact C124_sw24_unchecked (M := { Ros.decayR 1 with disableErrorCheck := true })
    ⟨hs.size, hs.rhs, hs.dx, hs.d, hs.x, hs.jac, hs.fill⟩ (fun h => absurd rfl h) rfl rfl 5 Ros.decayR_y Ros.decayR_init
    (fun t _ => Ros.decayR_smooth' 3 _) (fun t _ => Eventually.of_forall Ros.decayR_deriv)

/-- `x' = x` with DOPRI45 on `[0, 5]` -/
example : ∃ C, ∃ h₀ > 0, ∀ h : ℝ, 0 < h → h ≤ h₀ → ∀ d, 0 ≤ d → 0 + d + h ≤ 5 → ∀ (c : Outputs) (_ : c.Start),
    ∃ fuel s' evs, solveOde (emb (⟨⟨dopri45.cast ℝ, fun _ x => x, none⟩, 5, 4, true, false, 0, false, 0, fun x => |x|,
      fun h _ _ => ⟨h, true, false⟩⟩ : EmbMethod ℝ ℝ Unit) 1) c d fuel ⟨0, 1, none, Output.mkEmpty, h, (), []⟩ = some (evs, .ok s') ∧
      ∀ n, .note n ∈ evs → ‖n.state - Real.exp n.time‖ ≤ C * h ^ 5 := by
  obtain ⟨C, h₀, hh₀, key⟩ := C124_dopri45_unchecked (Q := Unit)
    ⟨⟨dopri45.cast ℝ, fun _ (x : ℝ) => x, none⟩, 5, 4, true, false, 0, false, 0, fun x => |x|,
      fun h _ _ => ⟨h, true, false⟩⟩ rfl rfl (fun _ => True)
    ⟨fun c hc => by simp at hc, fun c hc => by simp at hc, fun c hc => by simp at hc⟩ Real.exp 0 5
    (fun t _ => contDiffAt_snd) (fun t _ => Filter.Eventually.of_forall fun s => Real.hasDerivAt_exp s)
  refine ⟨C, h₀, hh₀, fun h hh hle d hd hb c hc => ?_⟩
  obtain ⟨fuel, s', evs, a1, -, -, a4, -⟩ := key h hh hle d hd hb c hc ⟨0, 1, none, Output.mkEmpty, h, (), []⟩ rfl (by simp) rfl rfl
    trivial
  exact ⟨fuel, s', evs, a1, a4⟩

/-- `x' = x` with the extrapolator of the classical method -/
example : ∃ C, ∃ h₀ > 0, ∀ h : ℝ, 0 < h → h ≤ h₀ → ∀ d, 0 ≤ d → 0 + d + h ≤ 5 → ∀ (c : Outputs) (_ : c.Start)
    (s0 : Extrap.ExSt ℝ ℝ Unit (FixedSt ℝ ℝ Unit) Nat),
    ∃ s, (s0.setInitialStepSize h).setInitialState Extrap.exRk4 0 (Real.exp 0) false = .ok s ∧
      ∃ fuel s' evs, solveOde (extrapolator Extrap.exRk4 1) c d fuel s = some (evs, .ok s') ∧
        0 + d ≤ s'.t ∧ s'.t ≤ 0 + d + h ∧ Close (extrapolator Extrap.exRk4 1) id Real.exp (C * h ^ 4) evs s' :=
  C124_extrapolator_unchecked Extrap.exRk4_sane rfl rfl Extrap.C114_false.2.2 Real.exp 0 5 (fun _ _ => contDiffAt_snd)
    (fun _ _ => Filter.Eventually.of_forall fun s => Real.hasDerivAt_exp s)

/-- `x' = -x` with implicit Euler on `[0, 5]`, Newton's method with tolerance 0: the runs exist and the samples are within `C h`. -/
example : ∃ C, ∃ h₀ > 0, ∀ h : ℝ, 0 < h → h ≤ h₀ → ∀ d, 0 ≤ d → 0 + d + h ≤ 5 → ∀ (c : Outputs) (_ : c.Start),
    ∃ fuel s' evs, solveOde (implicitEuler Implicit.realEuler) c d fuel (Implicit.realSolver h) = some (evs, .ok s') ∧
      ∀ n, .note n ∈ evs → |n.state.getD 0 0 - Real.exp (-n.time)| ≤ C * h := by
  obtain ⟨C, h₀, hh₀, hC⟩ := C124_implicit (p := 1) (alpha := 1) (t₀ := 0) (b := 5) (n2 := 0) (n1 := 1) (S := univ)
    (L := 1) (tl := 8) (e := ()) (f := fun _ x => -x) (y := fun t _ => Real.exp (-t)) Implicit.realEuler
    (fun F => ⟨rfl, fun _ _ _ _ => rfl⟩) rfl ⟨rfl, rfl, fun t x hx => by
      rcases x with _ | ⟨a, _ | ⟨_, _⟩⟩ <;> simp at hx
      rfl⟩
    (fun _ _ i hi => absurd hi (by omega)) (fun o ho => by cases ho) (fun p hp => by cases hp) (Or.inl rfl) zero_le_one
    (fun t _ x _ z _ => by rw [one_mul, ← norm_neg (x - z)]; apply le_of_eq; congr 1; abel) (fun t _ => mem_univ _)
    (fun t _ => contDiffAt_snd.neg) (fun t _ => Eventually.of_forall fun r => by
      rw [hasDerivAt_pi]
      intro i
      have := (hasDerivAt_neg r).exp
      simpa using this)
  refine ⟨C, h₀, hh₀, fun h hh hle d hd hb c hc => ?_⟩
  obtain ⟨N, n1, n2, n3, n4⟩ := steps_count hd hh
  obtain ⟨st, h1, h2⟩ := Implicit.realSteps hh one_pos (s := Implicit.realSolver h) (t := 0) ⟨rfl, rfl, rfl, rfl, rfl, rfl⟩ N
  have ht : ∀ k ≤ N, ∃ v, 0 < v ∧ Implicit.RealAt h (0 + k * h) v (st k) := by
    intro k
    induction k with
    | zero => intro _; exact ⟨1, one_pos, by rw [h1, Nat.cast_zero, zero_mul, add_zero]; exact ⟨rfl, rfl, rfl, rfl, rfl, rfl⟩⟩
    | succ k ih =>
      intro hk
      obtain ⟨v, hv, r⟩ := ih (by omega)
      obtain ⟨s', tr, e1, e2⟩ := Implicit.realStep hh hv r
      obtain ⟨tr', e3⟩ := h2 k hk
      rw [e3] at e1
      cases e1
      refine ⟨v / (1 + h), by positivity, ?_⟩
      rw [show (0 : ℝ) + (k + 1 : Nat) * h = 0 + k * h + h by push_cast; ring]
      exact e2
  obtain ⟨evs, hrun⟩ := fixed_run (sv := implicitEuler Implicit.realEuler) c hc d 0 h N n1 st rfl
    (fun k hk => (ht k hk).choose_spec.2.t) hh.le
    (fun k hk => by
      obtain ⟨tr, e⟩ := h2 k hk
      simp only [implicitEuler]
      rw [e]
      exact ⟨_, rfl⟩) n2 n3
  rw [h1] at hrun
  refine ⟨N, st N, evs, hrun, fun n hn => ?_⟩
  have := (hC h hh hle 0 le_rfl c hc d N _ _ evs rfl rfl rfl rfl zero_le_one rfl
    (by simp [Implicit.realSolver, Implicit.EMap.setInitialState]) hd hb hrun (fun _ _ => mem_univ _)).2.2.1 n hn
  have h3 := (norm_le_pi_norm _ (0 : Fin (2 * 0 + 1))).trans this
  simpa [Ros.fn] using h3

end Verif.Driver
