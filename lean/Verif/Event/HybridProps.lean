import Verif.Event.Guard
import Verif.Event.HybridConv
import Verif.RK.Orders

/-! # C135: accuracy of runs through several events -/

set_option linter.unusedSectionVars false

namespace Verif.Event

open Verif.Res Verif.RK Filter Topology Set

/-- Event function `j` in the phase `q` -/
def zf {E Q : Type} (r : EvRhs ℝ E Q) (q : Q) (j : Nat) (z : ℝ × E) : ℝ := (r.zeroFunctions q z.1 z.2).getD j 0

/-- A piece of a solution with switches: the solution `y` in the phase `q` from the time `t₀` to the time `a`, where function `i` has an
event; `σ` tells on which side of zero (`1` or `-1`) each function is until then. -/
structure Piece (E Q : Type) where
  q : Q
  y : ℝ → E
  t₀ : ℝ
  a : ℝ
  i : Nat
  σ : Nat → Int

section
variable {E Q : Type} [NormedAddCommGroup E] [NormedSpace ℝ E]

/-- `y` solves the equation of the phase on the piece, and the right-hand side is smooth there. -/
structure Piece.Solves (P : Piece E Q) (F : Q → ℝ → E → E) (p : Nat) : Prop where
  order : P.t₀ < P.a
  smooth : ∀ t ∈ Icc P.t₀ P.a, ContDiffAt ℝ (p + 1 : Nat) (fun z : ℝ × E => F P.q z.1 z.2) (t, P.y t)
  deriv : ∀ t ∈ Icc P.t₀ P.a, ∀ᶠ s in 𝓝 t, HasDerivAt P.y (F P.q s (P.y s)) s

/-- The piece ends with an event: function `i`, and no other, reaches zero, and crosses it. -/
structure Piece.EndsIn (P : Piece E Q) (r : EvRhs ℝ E Q) (n : Nat) : Prop where
  lt : P.i < n
  others : ∀ j < n, j ≠ P.i → OnSide (zf r P.q j) P.y P.t₀ P.a (P.σ j)
  before : ∀ c, P.t₀ < c → c < P.a → OnSide (zf r P.q P.i) P.y P.t₀ c (P.σ P.i)
  zero : zf r P.q P.i (P.a, P.y P.a) = 0
  smooth : ContDiffAt ℝ 2 (zf r P.q P.i) (P.a, P.y P.a)
  crosses : deriv (fun t => zf r P.q P.i (t, P.y t)) P.a ≠ 0

/-- The next piece begins where `switchPhaseState` leads from the end of this one, and its functions are on the sides from which
they are watched then. -/
structure Piece.Leads (P P' : Piece E Q) (r : EvRhs ℝ E Q) (n : Nat) (fl : List Nat) : Prop where
  time : P'.t₀ = P.a
  switch : ∃ R : ℝ × E → E, ContDiffAt ℝ 1 R (P.a, P.y P.a) ∧ R (P.a, P.y P.a) = P'.y P.a ∧
    ∀ᶠ z in 𝓝 (P.a, P.y P.a), r.switchPhaseState P.q ((List.replicate n 0).set P.i (-P.σ P.i)) z.1 z.2 = (P'.q, R z)
  sides : NextSides n fl P.i P.σ P'.σ (fun j => zf r P'.q j (P.a, P'.y P.a))
  cont : ∀ j < n, ContinuousAt (zf r P'.q j) (P.a, P'.y P.a)

/-- A solution with switches: every piece but the last ends with an event, after which it goes on with the next one; in the last
one there is no event. -/
inductive Course (r : EvRhs ℝ E Q) (F : Q → ℝ → E → E) (n : Nat) (fl : List Nat) (p : Nat) : List (Piece E Q) → Prop
  | last (P : Piece E Q) (h : P.Solves F p) (side : ∀ j < n, OnSide (zf r P.q j) P.y P.t₀ P.a (P.σ j)) : Course r F n fl p [P]
  | cons (P P' : Piece E Q) (l : List (Piece E Q)) (h : P.Solves F p) (ev : P.EndsIn r n) (next : P.Leads P' r n fl)
      (rest : Course r F n fl p (P' :: l)) : Course r F n fl p (P :: P' :: l)

/-- A run of steps of the size `h`, beginning in `s`, that is within `ε` of the pieces of a solution: in each piece it makes steps
in the phase of the piece, to states close to the solution; in the last piece the steps go up to its end. In another piece the
last step is cut near the end of the piece, and the run goes on with the next piece from there; or this step throws, if the
function of the event is zero just at the end of the step. -/
def Follows (r : EvRhs ℝ E Q) (F : Q → ℝ → E → E) (co : Coefficients ℝ) (h ε : ℝ) :
    List (Piece E Q) → FixedSt ℝ E (Ctl ℝ × Q) → Prop
  | [], _ => True
  | P :: l, s => ∃ (k : Nat) (st : Nat → FixedSt ℝ E (Ctl ℝ × Q)), st 0 = s ∧
      (∀ j < k, phaseStep co F r (st j) = .ok (st (j + 1))) ∧
      (∀ j ≤ k, (st j).t = s.t + j * h ∧ (st j).ec.2 = P.q ∧ ‖(st j).x - P.y (st j).t‖ ≤ ε) ∧
      (l = [] → (st k).t ≤ P.a ∧ P.a < (st k).t + h) ∧
      (l ≠ [] → (∃ s', phaseStep co F r (st k) = .ok s' ∧ |s'.t - P.a| ≤ ε ∧ (st k).t ≤ s'.t ∧ s'.t ≤ (st k).t + h ∧
          Follows r F co h ε l s') ∨
        (∃ s', (st k).doStep ⟨co, F P.q, none⟩ = .ok s' ∧ zf r P.q P.i (s'.t, s'.x) = 0 ∧ |s'.t - P.a| ≤ ε ∧
          phaseStep co F r (st k) = .error (.exc "out_of_range")))

theorem Follows.mono {r : EvRhs ℝ E Q} {F : Q → ℝ → E → E} {co : Coefficients ℝ} {h ε ε' : ℝ} (hε : ε ≤ ε')
    (l : List (Piece E Q)) (s : FixedSt ℝ E (Ctl ℝ × Q)) (H : Follows r F co h ε l s) : Follows r F co h ε' l s := by
  induction l generalizing s with
  | nil => trivial
  | cons P l ih =>
    obtain ⟨k, st, a1, a2, a3, a4, a5⟩ := H
    refine ⟨k, st, a1, a2, fun j hj => ⟨(a3 j hj).1, (a3 j hj).2.1, (a3 j hj).2.2.trans hε⟩, a4, fun hl => ?_⟩
    rcases a5 hl with ⟨s', b1, b2, b3, b4, b5⟩ | ⟨s', b1, b2, b3, b4⟩
    · exact .inl ⟨s', b1, b2.trans hε, b3, b4, ih s' b5⟩
    · exact .inr ⟨s', b1, b2, b3.trans hε, b4⟩

/-- The solution of a piece goes a little beyond its ends. -/
theorem Piece.Solves.extend {P : Piece E Q} {F : Q → ℝ → E → E} {p : Nat} (H : P.Solves F p) :
    ∃ c < P.t₀, ∃ b > P.a, (∀ t ∈ Icc c b, ContDiffAt ℝ (p + 1 : Nat) (fun z : ℝ × E => F P.q z.1 z.2) (t, P.y t)) ∧
      (∀ t ∈ Icc c b, ∀ᶠ s in 𝓝 t, HasDerivAt P.y (F P.q s (P.y s)) s) := by
  have near : ∀ t ∈ Icc P.t₀ P.a, ∀ᶠ s in 𝓝 t, ContDiffAt ℝ (p + 1 : Nat) (fun z : ℝ × E => F P.q z.1 z.2) (s, P.y s) ∧
      ∀ᶠ u in 𝓝 s, HasDerivAt P.y (F P.q u (P.y u)) u := by
    intro t ht
    have h1 := (H.deriv t ht).eventually_nhds
    have hc : ContinuousAt (fun s => (s, P.y s)) t := continuousAt_id.prodMk (H.deriv t ht).self_of_nhds.continuousAt
    have h2 := hc.eventually ((H.smooth t ht).eventually (by simp))
    filter_upwards [h1, h2] with s hs1 hs2 using ⟨hs2, hs1⟩
  obtain ⟨δ1, hδ1, n1⟩ := Metric.eventually_nhds_iff.1 (near P.t₀ ⟨le_rfl, H.order.le⟩)
  obtain ⟨δ2, hδ2, n2⟩ := Metric.eventually_nhds_iff.1 (near P.a ⟨H.order.le, le_rfl⟩)
  have all : ∀ t ∈ Icc (P.t₀ - δ1 / 2) (P.a + δ2 / 2), ContDiffAt ℝ (p + 1 : Nat) (fun z : ℝ × E => F P.q z.1 z.2) (t, P.y t) ∧
      ∀ᶠ u in 𝓝 t, HasDerivAt P.y (F P.q u (P.y u)) u := by
    intro t ht
    by_cases h1 : t < P.t₀
    · exact n1 (by rw [Real.dist_eq, abs_lt]; constructor <;> linarith [ht.1])
    · by_cases h2 : P.a < t
      · exact n2 (by rw [Real.dist_eq, abs_lt]; constructor <;> linarith [ht.2])
      · exact (near t ⟨not_lt.1 h1, not_lt.1 h2⟩).self_of_nhds
  exact ⟨P.t₀ - δ1 / 2, by linarith, P.a + δ2 / 2, by linarith, fun t ht => (all t ht).1, fun t ht => (all t ht).2⟩

/-- The beginning of a piece: the controller watches the functions from the sides on which they are. -/
def Starts (r : EvRhs ℝ E Q) (n : Nat) (fl : List Nat) (P : Piece E Q) (s : FixedSt ℝ E (Ctl ℝ × Q)) : Prop :=
  s.ec.2 = P.q ∧ ∃ S : Nat → Int, (∀ j, j < n → Guard (fl.getD j 0) (S j) (P.σ j)) ∧
    Begins r n fl S s.ec.1 P.q s.t s.x (fun _ => True)

/-- Two small numbers -/
theorem small {A w : ℝ} (hA : 0 ≤ A) (hw : 0 < w) : ∃ h₀ > (0 : ℝ), ∀ h, 0 < h → h ≤ h₀ → h ≤ w ∧ h ≤ 1 ∧ A * h ^ 2 ≤ w * h ∧ A * h ^ 2 ≤ w := by
  refine ⟨min 1 (w / (A + 1)), lt_min one_pos (by positivity), fun h hh hle => ?_⟩
  rw [le_min_iff, le_div_iff₀ (by positivity)] at hle
  obtain ⟨h1, h2⟩ := hle
  have h3 : 0 ≤ A * h := by positivity
  have h4 : A * h ^ 2 ≤ w * h := by nlinarith
  refine ⟨by linarith, h1, h4, h4.trans ?_⟩
  nlinarith

variable [CompleteSpace E] {r : EvRhs ℝ E Q} {F : Q → ℝ → E → E} {n : Nat} {fl : List Nat} {co : Coefficients ℚ} {s₀ p : Nat}

/-- A last piece, without events -/
theorem piece_last (hs : 1 ≤ s₀) (hpk : (co.tableau s₀).pack 1 (-1) = co) (hr : RowCheck co s₀ = true)
    (hc : OrderCheck co s₀ 0 p = true) (hp : 2 ≤ p) (hlen : ∀ q t x, (r.zeroFunctions q t x).length = n)
    {P : Piece E Q} (hP : P.Solves F p) (side : ∀ j < n, OnSide (zf r P.q j) P.y P.t₀ P.a (P.σ j)) (A : ℝ) (hA : 0 ≤ A) :
    ∃ C : ℝ, ∃ h₀ > (0 : ℝ), ∀ h, 0 < h → h ≤ h₀ → ∀ s, Ready ((co.cast ℝ).tableau s₀) h s → Starts r n fl P s →
      |s.t - P.t₀| ≤ A * h ^ 2 → ‖s.x - P.y s.t‖ ≤ A * h ^ 2 → Follows r F (co.cast ℝ) h (C * h ^ 2) [P] s := by
  obtain ⟨c, hct, b, hab, hf, hy⟩ := hP.extend
  have hcont : ∀ t ∈ Icc P.t₀ P.a, ContinuousAt P.y t := fun t ht => (hP.deriv t ht).self_of_nhds.continuousAt
  have hy2 : ContDiffAt ℝ 2 P.y P.t₀ := (solution_contDiffAt (hP.smooth _ ⟨le_rfl, hP.order.le⟩) (hP.deriv _ ⟨le_rfl, hP.order.le⟩)).of_le
    (by exact_mod_cast (by omega : 2 ≤ p + 1))
  obtain ⟨Cg, hCg, rg, hrg, conv⟩ := grid_from hr hc (by omega) (F P.q) c b P.y hf hy
  obtain ⟨K, hK, -, ρ, hρ, near⟩ := onSide_near_all (S := fun _ => True) (fun j hj _ => side j hj) hP.order hcont hy2
  set E0 := Cg * (1 + A) with hE0
  have hE00 : 0 ≤ E0 := by positivity
  have hw : 0 < min (min rg (P.t₀ - c)) (min (min ρ (P.a - P.t₀)) 1) / 2 := by
    have : 0 < min (min rg (P.t₀ - c)) (min (min ρ (P.a - P.t₀)) 1) :=
      lt_min (lt_min hrg (by linarith)) (lt_min (lt_min hρ (by linarith [hP.order])) one_pos)
    linarith
  obtain ⟨h₀, hh₀, sm⟩ := small (A := A + E0 + K * E0) (by positivity) hw
  refine ⟨E0, h₀, hh₀, fun h hh hle s hR hS ht hx => ?_⟩
  obtain ⟨hq, S, hG, hB⟩ := hS
  generalize hwdef : min (min rg (P.t₀ - c)) (min (min ρ (P.a - P.t₀)) 1) / 2 = w at hw sm
  obtain ⟨f1, f2, f3, f4⟩ := sm h hh hle
  have w2 : 2 * w = min (min rg (P.t₀ - c)) (min (min ρ (P.a - P.t₀)) 1) := by rw [← hwdef]; ring
  have w3 := w2.le
  simp only [le_min_iff] at w3
  obtain ⟨⟨wa, wb⟩, ⟨wc, wd⟩, we⟩ := w3
  set ε := E0 * h ^ 2 with hε
  have hA2 : 0 ≤ A * h ^ 2 := by positivity
  have hε0 : 0 ≤ ε := by positivity
  have hKε : 0 ≤ K * ε := by positivity
  have hsum : A * h ^ 2 + ε + K * ε = (A + E0 + K * E0) * h ^ 2 := by rw [hε]; ring
  have hhalf : w * h ≤ h / 2 := by nlinarith
  rw [abs_le] at ht
  let T := (co.cast ℝ).tableau s₀
  let xs : Nat → E := fun k => Nat.rec s.x (fun k x => T.output (F P.q) (s.t + k * h) h x 0) k
  have hxs : ∀ k, xs (k + 1) = T.output (F P.q) (s.t + k * h) h (xs k) 0 := fun _ => rfl
  have acc : ∀ k : Nat, s.t + k * h ≤ b → ‖xs k - P.y (s.t + k * h)‖ ≤ ε := fun k hk => by
    refine (conv h (A * h ^ 2) hh (by linarith) hA2 (by linarith) s.t xs (by linarith) hx hxs k hk).trans ?_
    have : h ^ p ≤ h ^ 2 := pow_le_pow_of_le_one hh.le f2 hp
    have := mul_le_mul_of_nonneg_left this hCg
    rw [hε, hE0]
    linarith
  have quiet : ∀ l : Nat, 0 < l → s.t + l * h ≤ P.a → ∀ j < n, 0 < (P.σ j : ℝ) * zf r P.q j (s.t + l * h, xs l) := by
    intro l hl hla j hj
    have hl1 : h ≤ l * h := by
      have : (1 : ℝ) ≤ l := by exact_mod_cast hl
      nlinarith
    exact near j hj trivial _ _ ε (by linarith) (by linarith) (by linarith) (acc l (by linarith)) (by linarith)
  have hsa : s.t ≤ P.a := by linarith
  have hnn : 0 ≤ (P.a - s.t) / h := div_nonneg (by linarith) hh.le
  set k := ⌊(P.a - s.t) / h⌋₊ with hkdef
  have hk1 : s.t + k * h ≤ P.a := by
    have := Nat.floor_le hnn
    rw [le_div_iff₀ hh] at this
    linarith
  have hk2 : P.a < s.t + k * h + h := by
    have := Nat.lt_floor_add_one ((P.a - s.t) / h)
    rw [div_lt_iff₀ hh, add_mul, one_mul] at this
    linarith
  have hgrid : ∀ l : Nat, l ≤ k → s.t + l * h ≤ P.a := fun l hl => by
    have : (l : ℝ) * h ≤ k * h := mul_le_mul_of_nonneg_right (by exact_mod_cast hl) hh.le
    linarith
  obtain ⟨st, b0, b1, b2, -, -⟩ := phase_quiet (T := T) (co := co.cast ℝ) (g := zf r P.q) (xs := xs) hs rfl (cast_pack hpk).symm hlen
    (fun _ _ => rfl) hR hq hB rfl hxs k (fun l h1 h2 j hj => (hG j hj).quiet (quiet l h1 (hgrid l h2) j hj))
  refine ⟨k, st, b0, b1, fun j hj => ⟨(b2 j hj).1, (b2 j hj).2.2, ?_⟩, fun _ => ?_, fun h => absurd rfl h⟩
  · rw [(b2 j hj).1, (b2 j hj).2.1]
    exact acc j (by linarith [hgrid j hj])
  · rw [(b2 k le_rfl).1]
    exact ⟨hk1, hk2⟩

set_option maxHeartbeats 1600000 in
/-- A piece that ends with an event -/
theorem piece_event (hs : 1 ≤ s₀) (hpk : (co.tableau s₀).pack 1 (-1) = co) (hr : RowCheck co s₀ = true)
    (hc : OrderCheck co s₀ 0 p = true) (hp : 2 ≤ p) (hlen : ∀ q t x, (r.zeroFunctions q t x).length = n)
    {P P' : Piece E Q} (hP : P.Solves F p) (ev : P.EndsIn r n) (next : P.Leads P' r n fl) (hy' : ContDiffAt ℝ 1 P'.y P.a)
    (A : ℝ) (hA : 0 ≤ A) :
    ∃ C : ℝ, 0 ≤ C ∧ ∃ h₀ > (0 : ℝ), ∀ h, 0 < h → h ≤ h₀ → ∀ s, Ready ((co.cast ℝ).tableau s₀) h s → Starts r n fl P s →
      |s.t - P.t₀| ≤ A * h ^ 2 → ‖s.x - P.y s.t‖ ≤ A * h ^ 2 →
      ∃ (k : Nat) (st : Nat → FixedSt ℝ E (Ctl ℝ × Q)), st 0 = s ∧ (∀ j < k, phaseStep (co.cast ℝ) F r (st j) = .ok (st (j + 1))) ∧
        (∀ j ≤ k, (st j).t = s.t + j * h ∧ (st j).ec.2 = P.q ∧ ‖(st j).x - P.y (st j).t‖ ≤ C * h ^ 2) ∧
        ((∃ s', phaseStep (co.cast ℝ) F r (st k) = .ok s' ∧ |s'.t - P.a| ≤ C * h ^ 2 ∧ (st k).t ≤ s'.t ∧ s'.t ≤ (st k).t + h ∧
          ‖s'.x - P'.y s'.t‖ ≤ C * h ^ 2 ∧ Ready ((co.cast ℝ).tableau s₀) h s' ∧ Starts r n fl P' s') ∨
        (∃ s', (st k).doStep ⟨co.cast ℝ, F P.q, none⟩ = .ok s' ∧ zf r P.q P.i (s'.t, s'.x) = 0 ∧ |s'.t - P.a| ≤ C * h ^ 2 ∧
          phaseStep (co.cast ℝ) F r (st k) = .error (.exc "out_of_range"))) := by
  obtain ⟨c, hct, b, hab, hf, hy⟩ := hP.extend
  obtain ⟨R, hR1, hR2, hR3⟩ := next.switch
  have hcont : ∀ t ∈ Icc P.t₀ P.a, ContinuousAt P.y t := fun t ht => (hP.deriv t ht).self_of_nhds.continuousAt
  have hyd : ∀ t ∈ Icc P.t₀ P.a, ContDiffAt ℝ 2 P.y t := fun t ht => (solution_contDiffAt (hP.smooth _ ht) (hP.deriv _ ht)).of_le
    (by exact_mod_cast (by omega : 2 ≤ p + 1))
  have hta := hP.order
  have haI : P.a ∈ Icc P.t₀ P.a := ⟨hta.le, le_rfl⟩
  obtain ⟨Cg, hCg, rg, hrg, conv⟩ := grid_from hr hc (by omega) (F P.q) c b P.y hf hy
  -- near the event
  have hGd := (differentiableAt_of_deriv_ne_zero ev.crosses).hasDerivAt
  have hder := ev.crosses
  generalize deriv (fun t => zf r P.q P.i (t, P.y t)) P.a = d at hder hGd
  obtain ⟨K1, hK1, δ1, hδ1, loc, beside⟩ := locate ev.smooth (hyd _ haI) ev.zero hGd hder
  -- the switch
  have hsw : ∀ᶠ z in 𝓝 (P.a, P.y P.a), r.switchPhaseState P.q ((List.replicate n 0).set P.i (-P.σ P.i)) z.1 z.2 = (P'.q, R z) ∧
      NextSides n fl P.i P.σ P'.σ (fun j => zf r P'.q j (z.1, R z)) := by
    have h1 : ∀ j ∈ Finset.range n, ∀ᶠ z in 𝓝 (P.a, P.y P.a), fl.getD j 0 &&& 4 ≠ 0 → 0 < (P'.σ j : ℝ) * zf r P'.q j (z.1, R z) := by
      intro j hj
      rw [Finset.mem_range] at hj
      by_cases hf4 : fl.getD j 0 &&& 4 ≠ 0
      · have h0 := ((next.sides j hj).1 hf4).2
        have hcj : ContinuousAt (fun z : ℝ × E => (P'.σ j : ℝ) * zf r P'.q j (z.1, R z)) (P.a, P.y P.a) := by
          refine continuousAt_const.mul (ContinuousAt.comp (g := zf r P'.q j) (f := fun z : ℝ × E => (z.1, R z)) ?_
            (continuousAt_fst.prodMk hR1.continuousAt))
          simp only [hR2]
          exact next.cont j hj
        have := hcj.eventually (lt_mem_nhds (a := 0) (by simpa only [hR2] using h0))
        filter_upwards [this] with z hz _ using hz
      · exact Eventually.of_forall (fun z h => absurd h hf4)
    filter_upwards [hR3, (eventually_all_finset _).2 h1] with z hz1 hz2
    exact ⟨hz1, fun j hj => ⟨fun hf4 => ⟨((next.sides j hj).1 hf4).1, hz2 j (Finset.mem_range.2 hj) hf4⟩, (next.sides j hj).2⟩⟩
  obtain ⟨δ2, hδ2, switch⟩ := Metric.eventually_nhds_iff.1 hsw
  obtain ⟨L, hL, δ3, hδ3, carry⟩ := carried hR1 hy' hR2
  -- sides before the event
  obtain ⟨K2, hK2, -, ρ2, hρ2, near2⟩ := onSide_near_all (S := fun j => j ≠ P.i) ev.others hta hcont (hyd _ ⟨le_rfl, hta.le⟩)
  set D := min (min δ1 ρ2) (min (b - P.a) (P.a - P.t₀)) / 2 with hD
  have hDpos : 0 < D := by
    have : 0 < min (min δ1 ρ2) (min (b - P.a) (P.a - P.t₀)) := lt_min (lt_min hδ1 hρ2) (lt_min (by linarith) (by linarith))
    rw [hD]; linarith
  have hD2 : 2 * D ≤ min (min δ1 ρ2) (min (b - P.a) (P.a - P.t₀)) := by rw [hD]; linarith
  simp only [le_min_iff] at hD2
  obtain ⟨⟨Da, Db⟩, Dc, Dd⟩ := hD2
  obtain ⟨K3, hK3, -, ρ3, hρ3, near3⟩ := (ev.before (P.a - D / 2) (by linarith) (by linarith)).near (by linarith)
    (fun t ht => hcont t ⟨ht.1, by linarith [ht.2]⟩) (hyd _ ⟨le_rfl, hta.le⟩)
  have hσd : (P.σ P.i : ℝ) * d < 0 := by
    have h1 := (ev.before (P.a - D / 2) (by linarith) (by linarith)).pos (P.a - D / 2) ⟨by linarith, le_rfl⟩ (by
      intro h; linarith)
    have h2 := beside (P.a - D / 2) (P.y (P.a - D / 2)) 0 (by rw [abs_lt]; constructor <;> linarith) hδ1 (by simp) (by
      rw [mul_zero]; exact abs_pos.2 (by linarith))
    generalize zf r P.q P.i (P.a - D / 2, P.y (P.a - D / 2)) = z at h1 h2
    have h3 : d * z < 0 := by
      have : d * (P.a - D / 2 - P.a) * z = -(D / 2) * (d * z) := by ring
      rw [this] at h2
      by_contra hc
      have := mul_nonneg (by linarith : 0 ≤ D / 2) (not_lt.1 hc)
      linarith
    have h4 : ((P.σ P.i : ℝ) * z) * (d * z) < 0 := mul_neg_of_pos_of_neg h1 h3
    have h5 : ((P.σ P.i : ℝ) * z) * (d * z) = ((P.σ P.i : ℝ) * d) * z ^ 2 := by ring
    rw [h5] at h4
    by_contra hc
    have := mul_nonneg (not_lt.1 hc) (sq_nonneg z)
    linarith
  set E0 := Cg * (1 + A) with hE0
  have hE00 : 0 ≤ E0 := by positivity
  set m := min (min (min rg (P.t₀ - c)) (min ρ2 ρ3)) (min (min δ1 δ2) (min δ3 (min (D / 4) 1))) with hm
  have hmpos : 0 < m :=
    lt_min (lt_min (lt_min hrg (by linarith)) (lt_min hρ2 hρ3)) (lt_min (lt_min hδ1 hδ2) (lt_min hδ3 (lt_min (by linarith) one_pos)))
  obtain ⟨h₀, hh₀, sm⟩ := small (A := A + E0 + K1 * E0 + K2 * E0 + K3 * E0 + K1 * (E0 + 1)) (w := m / 2) (by positivity) (by linarith)
  refine ⟨E0 + K1 * (E0 + 1) + L * (K1 * (E0 + 1)), by positivity, h₀, hh₀, fun h hh hle s hR hS ht hx => ?_⟩
  obtain ⟨hq, S, hG, hB⟩ := hS
  obtain ⟨f1, f2, f3, f4⟩ := sm h hh hle
  have w3 : m ≤ m := le_rfl
  conv_rhs at w3 => rw [hm]
  simp only [le_min_iff] at w3
  obtain ⟨⟨⟨wa, wb⟩, wc, wd⟩, ⟨we, wf⟩, wg, wh, wi⟩ := w3
  clear_value m
  set ε := E0 * h ^ 2 with hε
  set η := K1 * (E0 + 1) * h ^ 2 with hη
  have hA2 : 0 ≤ A * h ^ 2 := by positivity
  have hε0 : 0 ≤ ε := by positivity
  have hη0 : 0 ≤ η := by positivity
  have hK1ε : 0 ≤ K1 * ε := by positivity
  have hK2ε : 0 ≤ K2 * ε := by positivity
  have hK3ε : 0 ≤ K3 * ε := by positivity
  have hLη : 0 ≤ L * η := by positivity
  have hsum : (A + E0 + K1 * E0 + K2 * E0 + K3 * E0 + K1 * (E0 + 1)) * h ^ 2 = A * h ^ 2 + ε + K1 * ε + K2 * ε + K3 * ε + η := by
    rw [hε, hη]; ring
  rw [hsum] at f3 f4
  have hC : (E0 + K1 * (E0 + 1) + L * (K1 * (E0 + 1))) * h ^ 2 = ε + η + L * η := by rw [hε, hη]; ring
  rw [hC]
  have hhalf : m / 2 * h ≤ h / 2 := by nlinarith
  rw [abs_le] at ht
  let T := (co.cast ℝ).tableau s₀
  let xs : Nat → E := fun k => Nat.rec s.x (fun k x => T.output (F P.q) (s.t + k * h) h x 0) k
  have hxs : ∀ k, xs (k + 1) = T.output (F P.q) (s.t + k * h) h (xs k) 0 := fun _ => rfl
  have acc : ∀ k : Nat, s.t + k * h ≤ b → ‖xs k - P.y (s.t + k * h)‖ ≤ ε := fun k hk => by
    refine (conv h (A * h ^ 2) hh (by linarith) hA2 (by linarith) s.t xs (by linarith) hx hxs k hk).trans ?_
    have : h ^ p ≤ h ^ 2 := pow_le_pow_of_le_one hh.le f2 hp
    have := mul_le_mul_of_nonneg_left this hCg
    rw [hε, hE0]
    linarith
  have one_le : ∀ l : Nat, 0 < l → h ≤ l * h := fun l hl => by
    have : (1 : ℝ) ≤ l := by exact_mod_cast hl
    nlinarith
  have other : ∀ l : Nat, 0 < l → s.t + l * h ≤ P.a + D → ∀ j < n, j ≠ P.i →
      ¬ Crosses (fl.getD j 0) (S j) (zf r P.q j (s.t + l * h, xs l)) := by
    intro l hl hla j hj hji
    have hl1 := one_le l hl
    exact (hG j hj).quiet (near2 j hj hji _ _ ε (by linarith) (by linarith) (by linarith) (acc l (by linarith)) (by linarith))
  have before : ∀ l : Nat, 0 < l → s.t + l * h ≤ P.a - D / 2 → ¬ Crosses (fl.getD P.i 0) (S P.i) (zf r P.q P.i (s.t + l * h, xs l)) := by
    intro l hl hla
    have hl1 := one_le l hl
    exact (hG _ ev.lt).quiet (near3 _ _ ε (by linarith) (by linarith) (by linarith) (acc l (by linarith)) (by linarith))
  have after : ∀ l : Nat, P.a + D / 2 ≤ s.t + l * h → s.t + l * h ≤ P.a + D →
      Crosses (fl.getD P.i 0) (S P.i) (zf r P.q P.i (s.t + l * h, xs l)) := by
    intro l h1 h2
    have s2 := beside (s.t + l * h) (xs l) ε (by rw [abs_lt]; constructor <;> linarith) (by linarith) (acc l (by linarith))
      (by rw [abs_of_pos (by linarith)]; linarith)
    refine (hG _ ev.lt).cross ?_
    generalize zf r P.q P.i (s.t + l * h, xs l) = z at s2
    have h3 : 0 < d * z := by
      have : d * (s.t + l * h - P.a) * z = (s.t + l * h - P.a) * (d * z) := by ring
      rw [this] at s2
      exact (mul_pos_iff_of_pos_left (by linarith)).1 s2
    have h4 : ((P.σ P.i : ℝ) * d) * (d * z) < 0 := mul_neg_of_neg_of_pos hσd h3
    have h5 : ((P.σ P.i : ℝ) * d) * (d * z) = d ^ 2 * ((P.σ P.i : ℝ) * z) := by ring
    rw [h5] at h4
    by_contra hc
    have := mul_nonneg (sq_nonneg d) (not_lt.1 hc)
    linarith
  obtain ⟨M, hM1, hM2⟩ : ∃ M : Nat, P.a + D / 2 ≤ s.t + M * h ∧ s.t + M * h ≤ P.a + D := by
    refine ⟨⌈(P.a + D / 2 - s.t) / h⌉₊, ?_, ?_⟩
    · have := mul_le_mul_of_nonneg_right (Nat.le_ceil ((P.a + D / 2 - s.t) / h)) hh.le
      rw [div_mul_cancel₀ _ hh.ne'] at this
      linarith
    · have := mul_lt_mul_of_pos_right (Nat.ceil_lt_add_one (div_nonneg (by linarith : 0 ≤ P.a + D / 2 - s.t) hh.le)) hh
      rw [add_mul, div_mul_cancel₀ _ hh.ne'] at this
      linarith
  have hM0 : 0 < M := by
    rcases Nat.eq_zero_or_pos M with h0 | h0
    · rw [h0, Nat.cast_zero, zero_mul] at hM1
      linarith
    · exact h0
  have hex : ∃ l : Nat, 0 < l ∧ Crosses (fl.getD P.i 0) (S P.i) (zf r P.q P.i (s.t + l * h, xs l)) := ⟨M, hM0, after M hM1 hM2⟩
  classical
  obtain ⟨N, ⟨hN0, hN⟩, hNmin, hNM⟩ : ∃ N : Nat, (0 < N ∧ Crosses (fl.getD P.i 0) (S P.i) (zf r P.q P.i (s.t + N * h, xs N))) ∧
      (∀ l < N, ¬ (0 < l ∧ Crosses (fl.getD P.i 0) (S P.i) (zf r P.q P.i (s.t + l * h, xs l)))) ∧ N ≤ M :=
    ⟨Nat.find hex, Nat.find_spec hex, fun l hl => Nat.find_min hex hl, Nat.find_min' hex ⟨hM0, after M hM1 hM2⟩⟩
  have htN' : P.a - D / 2 < s.t + N * h := by
    by_contra hc
    exact before N hN0 (not_lt.1 hc) hN
  obtain ⟨k, rfl⟩ : ∃ k, N = k + 1 := ⟨N - 1, by omega⟩
  have hk0 : 0 < k := by
    rcases Nat.eq_zero_or_pos k with h0 | h0
    · rw [h0] at htN'
      push_cast at htN'
      linarith
    · exact h0
  have htN : s.t + (k + 1 : Nat) * h ≤ P.a + D := by
    have : ((k + 1 : Nat) : ℝ) * h ≤ M * h := mul_le_mul_of_nonneg_right (by exact_mod_cast hNM) hh.le
    linarith
  have hgrid : ∀ j : Nat, j ≤ k + 1 → s.t + j * h ≤ P.a + D := fun j hj => by
    have : (j : ℝ) * h ≤ (k + 1 : Nat) * h := mul_le_mul_of_nonneg_right (by exact_mod_cast hj) hh.le
    linarith
  obtain ⟨st, b0, b1, b2, res⟩ := phase_cut (T := T) (co := co.cast ℝ) (g := zf r P.q) (xs := xs) hs rfl (cast_pack hpk).symm hlen
    (fun _ _ => rfl) hR hq hB rfl hxs hG ev.lt k hk0 (fun l h1 h2 j hj => by
      by_cases hji : j = P.i
      · subst hji
        exact fun hcr => hNmin l (by omega) ⟨h1, hcr⟩
      · exact other l h1 (hgrid l (by omega)) j hj hji) (fun j hj hji => other (k + 1) (by omega) htN j hj hji) hN
  refine ⟨k, st, b0, b1, fun j hj => ⟨(b2 j hj).1, (b2 j hj).2.2, ?_⟩, ?_⟩
  · rw [(b2 j hj).1, (b2 j hj).2.1]
    exact (acc j (by linarith [hgrid j (by omega)])).trans (by linarith)
  have ek : (s.t + (k + 1 : Nat) * h : ℝ) = s.t + k * h + h := by push_cast; ring
  have hkb : |s.t + k * h - P.a| < δ1 := by rw [abs_lt]; constructor <;> linarith
  have hkb1 : |s.t + (k + 1 : Nat) * h - P.a| < δ1 := by rw [abs_lt]; constructor <;> linarith
  rcases res with ⟨θ, q', s', θ0, θ1, lin, sw, hstep, ht', hq', hR', nx⟩ | ⟨hz, herr, s', hstep, ht', hx'⟩
  · left
    obtain ⟨l1, l2⟩ := loc (s.t + k * h) (s.t + (k + 1 : Nat) * h) (xs k) (xs (k + 1)) ε θ hkb hkb1 (by linarith)
      (acc k (by linarith [hgrid k (by omega)])) (acc (k + 1) (by linarith)) θ0 θ1 lin
    have hdif : (s.t + (k + 1 : Nat) * h : ℝ) - (s.t + k * h) = h := by push_cast; ring
    have hηeq : K1 * (ε + h ^ 2) = η := by rw [hε, hη]; ring
    rw [hdif, hηeq] at l1 l2
    obtain ⟨sw1, sw2⟩ := switch (y := (s.t + k * h + θ * h, (1 - θ) • xs k + θ • xs (k + 1))) (by
      rw [Prod.dist_eq, max_lt_iff, Real.dist_eq, dist_eq_norm]
      exact ⟨by simp only; linarith, by simp only; linarith⟩)
    simp only at sw1
    rw [sw] at sw1
    obtain ⟨e1, e2⟩ := Prod.mk.inj sw1
    have hca := carry (s.t + k * h + θ * h) ((1 - θ) • xs k + θ • xs (k + 1)) η (by linarith) l1 l2
    rw [← e2, ← ht'] at hca
    have hkt := (b2 k le_rfl).1
    have hθh : 0 ≤ θ * h := by positivity
    have hθh1 : θ * h ≤ h := by nlinarith
    refine ⟨s', hstep, by rw [ht']; linarith, by rw [ht', hkt]; linarith, by rw [ht', hkt]; linarith, by linarith, hR',
      hq'.trans e1, ?_⟩
    obtain ⟨S', n1, n2⟩ := nx P'.σ (by
      rw [← e2, ← ht'] at sw2
      rw [e1]
      exact sw2)
    exact ⟨S', n1, n2.begins trivial⟩
  · right
    refine ⟨s', hstep, by rw [ht', hx']; exact hz, ?_, herr⟩
    rw [ht']
    by_contra hcon
    have h1 : K1 * ε < |s.t + (k + 1 : Nat) * h - P.a| := by
      have : K1 * ε ≤ η := by
        rw [hε, hη]
        have : 0 ≤ K1 * h ^ 2 := by positivity
        nlinarith
      linarith [not_le.1 hcon]
    have := beside _ (xs (k + 1)) ε hkb1 (by linarith) (acc (k + 1) (by linarith)) h1
    rw [hz, mul_zero] at this
    exact lt_irrefl _ this

/-- All pieces -/
theorem course_followed (hs : 1 ≤ s₀) (hpk : (co.tableau s₀).pack 1 (-1) = co) (hr : RowCheck co s₀ = true)
    (hc : OrderCheck co s₀ 0 p = true) (hp : 2 ≤ p) (hlen : ∀ q t x, (r.zeroFunctions q t x).length = n)
    (l : List (Piece E Q)) (hl : Course r F n fl p l) : ∀ P l', l = P :: l' → ∀ A : ℝ, 0 ≤ A →
    ∃ C : ℝ, ∃ h₀ > (0 : ℝ), ∀ h, 0 < h → h ≤ h₀ → ∀ s, Ready ((co.cast ℝ).tableau s₀) h s → Starts r n fl P s →
      |s.t - P.t₀| ≤ A * h ^ 2 → ‖s.x - P.y s.t‖ ≤ A * h ^ 2 → Follows r F (co.cast ℝ) h (C * h ^ 2) l s := by
  induction hl with
  | last P h side =>
    rintro _ _ ⟨⟩ A hA
    exact piece_last hs hpk hr hc hp hlen h side A hA
  | cons P P' l h ev next rest ih =>
    rintro _ _ ⟨⟩ A hA
    have hP' : P'.Solves F p := by cases rest <;> assumption
    have hy' : ContDiffAt ℝ 1 P'.y P.a := by
      rw [← next.time]
      have hm : P'.t₀ ∈ Icc P'.t₀ P'.a := ⟨le_rfl, hP'.order.le⟩
      exact (solution_contDiffAt (hP'.smooth _ hm) (hP'.deriv _ hm)).of_le (by exact_mod_cast (by omega : 1 ≤ p + 1))
    obtain ⟨C1, hC1, h1, hh1, seg⟩ := piece_event hs hpk hr hc hp hlen h ev next hy' A hA
    obtain ⟨C2, h2, hh2, tail⟩ := ih P' l rfl C1 hC1
    refine ⟨max C1 C2, min h1 h2, lt_min hh1 hh2, fun h hh hle s hR hS ht hx => ?_⟩
    rw [le_min_iff] at hle
    obtain ⟨k, st, a1, a2, a3, a4⟩ := seg h hh hle.1 s hR hS ht hx
    have m1 : C1 * h ^ 2 ≤ max C1 C2 * h ^ 2 := mul_le_mul_of_nonneg_right (le_max_left _ _) (by positivity)
    have m2 : C2 * h ^ 2 ≤ max C1 C2 * h ^ 2 := mul_le_mul_of_nonneg_right (le_max_right _ _) (by positivity)
    refine ⟨k, st, a1, a2, fun j hj => ⟨(a3 j hj).1, (a3 j hj).2.1, (a3 j hj).2.2.trans m1⟩, fun h => by simp at h, fun _ => ?_⟩
    rcases a4 with ⟨s', b1, b2, b3, b4, b5, b6, b7⟩ | ⟨s', b1, b2, b3, b4⟩
    · exact .inl ⟨s', b1, b2.trans m1, b3, b4, Follows.mono m2 _ _ (tail h hh hle.2 s' b6 b7 (by rw [next.time]; exact b2) b5)⟩
    · exact .inr ⟨s', b1, b2, b3.trans m1, b4⟩

end

/-- Runs through any number of events follow the solution with switches to second order.

The solution consists of pieces: in each it solves the equation of a phase; at its end one event function reaches zero and crosses
it, and the solution goes on with the phase and the state that `switchPhaseState` gives; in the last piece there is no event. The
run begins at the start of the first piece, where all functions are watched and none is zero. -/
def Tracks (co : Coefficients ℚ) (p : Nat) : Prop :=
  ∀ {E Q : Type} [NormedAddCommGroup E] [NormedSpace ℝ E] [CompleteSpace E] (r : EvRhs ℝ E Q) (F : Q → ℝ → E → E) (n : Nat)
    (fl : List Nat) (_ : 0 < n) (_ : ∀ q t x, (r.zeroFunctions q t x).length = n) (P : Piece E Q) (l : List (Piece E Q))
    (_ : Course r F n fl p (P :: l)) (_ : r.zeroFuncCount P.q = n) (_ : r.zeroFuncFlags P.q = fl) (_ : fl.length = n)
    (_ : ∀ j < n, Allowed (fl.getD j 0) (P.σ j) ∧ 0 < (P.σ j : ℝ) * zf r P.q j (P.t₀, P.y P.t₀)),
    ∃ C : ℝ, ∃ h₀ > (0 : ℝ), ∀ h, 0 < h → h ≤ h₀ → ∀ (hold : Option ℝ) (e : Ctl ℝ) (_ : e.clean = true),
      Follows r F (co.cast ℝ) h (C * h ^ 2) (P :: l) ⟨P.t₀, P.y P.t₀, hold, Output.mkEmpty, h, (e, P.q), []⟩

theorem tracks {co : Coefficients ℚ} {s p : Nat} (hs : 1 ≤ s) (hpk : (co.tableau s).pack 1 (-1) = co)
    (hr : RowCheck co s = true) (hc : OrderCheck co s 0 p = true) (hp : 2 ≤ p) : Tracks co p := by
  intro E Q _ _ _ r F n fl hn hlen P l hl hcount hfl hfln hside
  obtain ⟨C, h₀, hh₀, H⟩ := course_followed hs hpk hr hc hp hlen _ hl P l rfl 0 le_rfl
  refine ⟨C, h₀, hh₀, fun h hh hle hold e he => H h hh hle _ (.inl ⟨rfl, rfl⟩) ⟨rfl, _, fun j hj => ?_,
    begins_clean hlen hn hcount hfl hfln he (fun j hj => (hside j hj).1) (fun j hj => (hside j hj).2)⟩ (by simp) (by simp)⟩
  exact guard_sFlag (hside j hj).1 (hside j hj).2

/-- C135. The classical Runge-Kutta method -/
theorem C135_rk4 : Tracks rk4 4 :=
  tracks (s := 4) (by decide) (coefficients_ext (by decide +kernel) (by decide +kernel) (by decide +kernel) rfl)
    (by decide +kernel) rk4_check (by decide)

/-! ### A ball that bounces any number of times -/

/-- A ball above a floor: the state consists of the height and the velocity; on the floor the velocity is reversed. -/
def ball : EvRhs ℝ (ℝ × ℝ) Unit where
  zeroFuncCount _ := 1
  zeroFuncFlags _ := [1]
  zeroFunctions _ _ x := [x.1]
  switchPhaseState q _ _ x := (q, (x.1, -x.2))
  truncateStep _ t x := (false, t, x)

/-- Between its bounces at the times `2 m - 1` and `2 m + 1` the ball has the height `(1 - (t - 2 m)²) / 2`. -/
noncomputable def flight (m : Nat) (t : ℝ) : ℝ × ℝ := ((1 - (t - 2 * m) ^ 2) / 2, -(t - 2 * m))

/-- The pieces of the motion from the time `t₀` on, with `k` bounces -/
noncomputable def bounces : Nat → Nat → ℝ → List (Piece (ℝ × ℝ) Unit)
  | 0, m, t₀ => [⟨(), flight m, t₀, 2 * m + 1 / 2, 0, fun _ => 1⟩]
  | k + 1, m, t₀ => ⟨(), flight m, t₀, 2 * m + 1, 0, fun _ => 1⟩ :: bounces k (m + 1) (2 * m + 1)

theorem flight_height (m : Nat) (t : ℝ) : HasDerivAt (fun s => (flight m s).1) (-(t - 2 * m)) t := by
  have h : HasDerivAt (fun s : ℝ => (1 - (s - 2 * m) ^ 2) / 2) (-(2 * (t - 2 * m)) / 2) t := by
    have := ((((hasDerivAt_id t).sub_const (2 * (m : ℝ))).pow 2).const_sub 1).div_const 2
    simpa using this
  have e : -(2 * (t - 2 * m)) / 2 = -(t - 2 * m) := by ring
  rw [e] at h
  exact h

theorem flight_deriv (m : Nat) (t : ℝ) : HasDerivAt (flight m) ((flight m t).2, -1) t := by
  refine (flight_height m t).prodMk ?_
  exact ((hasDerivAt_id t).sub_const (2 * (m : ℝ))).neg

theorem ball_zf (q : Unit) (z : ℝ × ℝ × ℝ) : zf ball q 0 z = z.2.1 := rfl

theorem ball_smooth : ContDiff ℝ 2 (zf ball () 0) := contDiff_fst.comp contDiff_snd

theorem flight_side (m : Nat) (t₀ c : ℝ) (h0 : 2 * (m : ℝ) - 1 ≤ t₀) (h1 : t₀ < 2 * m + 1) (hc : c < 2 * m + 1) :
    OnSide (zf ball () 0) (flight m) t₀ c (1 : Int) := by
  have hpos : ∀ t : ℝ, 2 * (m : ℝ) - 1 < t → t < 2 * m + 1 → 0 < ((1 : Int) : ℝ) * zf ball () 0 (t, flight m t) := fun t h1 h2 => by
    rw [ball_zf]
    simp only [flight, Int.cast_one, one_mul]
    have : 0 < (1 - (t - 2 * m)) * (1 + (t - 2 * m)) := mul_pos (by linarith) (by linarith)
    nlinarith
  refine ⟨fun t _ => ball_smooth.continuous.continuousAt, fun t ht hne => ?_, ?_⟩
  · exact hpos t (lt_of_le_of_lt h0 (lt_of_le_of_ne ht.1 (Ne.symm hne))) (lt_of_le_of_lt ht.2 hc)
  · rcases h0.eq_or_lt with rfl | h
    · right
      refine ⟨by rw [ball_zf]; simp [flight], ball_smooth.contDiffAt, ?_⟩
      have hd : deriv (fun t => (flight m t).1) (2 * m - 1) = -((2 * m - 1) - 2 * m) := (flight_height m (2 * m - 1)).deriv
      show 0 < ((1 : Int) : ℝ) * deriv (fun t => (flight m t).1) (2 * m - 1)
      rw [hd]
      norm_num
    · exact .inl (hpos _ h h1)

/-- The motion of the ball is a course in the sense of C135. -/
theorem bounces_course (k m : Nat) (t₀ : ℝ) (h0 : 2 * (m : ℝ) - 1 ≤ t₀) (h1 : t₀ ≤ 2 * m) :
    Course ball (fun _ _ x => (x.2, -1)) 1 [1] 4 (bounces k m t₀) := by
  have hsm : ∀ z : ℝ × ℝ × ℝ, ContDiffAt ℝ (4 + 1 : Nat) (fun z : ℝ × ℝ × ℝ => (z.2.2, (-1 : ℝ))) z := fun z =>
    ((contDiff_snd.comp contDiff_snd).prodMk contDiff_const).contDiffAt
  induction k generalizing m t₀ with
  | zero =>
    refine .last _ ⟨by simp only; linarith, fun t _ => hsm _, fun t _ => Eventually.of_forall (flight_deriv m)⟩ (fun j hj => ?_)
    obtain rfl : j = 0 := by omega
    exact flight_side m t₀ _ h0 (by linarith) (by linarith)
  | succ k ih =>
    have hrest := ih (m + 1) (2 * m + 1) (by push_cast; linarith) (by push_cast; linarith)
    obtain ⟨P', l, e⟩ : ∃ P' l, bounces k (m + 1) (2 * m + 1) = P' :: l := by cases k <;> exact ⟨_, _, rfl⟩
    have eP : P'.q = () ∧ P'.y = flight (m + 1) ∧ P'.t₀ = 2 * m + 1 ∧ P'.σ = fun _ => 1 := by
      cases k <;> (obtain ⟨rfl, -⟩ := List.cons.inj e.symm; exact ⟨rfl, rfl, rfl, rfl⟩)
    rw [e] at hrest
    show Course _ _ _ _ _ (_ :: bounces k (m + 1) (2 * m + 1))
    rw [e]
    obtain ⟨e1, e2, e3, e4⟩ := eP
    refine .cons _ _ _ ⟨by simp only; linarith, fun t _ => hsm _, fun t _ => Eventually.of_forall (flight_deriv m)⟩ ?_ ?_ hrest
    · refine ⟨by simp, fun j hj hne => absurd hne (by simp only; omega), fun c _ hc => flight_side m t₀ c h0 (by linarith) hc, ?_,
        ball_smooth.contDiffAt, ?_⟩
      · rw [ball_zf]
        simp [flight]
      · have hd : deriv (fun t => (flight m t).1) (2 * m + 1) = -((2 * m + 1) - 2 * m) := (flight_height m (2 * m + 1)).deriv
        show deriv (fun t => (flight m t).1) (2 * m + 1) ≠ 0
        rw [hd]
        norm_num
    · refine ⟨e3, ⟨fun z => (z.2.1, -z.2.2), ?_, ?_, Eventually.of_forall fun z => rfl⟩, fun j hj => ?_, fun j hj => ?_⟩
      · exact ((contDiff_fst.comp contDiff_snd).prodMk (contDiff_snd.comp contDiff_snd).neg).contDiffAt
      · rw [e2]
        simp only [flight]
        push_cast
        ext <;> simp <;> ring
      · obtain rfl : j = 0 := by omega
        rw [e4]
        simp
      · obtain rfl : j = 0 := by omega
        exact ball_smooth.continuous.continuousAt

/-- A ball dropped from the height 1/2: through `k + 1` bounces the run follows its motion to second order. -/
example (k : Nat) := C135_rk4 ball (fun _ _ x => (x.2, -1)) 1 [1] (by decide) (fun _ _ _ => rfl) _ _ (bounces_course (k + 1) 0 0 (by norm_num) (by norm_num))
  rfl rfl rfl (fun j hj => by
    obtain rfl : j = 0 := by omega
    refine ⟨.inl ⟨rfl, rfl⟩, ?_⟩
    rw [ball_zf]
    simp [flight])

end Verif.Event
