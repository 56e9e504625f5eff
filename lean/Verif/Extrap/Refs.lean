import Verif.Extrap.Order
import Verif.Extrap.Step
import Verif.RK.Pack

/-! # Reference solvers and the order of the extrapolated values -/

set_option linter.unusedSectionVars false

namespace Verif.Extrap

open Verif.Res Verif.RK
open scoped BigOperators
open Finset

section
variable {K V E : Type} [Field K] [LinearOrder K] [IsStrictOrderedRing K]
  [AddCommGroup V] [Module K V]

/-- A fixed-step solver `n` steps after a restart. -/
def RkHolds (T : Tableau K) (f : K → V → V) (t : K) (x : V) (h : K) (n : Nat) (s : FixedSt K V E) :
    Prop :=
  s.t = t + n * h ∧ s.x = rkIter T f t x h n ∧ s.hInit = h ∧
    (s.out.k = [] ∨ (s.h = some h ∧ s.out.k.length = T.s ∧ s.out.x2.length = 1))

theorem doStep_rk {T : Tableau K} {m : Method K V E} (hs : 1 ≤ T.s) (h0 : T.c 0 = 0)
    (hco : m.co = T.pack 1 (-1)) (hec : m.ec = none) {t h : K} {x : V} {n : Nat}
    {s : FixedSt K V E} (hst : RkHolds T m.rhs t x h n s) :
    ∃ s', s.doStep m = .ok s' ∧ RkHolds T m.rhs t x h (n + 1) s' := by
  obtain ⟨a1, a2, a3, a4⟩ := hst
  have hc1 : (T.pack 1 (-1)).c.length + 1 = T.s := by simp [Tableau.pack]; omega
  obtain ⟨si, hsi⟩ : ∃ si, FixedSt.initStep m { s with log := .pre s.h :: s.log } = si := ⟨_, rfl⟩
  have hi : si.t = s.t ∧ si.x = s.x ∧ si.hInit = h ∧ si.h = some h ∧ si.out.k.length = T.s ∧
      si.out.x2.length = 1 := by
    unfold FixedSt.initStep at hsi
    rcases a4 with a4 | ⟨b1, b2, b3⟩
    · rw [if_pos (by simp [a4])] at hsi
      subst hsi
      refine ⟨rfl, rfl, a3, by simp [a3], ?_, by simp [Output.mk']⟩
      simp only [Output.mk', List.length_replicate, hco, hc1]
    · have hne : ¬ s.out.k.isEmpty = true := by
        rw [List.isEmpty_iff]
        intro h
        rw [h] at b2
        simp at b2
        omega
      rw [if_neg (by simpa using hne)] at hsi
      subst hsi
      exact ⟨rfl, rfl, a3, b1, b2, b3⟩
  obtain ⟨g1, g2, g3, g4, g5, g6⟩ := hi
  obtain ⟨o', k1, k2, k3, _, k5⟩ := compute_tableau si.out T m.co m.rhs si.x si.t h
    (by rw [hco, g6]; exact pack_sizes T _ _ hs) g5
    (fun i j hi hj => by rw [hco]; exact pack_A T _ _ hi hj)
    (fun ix i hx hi => by rw [hco]; exact pack_B T _ _ (by omega) hi)
    (fun i hi => by rw [hco]; exact pack_C T _ _ h0 hi)
  have hx2 := (k5 0 (by omega)).1 (by rw [hco]; simp [Tableau.pack])
  refine ⟨{ si with
    t := si.t + h
    x := T.output m.rhs si.t h si.x 0
    out := { o' with x2 := o'.x2.set 0 si.x }
    log := .post h true false Trunc.none 0 :: si.log }, ?_, ?_⟩
  · unfold FixedSt.doStep
    simp only [hsi, ecStart, ecEnd, hec, bind_ok, g4, readH, k1, raw_of_getElem? hx2]
    unfold rawSet
    rw [if_pos (by omega)]
    simp only [bind_ok]
  · refine ⟨?_, ?_, g3, Or.inr ⟨g4, k2, ?_⟩⟩
    · simp only [g1, a1]; push_cast; ring
    · simp only [g1, g2, a1, a2]; rfl
    · simp only [List.length_set]; omega

theorem behaves_rk (T : Tableau K) (m : Method K V E) (p : Int) (hs : 1 ≤ T.s) (h0 : T.c 0 = 0)
    (hco : m.co = T.pack 1 (-1)) (hec : m.ec = none) :
    Behaves (m.ref p) (rkIter T m.rhs) := by
  intro t x h n s
  have gen : ∀ n k (s : FixedSt K V E), RkHolds T m.rhs t x h k s → ∀ i,
      ∃ s', loopFrom (fun _ s => FixedSt.doStep m s) n i s = .ok s' ∧
        RkHolds T m.rhs t x h (k + n) s' := by
    intro n
    induction n with
    | zero => intro k s hs i; exact ⟨s, rfl, hs⟩
    | succ n ih =>
      intro k s hs' i
      obtain ⟨s1, g1, g2⟩ := doStep_rk hs h0 hco hec hs'
      obtain ⟨s2, g3, g4⟩ := ih (k + 1) s1 g2 (i + 1)
      refine ⟨s2, ?_, by rw [show k + (n + 1) = k + 1 + n by omega]; exact g4⟩
      rw [loopFrom, g1, bind_ok, g3]
  obtain ⟨s', g1, g2⟩ := gen n 0 (FixedSt.setInitialStepSize h (FixedSt.setInitialState m t x s))
    ⟨by simp [FixedSt.setInitialStepSize, FixedSt.setInitialState], rfl, rfl, Or.inl rfl⟩ 0
  rw [Nat.zero_add] at g2
  exact ⟨s', g1, g2.2.1⟩

end

section
variable {E : Type} [NormedAddCommGroup E] [NormedSpace ℝ E] [CompleteSpace E]
open Asymptotics Topology

theorem node_inj (sym : Bool) (b : Nat → Nat) (hb : StrictMono b) (h0 : 0 < b 0) (s : Finset Nat) :
    Set.InjOn (fun m => (node sym (b m) : ℝ)) s := by
  intro i _ j _ hij
  simp only at hij
  have hpos : ∀ i, 0 < b i := fun i => lt_of_lt_of_le h0 (hb.monotone (Nat.zero_le i))
  rcases lt_trichotomy i j with h | h | h
  · exact absurd hij (ne_of_gt (node_lt (hpos i) (hb h)))
  · exact h
  · exact absurd hij (ne_of_lt (node_lt (hpos j) (hb h)))

/-- The weights of extrapolation. -/
theorem extrap_weights (s : Finset Nat) (v : Nat → ℝ) (hv : Set.InjOn v s) (hs : 1 ≤ s.card) :
    ∑ m ∈ s, (Lagrange.basis s v m).eval 0 = 1 ∧
    ∀ (d : Nat), 1 ≤ d → d ≤ s.card → ∀ (c : Nat → ℝ) (w : Nat → ℝ),
      (∀ m ∈ s, w m = ∑ j ∈ range d, v m ^ j * c j) →
      ∑ m ∈ s, (Lagrange.basis s v m).eval 0 * w m = c 0 := by
  refine ⟨?_, ?_⟩
  · have := extrap_poly s v hv (fun _ => (1 : ℝ)) 1 hs (le_refl 1)
    simpa [extrap] using this
  · intro d h1 h2 c w hw
    have := extrap_poly s v hv c d h2 h1
    unfold extrap at this
    rw [← this]
    refine sum_congr rfl (fun m hm => ?_)
    rw [hw m hm]
    rfl

/-- Extrapolation with nodes `1/n` of a consistent explicit method: order equal to the number of
stage numbers used. -/
theorem rk_extrapolated_order (T : Tableau ℝ) (hs : 0 < T.s)
    (hrow : ∀ l, l < T.s → T.c l = ∑ j ∈ range l, T.a l j) (hb1 : ∑ l ∈ range T.s, T.b 0 l = 1)
    (b : Nat → Nat) (hb : StrictMono b) (hb0 : 0 < b 0) (lo M : Nat) (hlo : lo < M)
    {f : ℝ → E → E} {t₀ : ℝ} {x₀ : E}
    (hf : ContDiffAt ℝ (M - lo : Nat) (fun p : ℝ × E => f p.1 p.2) (t₀, x₀))
    (y : ℝ → E) (h0 : y t₀ = x₀) (hy : ∀ᶠ t in 𝓝 t₀, HasDerivAt y (f t (y t)) t) :
    (fun h => extrapolated false b (rkIter T f) lo M t₀ x₀ h - y (t₀ + h))
      =O[𝓝 0] (fun h : ℝ => h ^ (M - lo + 1)) := by
  have hpos : ∀ i, 0 < b i := fun i => lt_of_lt_of_le hb0 (hb.monotone (Nat.zero_le i))
  choose k c h1 h2 h3 using fun m => rkIter_stages T f t₀ x₀ (b m) hs hrow hb1
  have hcard : (Ico lo M).card = M - lo := Nat.card_Ico _ _
  obtain ⟨w1, w2⟩ := extrap_weights (Ico lo M) (fun m => (node false (b m) : ℝ))
    (node_inj false b hb hb0 _) (by rw [hcard]; omega)
  have := family_order hf (by omega) (Ico lo M)
    (fun m => (Lagrange.basis (Ico lo M) (fun m => (node false (b m) : ℝ)) m).eval 0) w1
    (fun m i j => (1 / (b m) : ℝ) * iterA T.s T.a (T.b 0) i j)
    (fun m j => (1 / (b m) : ℝ) * T.b 0 (j % T.s)) c k (fun m => b m * T.s)
    (fun m _ => h1 m) (fun m _ => h2 m) y h0 hy
    (fun t ht => by
      obtain ⟨cf, hc0, hcf⟩ := weight_iter T.s T.a (T.b 0) hb1 t
      rw [← hc0]
      refine w2 t.size (Tree.size_pos t) (by rw [hcard]; exact ht) cf _ (fun m _ => ?_)
      rw [hcf (b m) (hpos m)]
      simp [node])
  refine this.congr_left (fun h => ?_)
  unfold extrapolated extrap
  congr 1
  refine sum_congr rfl (fun m _ => ?_)
  beta_reduce
  rw [h3 m h]

/-- Extrapolation with nodes `1/n²` of the Gragg method: order twice the number of stage numbers
used. -/
theorem gragg_extrapolated_order (smooth : Bool)
    (b : Nat → Nat) (hb : StrictMono b) (hb0 : 0 < b 0) (lo M : Nat) (hlo : lo < M)
    {f : ℝ → E → E} {t₀ : ℝ} {x₀ : E}
    (hf : ContDiffAt ℝ (2 * (M - lo) : Nat) (fun p : ℝ × E => f p.1 p.2) (t₀, x₀))
    (y : ℝ → E) (h0 : y t₀ = x₀) (hy : ∀ᶠ t in 𝓝 t₀, HasDerivAt y (f t (y t)) t) :
    (fun h => extrapolated true b (graggValue smooth f) lo M t₀ x₀ h - y (t₀ + h))
      =O[𝓝 0] (fun h : ℝ => h ^ (2 * (M - lo) + 1)) := by
  have hpos : ∀ i, 0 < b i := fun i => lt_of_lt_of_le hb0 (hb.monotone (Nat.zero_le i))
  choose k c h1 h2 h3 using fun m => gragg_stages smooth f t₀ x₀ (b m) (hpos m)
  have hcard : (Ico lo M).card = M - lo := Nat.card_Ico _ _
  obtain ⟨w1, w2⟩ := extrap_weights (Ico lo M) (fun m => (node true (b m) : ℝ))
    (node_inj true b hb hb0 _) (by rw [hcard]; omega)
  have := family_order hf (by omega) (Ico lo M)
    (fun m => (Lagrange.basis (Ico lo M) (fun m => (node true (b m) : ℝ)) m).eval 0) w1
    (fun m i j => (1 / (b m) : ℝ) * grA i j)
    (fun m j => (1 / (b m) : ℝ) * grB smooth (b m) j) c k (fun m => 2 * b m + 1)
    (fun m _ => h1 m) (fun m _ => h2 m) y h0 hy
    (fun t ht => by
      obtain ⟨cf, hc0, hcf⟩ := weight_gr smooth (M - lo) t ht
      rw [← hc0]
      refine w2 (M - lo) (by omega) (by rw [hcard]) cf _ (fun m _ => ?_)
      rw [hcf (b m) (hpos m)]
      simp [node])
  refine this.congr_left (fun h => ?_)
  unfold extrapolated extrap
  congr 1
  refine sum_congr rfl (fun m _ => ?_)
  beta_reduce
  rw [h3 m h]

end

end Verif.Extrap
