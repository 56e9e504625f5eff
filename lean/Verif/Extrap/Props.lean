import Mathlib.Analysis.SpecialFunctions.ExpDeriv
import Verif.Extrap.Refs
import Verif.Witness
import Mathlib.Analysis.SpecialFunctions.Exp

/-! # Properties of the extrapolator: C32, C78, C79, C80, C81 -/

set_option linter.unusedSectionVars false

namespace Verif.Extrap

open Verif.Res Verif.RK
open scoped BigOperators
open Finset

/-! ### C32 -/

section
variable {K V : Type} [Field K] [LinearOrder K] [IsStrictOrderedRing K]
  [AddCommGroup V] [Module K V]

/-- A strictly increasing sequence that begins with the given numbers. -/
theorem extend_list (n : List Nat) (M : Nat) (hlen : M ≤ n.length) (hpos : ∀ i (h : i < n.length),
    i < M → 0 < n[i]) (hinc : ∀ i j (hi : i < n.length) (hj : j < n.length), i < j → j < M → n[i] < n[j]) :
    ∃ b : Nat → Nat, StrictMono b ∧ 0 < b 0 ∧ ∀ i, i < M → n[i]? = some (b i) := by
  refine ⟨fun i => if h : i < M then n[i] else (if h : 0 < M then n[M - 1] else 0) + i + 1, ?_, ?_, ?_⟩
  · apply strictMono_nat_of_lt_succ
    intro i
    by_cases h1 : i + 1 < M
    · rw [dif_pos (by omega), dif_pos h1]
      exact hinc _ _ _ _ (by omega) h1
    · rw [dif_neg h1]
      by_cases h2 : i < M
      · rw [dif_pos h2, dif_pos (by omega)]
        have : i = M - 1 := by omega
        subst this
        omega
      · rw [dif_neg h2]; omega
  · by_cases h : 0 < M
    · simp only [dif_pos h]
      exact hpos 0 _ h
    · simp only [dif_neg h]; omega
  · intro i hi
    beta_reduce
    rw [dif_pos hi, List.getElem?_eq_getElem]

/-- C32. For strictly increasing positive stage numbers the recursion in place does not fail, and
place `i` of the result is the value at zero of every polynomial of degree less than `M - i` in
`1/n` (in `1/n²` for symmetric methods) that takes the values of the stages `i, …, M - 1`. In
particular place `0` is the value at zero of the polynomial through all stages. -/
theorem C32_neville (sym : Bool) (M : Nat) (n : List Nat) (T : List V) (hn : M ≤ n.length)
    (hT : M ≤ T.length) (hpos : ∀ i (h : i < n.length), i < M → 0 < n[i])
    (hinc : ∀ i j (hi : i < n.length) (hj : j < n.length), i < j → j < M → n[i] < n[j]) :
    ∃ T', neville (K := K) sym M n T = .ok T' ∧ T'.length = T.length ∧
      ∀ i, i < M → ∀ c : Nat → V,
        (∀ m (h1 : m < T.length) (h2 : m < n.length), i ≤ m → m < M →
          T[m] = ∑ j ∈ range (M - i), ((1 / (n[m] : K)) ^ (if sym then 2 else 1)) ^ j • c j) →
        T'[i]? = some (c 0) := by
  obtain ⟨b, hb1, hb2, hb3⟩ := extend_list n M hn hpos hinc
  obtain ⟨T', h1, h2, h3⟩ := neville_ok (K := K) sym M n b hb2 hb1 hb3 T hT
  refine ⟨T', h1, h2, fun i hi c hc => ?_⟩
  rw [h3 i hi]
  congr 1
  have hbpos : ∀ i, 0 < b i := fun i => lt_of_lt_of_le hb2 (hb1.monotone (Nat.zero_le i))
  have hinj : Set.InjOn (fun m => (node sym (b m) : K)) (Ico i M) := by
    have : StrictAnti (fun m => (node sym (b m) : K)) := fun x y h => node_lt (hbpos x) (hb1 h)
    exact this.injective.injOn
  rw [← extrap_poly (Ico i M) (fun m => (node sym (b m) : K)) hinj c (M - i)
    (by rw [Nat.card_Ico]) (by omega)]
  apply extrap_congr
  intro m hm
  rw [mem_Ico] at hm
  have e := hc m (by omega) (by omega) hm.1 hm.2
  have e2 := hb3 m hm.2
  rw [List.getElem?_eq_getElem (by omega), Option.some.injEq] at e2
  rw [List.getD_eq_getElem?_getD, List.getElem?_eq_getElem (by omega), Option.getD_some, e, e2]
  rfl

/-- C32. The polynomial exists for all stage values and is unique. -/
theorem C32_unique (sym : Bool) (M : Nat) (n : List Nat) (T : List V) (hn : M ≤ n.length)
    (hT : M ≤ T.length) (hpos : ∀ i (h : i < n.length), i < M → 0 < n[i])
    (hinc : ∀ i j (hi : i < n.length) (hj : j < n.length), i < j → j < M → n[i] < n[j]) (i : Nat) :
    ∃ c : Nat → V, (∀ m (h1 : m < T.length) (h2 : m < n.length), i ≤ m → m < M →
        T[m] = ∑ j ∈ range (M - i), ((1 / (n[m] : K)) ^ (if sym then 2 else 1)) ^ j • c j) ∧
      ∀ c' : Nat → V, (∀ m (h1 : m < T.length) (h2 : m < n.length), i ≤ m → m < M →
        T[m] = ∑ j ∈ range (M - i), ((1 / (n[m] : K)) ^ (if sym then 2 else 1)) ^ j • c' j) →
        ∀ j, j < M - i → c' j = c j := by
  obtain ⟨b, hb1, hb2, hb3⟩ := extend_list n M hn hpos hinc
  have hbpos : ∀ i, 0 < b i := fun i => lt_of_lt_of_le hb2 (hb1.monotone (Nat.zero_le i))
  have hinj : Set.InjOn (fun m => (node sym (b m) : K)) (Ico i M) := by
    have : StrictAnti (fun m => (node sym (b m) : K)) := fun x y h => node_lt (hbpos x) (hb1 h)
    exact this.injective.injOn
  obtain ⟨c, c1, c2⟩ := exists_unique_poly (Ico i M) (fun m => (node sym (b m) : K)) hinj
    (fun m => T.getD m 0)
  rw [Nat.card_Ico] at c1 c2
  have conv : ∀ m (h1 : m < T.length) (h2 : m < n.length), m < M →
      T.getD m 0 = T[m] ∧ (node sym (b m) : K) = (1 / (n[m] : K)) ^ (if sym then 2 else 1) := by
    intro m h1 h2 hm
    have e2 := hb3 m hm
    rw [List.getElem?_eq_getElem h2, Option.some.injEq] at e2
    refine ⟨by rw [List.getD_eq_getElem?_getD, List.getElem?_eq_getElem h1]; rfl, ?_⟩
    rw [e2]; rfl
  refine ⟨c, fun m h1 h2 h3 h4 => ?_, fun c' hc' j hj => c2 c' (fun m hm => ?_) j hj⟩
  · obtain ⟨e1, e2⟩ := conv m h1 h2 h4
    rw [← e1, ← e2]
    exact c1 m (mem_Ico.2 ⟨h3, h4⟩)
  · rw [mem_Ico] at hm
    obtain ⟨e1, e2⟩ := conv m (by omega) (by omega) hm.2
    rw [e1, e2]
    exact hc' m (by omega) (by omega) hm.1 hm.2

/-- Three stages `1, 2, 3` of the polynomial `5 + 6/n + 7/n²`. -/
example : ∃ T' : List ℚ, neville (K := ℚ) false 3 [1, 2, 3, 0] [18, 39/4, 70/9, 100] = .ok T' ∧
    T'[0]? = some (5 : ℚ) := by
  obtain ⟨T', h1, h2⟩ := exists_of_test
    (r := neville (K := ℚ) false 3 [1, 2, 3, 0] [18, 39/4, 70/9, (100 : ℚ)])
    (p := fun T => decide (T[0]? = some (5 : ℚ))) (by decide +kernel)
  exact ⟨T', h1, of_decide_eq_true h2⟩

end

/-! ### C79: runs of the extrapolator -/

section
variable {K V E S Q : Type} [Field K] [LinearOrder K] [IsStrictOrderedRing K]
  [AddCommGroup V] [Module K V]

/-- A reference solver that computes something, a step sequence that gives the numbers `b`, at
least one stage (two with the error check), and no more stages than the sequence has numbers. -/
structure Sane (m : ExMethod K V E S Q) (r : RefSolver K V S) (Φ : K → V → K → Nat → V)
    (sq : StepSeq Q) (b : Nat → Nat) (B : Nat) : Prop where
  ref : m.ref = some r
  seq : m.seq = some sq
  behaves : Behaves r Φ
  gives : Gives sq b B
  one : 1 ≤ m.maxStages
  two : m.disableErrorCheck = true ∨ 2 ≤ m.maxStages
  most : m.maxStages ≤ B

/-- The work arrays are empty (since the last `setInitialState`) or fit the stage number. -/
def Fits (b : Nat → Nat) (M : Nat) (s : ExSt K V E S Q) : Prop :=
  s.T = [] ∨ (s.T.length = b (M - 1) ∧ s.n.length = b (M - 1) ∧ s.h ≠ none)

theorem Fits.ready {b : Nat → Nat} {M : Nat} {s : ExSt K V E S Q} (h : Fits b M s) :
    ∃ h, Ready b M h s := by
  rcases h with h | ⟨h1, h2, h3⟩
  · exact ⟨s.hInit, Or.inl ⟨h, rfl⟩⟩
  · obtain ⟨v, hv⟩ := Option.ne_none_iff_exists'.1 h3
    exact ⟨v, Or.inr ⟨h1, h2, hv⟩⟩

def ExAttempt.state : Attempt (ExSt K V E S Q) → ExSt K V E S Q
  | .accepted s => s
  | .rejected s => s
  | .thrown _ s => s

/-- C79. One pass of the step loop without events never fails; a rejected one keeps time and
state, an accepted one moves by a step `h` to the value extrapolated from the stages. -/
theorem pass_ok {m : ExMethod K V E S Q} {r : RefSolver K V S} {Φ : K → V → K → Nat → V}
    {sq : StepSeq Q} {b : Nat → Nat} {B : Nat} (hm : Sane m r Φ sq b B) (hec : m.ec = none)
    (s : ExSt K V E S Q) (hs : Fits b m.maxStages s) :
    ∃ A, s.attempt m = .ok A ∧ Fits b m.maxStages (ExAttempt.state A) ∧
      (ExAttempt.state A).hInit = s.hInit ∧
      ∃ h, Ready b m.maxStages h s ∧
      (∀ s', A = .rejected s' → s'.t = s.t ∧ s'.x = s.x) ∧
      (∀ s', A = .accepted s' → s'.t = s.t + h ∧
        s'.x = extrapolated m.symmetric b Φ 0 m.maxStages s.t s.x h ∧
        ∃ l c e, s'.log = .post l true c Trunc.none e :: .pre s.h :: s.log ∧
          s'.h = some l ∧ (c = false → l = h)) ∧
      (m.disableErrorCheck = true → ∃ s', A = .accepted s' ∧ s'.h = some h) := by
  obtain ⟨h, hready⟩ := hs.ready
  obtain ⟨err, herr⟩ : ∃ err, err = if m.disableErrorCheck then 0 else
      m.norm (extrapolated m.symmetric b Φ 0 m.maxStages s.t s.x h
        - extrapolated m.symmetric b Φ 1 m.maxStages s.t s.x h) := ⟨_, rfl⟩
  obtain ⟨res, hres⟩ : ∃ res, res = if m.disableErrorCheck then ⟨h, true, false⟩ else
      m.control h err m.lowOrder := ⟨_, rfl⟩
  have := attempt_ok hm.ref hm.seq hm.behaves hm.gives hm.one hm.most hm.two s hready
    (e := s.ec) (e2 := s.ec) (x2 := extrapolated m.symmetric b Φ 0 m.maxStages s.t s.x h)
    (t2 := s.t + h) (tr := Trunc.none) _ rfl err herr res hres
    (by simp [ExMethod.ecStart, hec]) (fun _ => by simp [ExMethod.ecEnd, hec])
  obtain ⟨s', a1, a2, a3, a4, a5, a6, a7, a8⟩ := this
  have hfits : Fits b m.maxStages s' := Or.inr ⟨a5, a6, by rw [a3]; simp⟩
  have hdis : m.disableErrorCheck = true → res = ⟨h, true, false⟩ := by
    intro hd
    rw [hres, if_pos hd]
  by_cases hth : (res.changeStepSize && decide (res.newStepSize ≤ m.hMin)) = true
  · rw [if_pos hth] at a8
    refine ⟨_, a8.2, hfits, a4, h, hready, ?_, ?_, ?_⟩
    · intro _ h; cases h
    · intro _ h; cases h
    · intro hd
      rw [hdis hd] at hth
      cases hth
  · rw [if_neg hth] at a8
    obtain ⟨b1, b2⟩ := a8
    by_cases hacc : res.acceptStep = true
    · rw [if_pos hacc] at a1 a2 a7 b2
      rw [if_pos hacc, hacc] at b1
      refine ⟨_, b2, hfits, a4, h, hready, ?_, ?_, ?_⟩
      · intro _ h; cases h
      · intro s'' hs''
        cases hs''
        refine ⟨a1, a2, _, _, _, b1, a3, ?_⟩
        intro hc
        rw [if_neg (by rw [hc]; decide)]
      · intro hd
        refine ⟨s', rfl, ?_⟩
        rw [a3, hdis hd]
        rfl
    · rw [if_neg hacc] at a1 a2 a7 b2
      refine ⟨_, b2, hfits, a4, h, hready, ?_, ?_, ?_⟩
      · intro s'' hs''
        cases hs''
        exact ⟨a1, a2⟩
      · intro _ h; cases h
      · intro hd
        exfalso
        apply hacc
        rw [hdis hd]

/-- What the user calls. -/
inductive ExCall (K V : Type) where
  | doStep
  | setInitialState (t : K) (x : V) (soft : Bool)
  | setInitialStepSize (h : K)

/-- States in which a history of calls can end: an exception of `doStep` leaves the object as it
is at the throw; a step may take any number of passes. -/
inductive Reaches (m : ExMethod K V E S Q) : ExSt K V E S Q → ExCall K V → Res (ExSt K V E S Q) → Prop
  | set (s t x soft) : Reaches m s (.setInitialState t x soft) (s.setInitialState m t x soft)
  | size (s h) : Reaches m s (.setInitialStepSize h) (.ok (s.setInitialStepSize h))
  | fails (s fuel e) : s.doStep m fuel = some (.error e) → Reaches m s .doStep (.error e)
  | accepts (s fuel s') : s.doStep m fuel = some (.ok (.accepted s')) → Reaches m s .doStep (.ok s')
  | throws (s fuel msg s') : s.doStep m fuel = some (.ok (.thrown msg s')) →
      Reaches m s .doStep (.ok s')

theorem doStep_ok {m : ExMethod K V E S Q} {r : RefSolver K V S} {Φ : K → V → K → Nat → V}
    {sq : StepSeq Q} {b : Nat → Nat} {B : Nat} (hm : Sane m r Φ sq b B) (hec : m.ec = none)
    (fuel : Nat) : ∀ (s : ExSt K V E S Q), Fits b m.maxStages s →
    ∀ r, s.doStep m fuel = some r → ∃ A, r = .ok A ∧ Fits b m.maxStages (ExAttempt.state A) ∧
      (∀ s', A = .accepted s' → s'.x = extrapolated m.symmetric b Φ 0 m.maxStages s.t s.x (s'.t - s.t)) := by
  induction fuel with
  | zero => intro s _ r h; cases h
  | succ fuel ih =>
    intro s hs r hr
    obtain ⟨A, h1, h2, _, h, h3, h4, h5, _⟩ := pass_ok hm hec s hs
    rw [ExSt.doStep, h1] at hr
    cases A with
    | accepted s' =>
      simp only at hr
      cases hr
      refine ⟨_, rfl, h2, fun s'' hs'' => ?_⟩
      cases hs''
      obtain ⟨g1, g2, _⟩ := h5 _ rfl
      rw [g1, add_sub_cancel_left]
      exact g2
    | thrown msg s' =>
      simp only at hr
      cases hr
      exact ⟨_, rfl, h2, fun _ h => by cases h⟩
    | rejected s' =>
      simp only at hr
      obtain ⟨g1, g2⟩ := h4 _ rfl
      obtain ⟨A, k1, k2, k3⟩ := ih s' h2 r hr
      refine ⟨A, k1, k2, fun s'' hs'' => ?_⟩
      have := k3 s'' hs''
      rw [g1, g2] at this
      exact this

/-- C79, with a reference solver, a step sequence and an acceptable number of stages that does not
change, without events: no history of calls reaches a fault, and the work arrays always fit. Missing:
the full claim is false, see `C79_one_stage_false`, `C79_more_stages_false`,
`C79_no_reference_false`. -/
theorem C79_partial {m : ExMethod K V E S Q} {r : RefSolver K V S} {Φ : K → V → K → Nat → V}
    {sq : StepSeq Q} {b : Nat → Nat} {B : Nat} (hm : Sane m r Φ sq b B) (hec : m.ec = none)
    (s : ExSt K V E S Q) (hs : Fits b m.maxStages s) (c : ExCall K V) (res : Res (ExSt K V E S Q))
    (h : Reaches m s c res) : ∃ s', res = .ok s' ∧ Fits b m.maxStages s' := by
  cases h with
  | set t x soft =>
    unfold ExSt.setInitialState
    rw [hm.ref]
    cases soft with
    | true => exact ⟨_, rfl, Or.inl rfl⟩
    | false => exact ⟨_, rfl, Or.inl rfl⟩
  | size h => exact ⟨_, rfl, hs⟩
  | fails fuel e h =>
    obtain ⟨A, h1, _⟩ := doStep_ok hm hec fuel s hs _ h
    cases h1
  | accepts fuel s' h =>
    obtain ⟨A, h1, h2, _⟩ := doStep_ok hm hec fuel s hs _ h
    cases h1
    exact ⟨_, rfl, h2⟩
  | throws fuel msg s' h =>
    obtain ⟨A, h1, h2, _⟩ := doStep_ok hm hec fuel s hs _ h
    cases h1
    exact ⟨_, rfl, h2⟩

/-- C79. From any state with fitting arrays, an accepted step ends at the value extrapolated from
the stage results over the step made, with stage `i` being `b i` steps of the reference solver. -/
theorem C79_value {m : ExMethod K V E S Q} {r : RefSolver K V S} {Φ : K → V → K → Nat → V}
    {sq : StepSeq Q} {b : Nat → Nat} {B : Nat} (hm : Sane m r Φ sq b B) (hec : m.ec = none)
    (s s' : ExSt K V E S Q) (hs : Fits b m.maxStages s) (fuel : Nat)
    (h : s.doStep m fuel = some (.ok (.accepted s'))) (c : Nat → V)
    (hc : ∀ i, i < m.maxStages → Φ s.t s.x ((s'.t - s.t) / (b i : K)) (b i)
      = ∑ j ∈ range m.maxStages, ((1 / (b i : K)) ^ (if m.symmetric then 2 else 1)) ^ j • c j) :
    s'.x = c 0 := by
  obtain ⟨A, h1, _, h2⟩ := doStep_ok hm hec fuel s hs _ h
  cases h1
  rw [h2 s' rfl, extrapolated]
  have hbpos : ∀ i, 0 < b i := fun i => by have := hm.gives.le i; omega
  have hinj : Set.InjOn (fun k => (node m.symmetric (b k) : K)) (Ico 0 m.maxStages) := by
    have : StrictAnti (fun k => (node m.symmetric (b k) : K)) :=
      fun x y h => node_lt (hbpos x) (hm.gives.mono h)
    exact this.injective.injOn
  rw [← extrap_poly (Ico 0 m.maxStages) (fun k => (node m.symmetric (b k) : K)) hinj c m.maxStages
    (by rw [Nat.card_Ico]; omega) hm.one]
  apply extrap_congr
  intro k hk
  rw [mem_Ico] at hk
  exact hc k hk.2

/-- C80, when the controller leaves the step size as it is: the step size told to the
post-observers after an accepted step is the size of the step made. Missing: it is false when the
step size changes, see `C80_false`. -/
theorem C80_partial {m : ExMethod K V E S Q} {r : RefSolver K V S} {Φ : K → V → K → Nat → V}
    {sq : StepSeq Q} {b : Nat → Nat} {B : Nat} (hm : Sane m r Φ sq b B) (hec : m.ec = none)
    (s s' : ExSt K V E S Q) (hs : Fits b m.maxStages s)
    (h : s.attempt m = .ok (.accepted s')) :
    ∃ l c e, s'.log = .post l true c Trunc.none e :: .pre s.h :: s.log ∧
      (c = false → l = s'.t - s.t) ∧ (c = true → s'.h = some l) := by
  obtain ⟨A, h1, _, _, h0, _, _, h2, _⟩ := pass_ok hm hec s hs
  rw [h1] at h
  cases h
  obtain ⟨g1, _, l, c, e, g2, g3, g4⟩ := h2 _ rfl
  refine ⟨l, c, e, g2, fun hc => ?_, fun _ => g3⟩
  rw [g4 hc, g1, add_sub_cancel_left]

end

/-! ### Witnesses -/

/-- A Gragg extrapolator with the given stages on `x' = x`, which doubles the step when the error
check is on. -/
def gragg2 (stages : Nat) (noCheck : Bool) : ExMethod ℚ ℚ Unit (GrSt ℚ ℚ Unit) Nat where
  ref := some growth.ref
  seq := some harmonic
  ec := none
  symmetric := true
  disableErrorCheck := noCheck
  maxStages := stages
  hMin := 0
  norm x := |x|
  control h _ _ := ⟨2 * h, true, true⟩

def start (h : ℚ) : ExSt ℚ ℚ Unit (GrSt ℚ ℚ Unit) Nat :=
  ⟨0, 1, none, [], [], h, ⟨0, 0, 0, 0, false, 0, (), []⟩, 1, (), []⟩

theorem gragg2_sane (stages : Nat) (noCheck : Bool) (h1 : 1 ≤ stages)
    (h2 : noCheck = true ∨ 2 ≤ stages) (h3 : stages ≤ 2 ^ 31 - 2) :
    Sane (gragg2 stages noCheck) growth.ref (graggValue false growth.rhs) harmonic harmonicNo
      (2 ^ 31 - 2) :=
  ⟨rfl, rfl, behaves_gragg growth rfl, gives_harmonic, h1, h2, h3⟩

/-- The hypotheses of C79 and C80 are met by a run of two steps. -/
example : Sane (gragg2 3 false) growth.ref (graggValue false growth.rhs) harmonic harmonicNo
    (2 ^ 31 - 2) ∧ Fits harmonicNo 3 (start (1/2)) ∧
    ∃ s1 s2, (start (1/2)).doStep (gragg2 3 false) 1 = some (.ok (.accepted s1)) ∧
      s1.doStep (gragg2 3 false) 1 = some (.ok (.accepted s2)) ∧ s2.t = 3/2 := by
  refine ⟨gragg2_sane 3 false (by decide) (by decide) (by decide), Or.inl rfl, ?_⟩
  have key : (match (start (1/2)).doStep (gragg2 3 false) 1 with
      | some (.ok (.accepted s1)) => (match s1.doStep (gragg2 3 false) 1 with
        | some (.ok (.accepted s2)) => decide (s2.t = 3/2)
        | _ => false)
      | _ => false) = true := by decide +kernel
  split at key
  · next s1 h1 =>
    split at key
    · next s2 h2 => exact ⟨s1, s2, h1, h2, of_decide_eq_true key⟩
    · cases key
  · cases key

/-- C80 is false: with step doubling the first step of size 1 is reported as a step of size 2. -/
theorem C80_false : ∃ s, (start 1).doStep (gragg2 2 false) 1 = some (.ok (.accepted s)) ∧
    s.t - (start 1).t = 1 ∧ ∃ e, s.log = [.post 2 true true Trunc.none e, .pre none] := by
  have key : (match (start 1).doStep (gragg2 2 false) 1 with
      | some (.ok (.accepted s)) => decide (s.t - (start 1).t = 1) &&
        (match s.log with
        | [.post l a c tr _, .pre none] => decide (l = 2 ∧ a = true ∧ c = true ∧ tr = Trunc.none)
        | _ => false)
      | _ => false) = true := by decide +kernel
  split at key
  · next s1 h1 =>
    rw [Bool.and_eq_true] at key
    obtain ⟨k1, k2⟩ := key
    split at k2
    · next l a c tr e h2 =>
      obtain ⟨rfl, rfl, rfl, rfl⟩ := of_decide_eq_true k2
      exact ⟨s1, h1, of_decide_eq_true k1, e, h2⟩
    · cases k2
  · cases key

/-- C79 is false with one stage and the error check: the error is taken from a stage beyond the
array. -/
theorem C79_one_stage_false : (start 1).doStep (gragg2 1 false) 1 = some (.error .ub) := by
  have key : (match (start 1).doStep (gragg2 1 false) 1 with
      | some (.error .ub) => true
      | _ => false) = true := by decide +kernel
  split at key
  · assumption
  · cases key

/-- C79 is false when the number of stages is raised between steps: the arrays are not
reallocated. -/
theorem C79_more_stages_false : ∃ s, (start 1).doStep (gragg2 2 true) 1 = some (.ok (.accepted s)) ∧
    s.doStep (gragg2 3 true) 1 = some (.error .ub) := by
  have key : (match (start 1).doStep (gragg2 2 true) 1 with
      | some (.ok (.accepted s)) => (match s.doStep (gragg2 3 true) 1 with
        | some (.error .ub) => true
        | _ => false)
      | _ => false) = true := by decide +kernel
  split at key
  · next s1 h1 =>
    split at key
    · next h2 => exact ⟨s1, h1, h2⟩
    · cases key
  · cases key

/-- C79 is false without a reference solver: `setInitialState` dereferences a null pointer,
although `doStep` would report the missing solver. -/
theorem C79_no_reference_false : ∃ m : ExMethod ℚ ℚ Unit (GrSt ℚ ℚ Unit) Nat, m.ref = none ∧
    (start 1).setInitialState m 0 1 false = .error .ub ∧
    (start 1).doStep m 1 = some (.error (.exc "Reference solver is not set")) :=
  ⟨{ gragg2 2 true with ref := none }, rfl, rfl, rfl⟩

/-- With no stages the "result" of a step is the zero vector. -/
theorem C79_no_stages_false : ∃ s, (start 1).doStep (gragg2 0 true) 1 = some (.ok (.accepted s)) ∧
    s.t = 1 ∧ s.x = 0 := by
  have key : (match (start 1).doStep (gragg2 0 true) 1 with
      | some (.ok (.accepted s)) => decide (s.t = 1 ∧ s.x = 0)
      | _ => false) = true := by decide +kernel
  split at key
  · next s1 h1 => exact ⟨s1, h1, of_decide_eq_true key⟩
  · cases key

/-! ### C81 -/

/-- An event controller that remembers the state at the start of the first step since a reset. -/
def remember : EventCtl ℚ ℚ (Option ℚ) where
  reset _ := none
  atStepStart e x _ := .ok (some (e.getD x))
  atStepEnd e _ x2 t2 := .ok (e, x2, t2, Trunc.none)

section
variable {K V E S Q : Type} [Field K] [LinearOrder K] [AddCommGroup V] [Module K V]

/-- C81 for the extrapolator: `setInitialState` resets the event controller. (For the fixed-step
and embedded Runge-Kutta solvers as well.) Missing: false for the Gragg solver. -/
theorem C81_partial (m : ExMethod K V E S Q) (c : EventCtl K V E) (hc : m.ec = some c) (t : K)
    (x : V) (soft : Bool) (s s' : ExSt K V E S Q) (h : s.setInitialState m t x soft = .ok s') :
    s'.ec = c.reset s.ec := by
  unfold ExSt.setInitialState at h
  rw [hc] at h
  cases soft
  · cases hr : m.ref with
    | none => rw [hr] at h; cases h
    | some r => rw [hr] at h; cases h; rfl
  · cases h; rfl

theorem C81_rk_partial (m : Method K V E) (c : EventCtl K V E) (hc : m.ec = some c) (t : K) (x : V)
    (s : FixedSt K V E) : (s.setInitialState m t x).ec = c.reset s.ec := by
  unfold FixedSt.setInitialState
  rw [hc]

end

/-- C81 is false for the Gragg solver: after a step from 3, `setInitialState 0 5` and another step
the event controller still works with the state of the first run. -/
theorem C81_gragg_false : ∃ s1 s2, (GrSt.setInitialStepSize 1 (GrSt.setInitialState 0 3
      (⟨0, 0, 0, 0, false, 0, none, []⟩ : GrSt ℚ ℚ (Option ℚ)))).doStep ⟨fun _ x => x, some remember, false⟩
        = .ok s1 ∧
    (s1.setInitialState 0 5).doStep ⟨fun _ x => x, some remember, false⟩ = .ok s2 ∧
    s2.ec = some 3 := by
  obtain ⟨s1, h1, h2⟩ := exists_of_test
    (r := (GrSt.setInitialStepSize 1 (GrSt.setInitialState 0 3
      (⟨0, 0, 0, 0, false, 0, none, []⟩ : GrSt ℚ ℚ (Option ℚ)))).doStep ⟨fun _ x => x, some remember, false⟩)
    (p := fun s => match (s.setInitialState 0 5).doStep ⟨fun _ x => x, some remember, false⟩ with
      | .ok s2 => decide (s2.ec = some 3)
      | .error _ => false) (by decide +kernel)
  cases h3 : (s1.setInitialState 0 5).doStep ⟨fun _ x => x, some remember, false⟩ with
  | error e => rw [h3] at h2; cases h2
  | ok s2 =>
    rw [h3] at h2
    exact ⟨s1, s2, h1, h3, of_decide_eq_true h2⟩

/-! ### C78 -/

section
variable {F E S Q : Type} [NormedAddCommGroup F] [NormedSpace ℝ F] [CompleteSpace F]
open Asymptotics Topology

/-- The extrapolator `m` for the right-hand side `f` has order `q`: the state after an accepted
step from `(t₀, x₀)` is a function of the step made, with the local error of a method of
order `q`. `S0` says which solver states are considered. -/
def ExHasOrder (m : ExMethod ℝ F E S Q) (f : ℝ → F → F) (S0 : ExSt ℝ F E S Q → Prop) (q : Nat) :
    Prop :=
  ∀ (t₀ : ℝ) (x₀ : F) (_ : ContDiffAt ℝ q (fun z : ℝ × F => f z.1 z.2) (t₀, x₀))
    (y : ℝ → F) (_ : y t₀ = x₀) (_ : ∀ᶠ t in 𝓝 t₀, HasDerivAt y (f t (y t)) t),
    ∃ X : ℝ → F, (fun h => X h - y (t₀ + h)) =O[𝓝 0] (fun h => h ^ (q + 1)) ∧
      ∀ s s' fuel, S0 s → s.t = t₀ → s.x = x₀ → s.doStep m fuel = some (.ok (.accepted s')) →
        s'.x = X (s'.t - s.t)

/-- C78, first kind: extrapolation in `1/n` of any consistent explicit Runge-Kutta method that
declares order 1 (such as the Euler method), with any number of stages and any of the step sequences, has the order
reported by `order`. Missing: `order` is wrong for references of higher order and for symmetric
references without the flag, see `C78_false`. -/
theorem C78_rk_partial (T : Tableau ℝ) (hs : 1 ≤ T.s) (h0 : T.c 0 = 0)
    (hrow : ∀ l, l < T.s → T.c l = ∑ j ∈ range l, T.a l j) (hb1 : ∑ l ∈ range T.s, T.b 0 l = 1)
    {E0 : Type} (g : Method ℝ F E0) (hco : g.co = T.pack 1 (-1)) (hgec : g.ec = none)
    (m : ExMethod ℝ F E (FixedSt ℝ F E0) Q) (href : m.ref = some (g.ref 1)) (hec : m.ec = none)
    (sq : StepSeq Q) (hsq : m.seq = some sq) (b : Nat → Nat) (B : Nat) (hg : Gives sq b B)
    (h1 : 1 ≤ m.maxStages) (h2 : m.disableErrorCheck = true ∨ 2 ≤ m.maxStages)
    (h3 : m.maxStages ≤ B) (hsym : m.symmetric = false) :
    m.order = m.maxStages ∧ ExHasOrder m g.rhs (Fits b m.maxStages) m.order.toNat := by
  have hord : m.order = m.maxStages := by
    unfold ExMethod.order
    rw [href, hsym]
    simp [Method.ref]
  refine ⟨hord, ?_⟩
  rw [hord, Int.toNat_natCast]
  intro t₀ x₀ hf y hy0 hy
  have hsane : Sane m (g.ref 1) (rkIter T g.rhs) sq b B :=
    ⟨href, hsq, behaves_rk T g 1 hs h0 hco hgec, hg, h1, h2, h3⟩
  refine ⟨extrapolated false b (rkIter T g.rhs) 0 m.maxStages t₀ x₀, ?_, ?_⟩
  · have := rk_extrapolated_order T hs hrow hb1 b hg.mono hg.pos 0 m.maxStages h1 hf y hy0 hy
    simpa using this
  · intro s s' fuel hfit ht hx hstep
    obtain ⟨A, k1, _, k2⟩ := doStep_ok hsane hec fuel s hfit _ hstep
    cases k1
    have := k2 s' rfl
    rw [hsym] at this
    rw [this, ht, hx]

/-- C78, second kind: extrapolation in `1/n²` of the Gragg method, smoothed or not, with any number
of stages and any of the step sequences, has the order reported by `order`. Missing: see
`C78_rk_partial`. -/
theorem C78_gragg_partial {E0 : Type} (g : GrMethod ℝ F E0) (hgec : g.ec = none)
    (m : ExMethod ℝ F E (GrSt ℝ F E0) Q) (href : m.ref = some g.ref) (hec : m.ec = none)
    (sq : StepSeq Q) (hsq : m.seq = some sq) (b : Nat → Nat) (B : Nat) (hg : Gives sq b B)
    (h1 : 1 ≤ m.maxStages) (h2 : m.disableErrorCheck = true ∨ 2 ≤ m.maxStages)
    (h3 : m.maxStages ≤ B) (hsym : m.symmetric = true) :
    m.order = 2 * m.maxStages ∧ ExHasOrder m g.rhs (Fits b m.maxStages) m.order.toNat := by
  have hord : m.order = ((2 * m.maxStages : Nat) : Int) := by
    unfold ExMethod.order
    rw [href, hsym]
    simp only [GrMethod.ref, if_true]
    push_cast
    ring
  refine ⟨by rw [hord]; push_cast; rfl, ?_⟩
  rw [hord, Int.toNat_natCast]
  intro t₀ x₀ hf y hy0 hy
  have hsane : Sane m g.ref (graggValue g.smooth g.rhs) sq b B :=
    ⟨href, hsq, behaves_gragg g hgec, hg, h1, h2, h3⟩
  refine ⟨extrapolated true b (graggValue g.smooth g.rhs) 0 m.maxStages t₀ x₀, ?_, ?_⟩
  · have := gragg_extrapolated_order g.smooth b hg.mono hg.pos 0 m.maxStages h1
      (f := g.rhs) (x₀ := x₀) (t₀ := t₀) (by simpa using hf) y hy0 hy
    simpa using this
  · intro s s' fuel hfit ht hx hstep
    obtain ⟨A, k1, _, k2⟩ := doStep_ok hsane hec fuel s hfit _ hstep
    cases k1
    have := k2 s' rfl
    rw [hsym] at this
    rw [this, ht, hx]

/-- The steps spoken of in C78 exist: without the error check every step after a restart is
accepted and has the size asked for. -/
theorem C78_steps {V : Type} [AddCommGroup V] [Module ℝ V] {m : ExMethod ℝ V E S Q}
    {r : RefSolver ℝ V S} {Φ : ℝ → V → ℝ → Nat → V}
    {sq : StepSeq Q} {b : Nat → Nat} {B : Nat} (hm : Sane m r Φ sq b B) (hec : m.ec = none)
    (hd : m.disableErrorCheck = true) (t₀ h : ℝ) (x₀ : V) (s0 : ExSt ℝ V E S Q) :
    ∃ s s', (s0.setInitialStepSize h).setInitialState m t₀ x₀ false = .ok s ∧
      s.t = t₀ ∧ s.x = x₀ ∧ Fits b m.maxStages s ∧
      s.doStep m 1 = some (.ok (.accepted s')) ∧ s'.t = t₀ + h ∧
      s'.x = extrapolated m.symmetric b Φ 0 m.maxStages t₀ x₀ h := by
  have hset : ∃ s, (s0.setInitialStepSize h).setInitialState m t₀ x₀ false = .ok s ∧ s.t = t₀ ∧
      s.x = x₀ ∧ s.T = [] ∧ s.hInit = h := by
    unfold ExSt.setInitialState
    rw [hm.ref]
    exact ⟨_, rfl, rfl, rfl, rfl, rfl⟩
  obtain ⟨s, g1, g2, g3, g4, g5⟩ := hset
  obtain ⟨A, h1, _, _, h', hr, _, k, h2⟩ := pass_ok hm hec s (Or.inl g4)
  obtain ⟨s', hs', _⟩ := h2 hd
  have hh : h' = h := by
    rcases hr with ⟨_, e⟩ | ⟨e, _, _⟩
    · rw [e, g5]
    · rw [g4] at e
      have := hm.gives.le (m.maxStages - 1)
      simp at e
      omega
  obtain ⟨l1, l2, _⟩ := k s' hs'
  subst hs'
  refine ⟨s, s', g1, g2, g3, Or.inl g4, ?_, ?_, ?_⟩
  · rw [ExSt.doStep, h1]
  · rw [l1, g2, hh]
  · rw [l2, g2, g3, hh]

/-- A Gragg extrapolator with two stages as constructed by default (`symmetric` not set) on
`x' = x`. -/
noncomputable def asymmetric : ExMethod ℝ ℝ Unit (GrSt ℝ ℝ Unit) Nat where
  ref := some (⟨fun _ x => x, none, false⟩ : GrMethod ℝ ℝ Unit).ref
  seq := some harmonic
  ec := none
  symmetric := false
  disableErrorCheck := true
  maxStages := 2
  hMin := 0
  norm x := |x|
  control h _ _ := ⟨h, true, false⟩

theorem asymmetric_value (h : ℝ) :
    extrapolated false harmonicNo (graggValue false (fun (_ : ℝ) (x : ℝ) => x)) 0 2 0 1 h
      = 1 + h + h ^ 2 / 2 + h ^ 3 / 4 + h ^ 4 / 16 := by
  unfold extrapolated
  have hinj := node_inj false harmonicNo harmonicNo_strictMono (by decide) (Ico 0 2)
  have := extrap_poly (Ico 0 2) (fun m => (node false (harmonicNo m) : ℝ)) hinj
    (fun j => if j = 0 then 1 + h + h ^ 2 / 2 + h ^ 3 / 4 + h ^ 4 / 16 else -(h ^ 3 / 4 + h ^ 4 / 16))
    2 (by decide) (by decide)
  rw [if_pos rfl] at this
  rw [← this]
  apply extrap_congr
  intro m hm
  rw [mem_Ico] at hm
  have hm' : m = 0 ∨ m = 1 := by omega
  rw [sum_range_succ, sum_range_succ, sum_range_zero]
  rcases hm' with rfl | rfl
  · simp [graggValue, leapfrog, harmonicNo, node]
    ring
  · simp [graggValue, leapfrog, harmonicNo, node]
    ring

/-- C78 is false: the extrapolator of the Gragg method with two stages and the flag `symmetric` off,
the default, reports order 3 but has order 2 only. -/
theorem C78_false : asymmetric.order = 3 ∧
    ¬ ExHasOrder asymmetric (fun _ x => x) (Fits harmonicNo 2) 3 := by
  refine ⟨by unfold ExMethod.order asymmetric; decide, fun hord => ?_⟩
  obtain ⟨X, hX, hstep⟩ := hord 0 1 contDiffAt_snd Real.exp Real.exp_zero
    (Filter.Eventually.of_forall (fun t => Real.hasDerivAt_exp t))
  have hsane : Sane asymmetric (⟨fun _ x => x, none, false⟩ : GrMethod ℝ ℝ Unit).ref
      (graggValue false (fun _ x => x)) harmonic harmonicNo (2 ^ 31 - 2) :=
    ⟨rfl, rfl, behaves_gragg ⟨fun _ x => x, none, false⟩ rfl, gives_harmonic, by decide, Or.inl rfl,
      by decide⟩
  have hval : ∀ h, X h = 1 + h + h ^ 2 / 2 + h ^ 3 / 4 + h ^ 4 / 16 := by
    intro h
    obtain ⟨s, s', _, k2, k3, k4, k5, k6, k7⟩ := C78_steps hsane rfl rfl 0 h 1
      ⟨0, 0, none, [], [], 0, ⟨0, 0, 0, 0, false, 0, (), []⟩, 1, (), []⟩
    have := hstep s s' 1 k4 k2 k3 k5
    rw [k6, k2, zero_add, sub_zero] at this
    rw [← this, k7]
    exact asymmetric_value h
  have hexp := Real.exp_sub_sum_range_isBigO_pow 4
  have hdiff : (fun h : ℝ => h ^ 3 / 12 + h ^ 4 / 16) =O[𝓝 0] (fun h => h ^ 4) := by
    refine (hX.add hexp).congr_left (fun h => ?_)
    rw [hval, zero_add]
    simp [sum_range_succ, Nat.factorial]
    ring
  have hcub : (fun h : ℝ => h ^ 3) =O[𝓝 0] (fun h => h ^ 4) := by
    have h4 : (fun h : ℝ => h ^ 4 / 16) =O[𝓝 0] (fun h => h ^ 4) := by
      refine (isBigO_refl (fun h : ℝ => h ^ 4) (𝓝 0)).const_mul_left (1 / 16) |>.congr_left ?_
      intro h; ring
    refine ((hdiff.sub h4).const_mul_left 12).congr_left (fun h => ?_)
    ring
  obtain ⟨c, hc⟩ := hcub.bound
  obtain ⟨ε, hε, hball⟩ := Metric.eventually_nhds_iff_ball.1 hc
  obtain ⟨c', hc'⟩ : ∃ c', c' = max c 1 := ⟨_, rfl⟩
  have hc1 : 1 ≤ c' := by rw [hc']; exact le_max_right _ _
  obtain ⟨d, hd⟩ : ∃ d, d = min (ε / 2) (1 / (2 * c')) := ⟨_, rfl⟩
  have hd0 : 0 < d := by rw [hd]; positivity
  have hdb : d ∈ Metric.ball (0 : ℝ) ε := by
    rw [Metric.mem_ball, dist_zero_right, Real.norm_eq_abs, abs_of_pos hd0, hd]
    exact lt_of_le_of_lt (min_le_left _ _) (by linarith)
  have := hball d hdb
  rw [norm_pow, norm_pow, Real.norm_eq_abs, abs_of_pos hd0] at this
  have h5 : d * c' ≤ 1 / 2 := by
    have : d ≤ 1 / (2 * c') := by rw [hd]; exact min_le_right _ _
    calc d * c' ≤ 1 / (2 * c') * c' := by gcongr
      _ = 1 / 2 := by field_simp
  have h6 : c * d ^ 4 ≤ d ^ 3 * (d * c') := by
    have : c ≤ c' := by rw [hc']; exact le_max_left _ _
    calc c * d ^ 4 ≤ c' * d ^ 4 := by gcongr
      _ = _ := by ring
  have h7 : d ^ 3 * (d * c') ≤ d ^ 3 * (1 / 2) := by gcongr
  have h8 : 0 < d ^ 3 := by positivity
  linarith

end

end Verif.Extrap
