import Verif.Event.Props
import Verif.RK.FixedProps

/-! # Steps of the event controller and of the solver with fixed steps, for C134 -/

set_option linter.unusedSectionVars false

namespace Verif.Event

open Verif.Res Verif.RK

/-! ### Steps of the controller -/

section
variable {K V Q : Type} [Field K] [LinearOrder K] [IsStrictOrderedRing K]
  [AddCommGroup V] [Module K V]

/-- An event function with flags `f` has, at the start of a run, a value from which its crossing of zero is watched. -/
def Watched (f : Nat) (z : K) : Prop :=
  (f &&& 3 = 1 ∧ 0 < z) ∨ (f &&& 3 = 2 ∧ z < 0) ∨ (f &&& 3 = 3 ∧ z ≠ 0)

theorem watched_cross {f : Nat} {z z' : K} (h : Watched f z) : Crosses f (sFlag z f) z' ↔ z * z' ≤ 0 := by
  unfold Crosses sFlag
  rcases h with ⟨hf, hz⟩ | ⟨hf, hz⟩ | ⟨hf, hz⟩
  · rw [if_pos hf, if_neg (not_le.2 hz)]
    simp only [hf, true_and, OfNat.one_ne_ofNat, false_and, or_false, one_ne_zero]
    constructor
    · intro h; exact mul_nonpos_of_nonneg_of_nonpos hz.le h
    · intro h; by_contra hc; exact absurd (mul_pos hz (not_le.1 hc)) (not_lt.2 h)
  · rw [if_neg (by omega), if_pos hf, if_neg (not_le.2 hz)]
    simp only [hf, true_and, OfNat.ofNat_ne_one, false_and, or_false, false_or, neg_eq_zero, one_ne_zero,
      Nat.reduceEqDiff]
    constructor
    · intro h; exact mul_nonpos_of_nonpos_of_nonneg hz.le h
    · intro h; by_contra hc; exact absurd (mul_pos_of_neg_of_neg hz (not_le.1 hc)) (not_lt.2 h)
  · rw [if_neg (by omega), if_neg (by omega), if_pos hf]
    simp only [hf, true_and, OfNat.ofNat_ne_one, false_and, false_or, Nat.reduceEqDiff]
    unfold sgn
    rcases lt_or_gt_of_ne hz with hz | hz
    · rw [if_pos hz]
      simp only [and_true, Int.reduceNeg, neg_eq_zero, one_ne_zero, and_false, or_false,
        not_lt, show ((-1 : Int) = 1) = False by simp]
      constructor
      · intro h; exact mul_nonpos_of_nonpos_of_nonneg hz.le h
      · intro h; by_contra hc; exact absurd (mul_pos_of_neg_of_neg hz (not_le.1 hc)) (not_lt.2 h)
    · rw [if_neg (not_lt.2 hz.le), if_pos hz]
      simp only [and_true, one_ne_zero, and_false, false_or, not_lt, show ((1 : Int) = -1) = False by simp]
      constructor
      · intro h; exact mul_nonpos_of_nonneg_of_nonpos hz.le h
      · intro h; by_contra hc; exact absurd (mul_pos hz (not_le.1 hc)) (not_lt.2 h)

/-- The controller watches the functions with the signs they had with the values `z0`, and knows their values at `(t, x)`. -/
structure Watches (r : EvRhs K V Q) (n : Nat) (q : Q) (z0 : Nat → K) (e : Ctl K) (t : K) (x : V) : Prop where
  armed : Armed e n
  flags : e.flags = r.zeroFuncFlags q
  state : ∀ i, i < n → e.state.getD i 0 = sFlag (z0 i) ((r.zeroFuncFlags q).getD i 0)
  zf1 : e.zf1 = r.zeroFunctions q t x

variable {r : EvRhs K V Q} {n : Nat} {q : Q} {z0 : Nat → K} {e : Ctl K}

theorem start_clean (hlen : ∀ q t x, (r.zeroFunctions q t x).length = n) (hn : 0 < n) (hcount : r.zeroFuncCount q = n)
    (hflags : (r.zeroFuncFlags q).length = n) {t : K} {x : V} (hc : e.clean = true)
    (hw : ∀ i, i < n → Watched ((r.zeroFuncFlags q).getD i 0) ((r.zeroFunctions q t x).getD i 0)) :
    ∃ e', e.atStepStart r q x t = .ok e' ∧ e'.t1 = t ∧
      Watches r n q (fun i => (r.zeroFunctions q t x).getD i 0) e' t x := by
  obtain ⟨e1, a1, -, -, a4, a5, -, -, a8, a9⟩ := atStepStart_clean r q e x t hc hn hcount hflags (hlen _ _ _)
  obtain ⟨e2, b1, b2, b3⟩ := atStepStart_armed r hlen q e x t (.inl ⟨hc, hn, hcount, hflags, fun i hi => by
    rcases hw i hi with ⟨h1, h2⟩ | ⟨h1, h2⟩ | ⟨h1, h2⟩
    · exact ⟨by omega, fun _ => h2.le, fun h => by omega⟩
    · exact ⟨by omega, fun h => by omega, fun _ => h2.le⟩
    · exact ⟨by omega, fun h => by omega, fun h => by omega⟩⟩)
  rw [a1] at b1
  cases b1
  exact ⟨e1, a1, a8, b2, a5, a9, a4⟩

theorem start_watching {t : K} {x : V} (h : Watches r n q z0 e t x) :
    ∃ e', e.atStepStart r q x t = .ok e' ∧ e'.t1 = t ∧ Watches r n q z0 e' t x := by
  refine ⟨{ e with t1 := t }, ?_, rfl, ?_⟩
  · unfold Ctl.atStepStart
    rw [if_neg (by simp [h.armed.clean])]
  · exact ⟨⟨h.armed.clean, h.armed.haveZf, h.armed.pos, h.armed.zf1, h.armed.flags, h.armed.state, h.armed.haveRec,
      h.armed.side⟩, h.flags, h.state, h.zf1⟩

theorem Watches.crosses (hw : ∀ i, i < n → Watched ((r.zeroFuncFlags q).getD i 0) (z0 i)) {t : K} {x : V}
    (h : Watches r n q z0 e t x) {i : Nat} (hi : i < n) (z : K) :
    Crosses (e.flags.getD i 0) (e.state.getD i 0) z ↔ z0 i * z ≤ 0 := by
  rw [h.flags, h.state i hi]
  exact watched_cross (hw i hi)

/-- No function leaves its side: the step is not touched. -/
theorem end_quiet (hlen : ∀ q t x, (r.zeroFunctions q t x).length = n)
    (hw : ∀ i, i < n → Watched ((r.zeroFuncFlags q).getD i 0) (z0 i)) {t t2 : K} {x x2 : V}
    (h : Watches r n q z0 e t x) (hno : ∀ i, i < n → 0 < z0 i * (r.zeroFunctions q t2 x2).getD i 0) :
    ∃ e', e.atStepEnd r q x x2 t2 = .ok ((e', q), x2, t2, Trunc.none) ∧ Watches r n q z0 e' t2 x2 := by
  have ho := C42_partial r n hlen q e h.armed x x2 t2
  generalize hres : e.atStepEnd r q x x2 t2 = res at ho
  cases ho with
  | quiet e' h1 h2 h3 h4 h5 =>
    exact ⟨e', rfl, h2, h4.trans h.flags, fun i hi => by rw [h5]; exact h.state i hi, h3⟩
  | event e' i τ q' y h1 h2 => exact absurd (hno i h1) (not_lt.2 ((h.crosses hw h1 _).1 h2))
  | zeroByZero i h1 h2 => exact absurd (hno i h1) (not_lt.2 ((h.crosses hw h1 _).1 h2))
  | landing i h1 h2 => exact absurd (hno i h1) (not_lt.2 ((h.crosses hw h1 _).1 h2))

/-- One function leaves its side: the step is cut where the linear interpolant of this function is zero. -/
theorem end_event (hlen : ∀ q t x, (r.zeroFunctions q t x).length = n)
    (hw : ∀ i, i < n → Watched ((r.zeroFuncFlags q).getD i 0) (z0 i)) {t t2 : K} {x x2 : V}
    (h : Watches r n q z0 e t x) (ht : e.t1 = t) {i : Nat} (hi : i < n)
    (hno : ∀ j, j < n → j ≠ i → 0 < z0 j * (r.zeroFunctions q t2 x2).getD j 0)
    (hx : z0 i * (r.zeroFunctions q t2 x2).getD i 0 < 0) :
    ∃ (e' : Ctl K) (θ : K) (q' : Q) (x' : V), 0 ≤ θ ∧ θ ≤ 1 ∧
      (1 - θ) * (r.zeroFunctions q t x).getD i 0 + θ * (r.zeroFunctions q t2 x2).getD i 0 = 0 ∧
      r.switchPhaseState q ((List.replicate n 0).set i (sgn ((r.zeroFunctions q t2 x2).getD i 0)))
        (t + θ * (t2 - t)) ((1 - θ) • x + θ • x2) = (q', x') ∧
      e.atStepEnd r q x x2 t2 = .ok ((e', q'), x', t + θ * (t2 - t),
        ⟨true, some i, sgn ((r.zeroFunctions q t2 x2).getD i 0)⟩) := by
  have ho := C42_partial r n hlen q e h.armed x x2 t2
  have only : ∀ j, j < n → Crosses (e.flags.getD j 0) (e.state.getD j 0) ((r.zeroFunctions q t2 x2).getD j 0) → j = i := by
    intro j hj hc
    by_contra hne
    exact absurd (hno j hj hne) (not_lt.2 ((h.crosses hw hj _).1 hc))
  generalize hres : e.atStepEnd r q x x2 t2 = res at ho
  cases ho with
  | quiet e' h1 h2 h3 h4 h5 => exact absurd ((h.crosses hw hi _).2 hx.le) (h1 i hi)
  | event e' j τ q' y h1 h2 h3 h4 h5 h6 h7 =>
    obtain rfl := only j h1 h2
    rw [ht] at h7 ⊢
    rw [h.zf1] at h5
    exact ⟨e', τ, q', y, h3, h4.le, h5, h7, rfl⟩
  | zeroByZero j h1 h2 h3 h4 =>
    obtain rfl := only j h1 h2
    rw [h4] at hx
    simp at hx
  | landing j h1 h2 h3 =>
    obtain rfl := only j h1 h2
    have := (h3 j h1 h2).1
    rw [this] at hx
    simp at hx

/-- One function reaches zero just at the end of the step: the controller throws. -/
theorem end_landing (hlen : ∀ q t x, (r.zeroFunctions q t x).length = n)
    (hw : ∀ i, i < n → Watched ((r.zeroFuncFlags q).getD i 0) (z0 i)) {t t2 : K} {x x2 : V}
    (h : Watches r n q z0 e t x) {i : Nat} (hi : i < n)
    (hno : ∀ j, j < n → j ≠ i → 0 < z0 j * (r.zeroFunctions q t2 x2).getD j 0)
    (hpos : (r.zeroFunctions q t x).getD i 0 ≠ 0) (hx : (r.zeroFunctions q t2 x2).getD i 0 = 0) :
    e.atStepEnd r q x x2 t2 = .error (.exc "out_of_range") := by
  have ho := C42_partial r n hlen q e h.armed x x2 t2
  have only : ∀ j, j < n → Crosses (e.flags.getD j 0) (e.state.getD j 0) ((r.zeroFunctions q t2 x2).getD j 0) → j = i := by
    intro j hj hc
    by_contra hne
    exact absurd (hno j hj hne) (not_lt.2 ((h.crosses hw hj _).1 hc))
  generalize hres : e.atStepEnd r q x x2 t2 = res at ho
  cases ho with
  | quiet e' h1 h2 h3 h4 h5 => exact absurd ((h.crosses hw hi _).2 (by rw [hx]; simp)) (h1 i hi)
  | event e' j τ q' y h1 h2 h3 h4 h5 h6 h7 =>
    obtain rfl := only j h1 h2
    rw [hx, mul_zero, add_zero, h.zf1] at h5
    rcases mul_eq_zero.1 h5 with h | h
    · exact absurd h4 (not_lt.2 (by linarith))
    · exact absurd h hpos
  | zeroByZero j h1 h2 h3 h4 =>
    obtain rfl := only j h1 h2
    rw [h.zf1] at h3
    exact absurd h3 hpos
  | landing j h1 h2 h3 => rfl

end

/-! ### Steps of the fixed-step solver -/

section
variable {R V E : Type} [CommRing R] [DecidableEq R] [AddCommGroup V] [Module R V]

/-- The solver will use, or uses, the step size `h`. -/
def Ready (T : Tableau R) (h : R) (s : FixedSt R V E) : Prop :=
  (s.out.k = [] ∧ s.hInit = h) ∨ (s.h = some h ∧ s.out.k.length = T.s ∧ s.out.x2.length = 1)

/-- A step with any event controller: the state proposed by the method is handed to it, and what it returns becomes the new
state. -/
theorem doStep_ec {T : Tableau R} {m : Method R V E} (hs : 1 ≤ T.s) (h0 : T.c 0 = 0) (hco : m.co = T.pack 1 (-1))
    {s : FixedSt R V E} {h : R} (hR : Ready T h s) {e1 : E} (he : ecStart m s.ec s.x s.t = .ok e1) :
    ∃ mk : E × V × R × Trunc → FixedSt R V E,
      (∀ a, (mk a).ec = a.1 ∧ (mk a).x = a.2.1 ∧ (mk a).t = a.2.2.1 ∧ Ready T h (mk a)) ∧
      s.doStep m = (ecEnd m e1 s.x (T.output m.rhs s.t h s.x 0) (s.t + h)).bind (fun a => .ok (mk a)) := by
  have hc1 : (T.pack 1 (-1)).c.length + 1 = T.s := by simp [Tableau.pack]; omega
  obtain ⟨si, hsi⟩ : ∃ si, FixedSt.initStep m { s with log := .pre s.h :: s.log } = si := ⟨_, rfl⟩
  have hst : si.t = s.t ∧ si.x = s.x ∧ si.h = some h ∧ si.out.k.length = T.s ∧ si.out.x2.length = 1 ∧ si.ec = s.ec := by
    unfold FixedSt.initStep at hsi
    rcases hR with ⟨hk, hh⟩ | ⟨b1, b2, b3⟩
    · rw [if_pos (by simp [hk])] at hsi
      subst hsi
      refine ⟨rfl, rfl, by simp [hh], ?_, by simp [Output.mk'], rfl⟩
      simp only [Output.mk', List.length_replicate, hco, hc1]
    · have hne : ¬ s.out.k.isEmpty = true := by
        rw [List.isEmpty_iff]
        intro h
        rw [h] at b2
        simp at b2
        omega
      rw [if_neg (by simpa using hne)] at hsi
      subst hsi
      exact ⟨rfl, rfl, b1, b2, b3, rfl⟩
  obtain ⟨g1, g2, g4, g5, g6, g7⟩ := hst
  obtain ⟨o', k1, k2, k3, _, k5⟩ := compute_tableau si.out T m.co m.rhs si.x si.t h
    (by rw [hco, g6]; exact pack_sizes T _ _ hs) g5
    (fun i j hi hj => by rw [hco]; exact pack_A T _ _ hi hj)
    (fun ix i hx hi => by rw [hco]; exact pack_B T _ _ (by omega) hi)
    (fun i hi => by rw [hco]; exact pack_C T _ _ h0 hi)
  have hx2 := (k5 0 (by omega)).1 (by rw [hco]; simp [Tableau.pack])
  refine ⟨fun a => { si with
    t := a.2.2.1
    x := a.2.1
    out := { o' with x2 := o'.x2.set 0 si.x }
    ec := a.1
    log := .post h true false a.2.2.2 0 :: si.log }, fun a => ⟨rfl, rfl, rfl, .inr ⟨g4, k2, ?_⟩⟩, ?_⟩
  · simp only [List.length_set]; omega
  · unfold FixedSt.doStep
    rw [← g1, ← g2, ← g7] at he
    simp only [hsi, he, bind_ok, g4, readH, k1, raw_of_getElem? hx2]
    rw [← g1, ← g2]
    cases ecEnd m e1 si.x (T.output m.rhs si.t h si.x 0) (si.t + h) with
    | error err => rfl
    | ok a =>
      simp only [bind_ok, Except.bind]
      unfold rawSet
      rw [if_pos (by omega)]
      simp only [bind_ok]

end

/-! ### Runs of the fixed-step solver up to the first event -/

section
variable {K V Q : Type} [Field K] [LinearOrder K] [IsStrictOrderedRing K]
  [AddCommGroup V] [Module K V]

/-- A run of steps of the size `h`: `xs` are the states of the method. The functions keep the signs they have at the start for `k`
steps, and in the next one all but function `i` do. -/
theorem run_event {T : Tableau K} (hT1 : 1 ≤ T.s) (hT0 : T.c 0 = 0) {r : EvRhs K V Q} {n : Nat}
    (hlen : ∀ q t x, (r.zeroFunctions q t x).length = n) {q : Q} (hcount : r.zeroFuncCount q = n)
    (hflags : (r.zeroFuncFlags q).length = n) {m : Method K V (Ctl K × Q)} (hTm : m.co = T.pack 1 (-1))
    (hec : m.ec = some (controller r)) {g : Nat → K × V → K} (hg : ∀ j z, g j z = (r.zeroFunctions q z.1 z.2).getD j 0)
    {i : Nat} (hi : i < n) {t₀ h : K} {xs : Nat → V} (hxs : ∀ k : Nat, xs (k + 1) = T.output m.rhs (t₀ + k * h) h (xs k) 0)
    (hw : ∀ j < n, Watched ((r.zeroFuncFlags q).getD j 0) (g j (t₀, xs 0))) (k : Nat)
    (hpos : ∀ l : Nat, 0 < l → l ≤ k → ∀ j < n, 0 < g j (t₀, xs 0) * g j (t₀ + l * h, xs l))
    (hoth : ∀ j < n, j ≠ i → 0 < g j (t₀, xs 0) * g j (t₀ + (k + 1 : Nat) * h, xs (k + 1)))
    (hold : Option K) (e : Ctl K) (hclean : e.clean = true) :
    ∃ st : Nat → FixedSt K V (Ctl K × Q), st 0 = ⟨t₀, xs 0, hold, Output.mkEmpty, h, (e, q), []⟩ ∧
      (∀ l < k, (st l).doStep m = .ok (st (l + 1))) ∧
      (∀ l ≤ k, (st l).t = t₀ + l * h ∧ (st l).x = xs l ∧ (st l).ec.2 = q) ∧
      (g i (t₀, xs 0) * g i (t₀ + (k + 1 : Nat) * h, xs (k + 1)) < 0 → ∃ θ q' s', 0 ≤ θ ∧ θ ≤ 1 ∧
        (1 - θ) * g i (t₀ + k * h, xs k) + θ * g i (t₀ + (k + 1 : Nat) * h, xs (k + 1)) = 0 ∧
        r.switchPhaseState q ((List.replicate n 0).set i (if 0 < g i (t₀, xs 0) then -1 else 1)) (t₀ + k * h + θ * h)
          ((1 - θ) • xs k + θ • xs (k + 1)) = (q', s'.x) ∧
        (st k).doStep m = .ok s' ∧ s'.t = t₀ + k * h + θ * h ∧ s'.ec.2 = q') ∧
      (g i (t₀ + (k + 1 : Nat) * h, xs (k + 1)) = 0 → ∃ s', (st k).doStep { m with ec := none } = .ok s' ∧
        s'.t = t₀ + (k + 1 : Nat) * h ∧ s'.x = xs (k + 1) ∧ (st k).doStep m = .error (.exc "out_of_range")) := by
  have hn : 0 < n := by omega
  set z0 : Nat → K := fun j => g j (t₀, xs 0) with hz0
  have hw0 : ∀ j, j < n → Watched ((r.zeroFuncFlags q).getD j 0) (z0 j) := hw
  have hgz : ∀ j t x, (r.zeroFunctions q t x).getD j 0 = g j (t, x) := fun j t x => (hg j (t, x)).symm
  have hpos' : ∀ l : Nat, l ≤ k → ∀ j < n, 0 < z0 j * g j (t₀ + l * h, xs l) := by
    intro l hl j hj
    rcases Nat.eq_zero_or_pos l with h0 | h0
    · subst h0
      rw [Nat.cast_zero, zero_mul, add_zero]
      have hne : z0 j ≠ 0 := by
        rcases hw j hj with ⟨-, h2⟩ | ⟨-, h2⟩ | ⟨-, h2⟩
        · exact h2.ne'
        · exact h2.ne
        · exact h2
      exact mul_self_pos.2 hne
    · exact hpos l h0 hl j hj
  -- one step up to the end of which the controller is called
  have start : ∀ st : FixedSt K V (Ctl K × Q), ∀ j : Nat, st.t = t₀ + j * h → st.x = xs j → st.ec.2 = q →
      (j = 0 ∧ st.ec.1.clean = true ∨ Watches r n q z0 st.ec.1 st.t st.x) →
      ∃ e1, ecStart m st.ec st.x st.t = .ok (e1, q) ∧ e1.t1 = st.t ∧ Watches r n q z0 e1 st.t st.x := by
    intro st j ht hx hq hcase
    have : ∃ e1, st.ec.1.atStepStart r q st.x st.t = .ok e1 ∧ e1.t1 = st.t ∧ Watches r n q z0 e1 st.t st.x := by
      rcases hcase with ⟨rfl, hcl⟩ | hW
      · have ht' : st.t = t₀ := by rw [ht]; simp
        have hx' : st.x = xs 0 := hx
        obtain ⟨e1, a1, a2, a3⟩ := start_clean (e := st.ec.1) (t := st.t) (x := st.x) hlen hn hcount hflags hcl
          (fun j hj => by rw [hgz, ht', hx']; exact hw j hj)
        refine ⟨e1, a1, a2, a3.armed, a3.flags, fun j hj => ?_, a3.zf1⟩
        rw [a3.state j hj, hgz, ht', hx']
      · exact start_watching hW
    obtain ⟨e1, a1, a2, a3⟩ := this
    refine ⟨e1, ?_, a2, a3⟩
    unfold ecStart
    rw [hec]
    simp only [controller, hq, a1, bind_ok]
  have quietRun : ∀ j ≤ k, ∃ st : Nat → FixedSt K V (Ctl K × Q), st 0 = ⟨t₀, xs 0, hold, Output.mkEmpty, h, (e, q), []⟩ ∧
      (∀ l < j, (st l).doStep m = .ok (st (l + 1))) ∧
      (∀ l ≤ j, (st l).t = t₀ + l * h ∧ (st l).x = xs l ∧ (st l).ec.2 = q) ∧
      Ready T h (st j) ∧ (j = 0 ∧ (st j).ec.1.clean = true ∨ Watches r n q z0 (st j).ec.1 (st j).t (st j).x) := by
    intro j
    induction j with
    | zero =>
      intro _
      refine ⟨fun _ => ⟨t₀, xs 0, hold, Output.mkEmpty, h, (e, q), []⟩, rfl, fun l hl => by omega, fun l hl => ?_,
        .inl ⟨rfl, rfl⟩, .inl ⟨rfl, hclean⟩⟩
      obtain rfl : l = 0 := by omega
      exact ⟨by simp, rfl, rfl⟩
    | succ j ih =>
      intro hj
      obtain ⟨st, b0, b1, b2, b3, b4⟩ := ih (by omega)
      obtain ⟨c1, c2, c3⟩ := b2 j le_rfl
      obtain ⟨e1, d1, d2, d3⟩ := start (st j) j c1 c2 c3 b4
      obtain ⟨mk, f1, f2⟩ := doStep_ec hT1 hT0 hTm b3 d1
      have et : (st j).t + h = t₀ + (j + 1 : Nat) * h := by rw [c1]; push_cast; ring
      have ex : T.output m.rhs (st j).t h (st j).x 0 = xs (j + 1) := by rw [c1, c2, hxs]
      rw [et, ex] at f2
      obtain ⟨e2, g1, g2⟩ := end_quiet (e := e1) (t2 := t₀ + (j + 1 : Nat) * h) (x2 := xs (j + 1)) hlen hw0 d3 (fun l hl => by
        rw [hgz]
        exact hpos' (j + 1) hj l hl)
      have hend : ecEnd m (e1, q) (st j).x (xs (j + 1)) (t₀ + (j + 1 : Nat) * h)
          = .ok ((e2, q), xs (j + 1), t₀ + (j + 1 : Nat) * h, Trunc.none) := by
        unfold ecEnd
        rw [hec]
        exact g1
      rw [hend] at f2
      simp only [Except.bind] at f2
      refine ⟨fun l => if l ≤ j then st l else mk ((e2, q), xs (j + 1), t₀ + (j + 1 : Nat) * h, Trunc.none), by simp [b0],
        fun l hl => ?_, fun l hl => ?_, ?_, .inr ?_⟩
      · by_cases hlj : l = j
        · subst hlj
          simp only [le_refl, if_true, show ¬ (l + 1 ≤ l) by omega, if_false]
          exact f2
        · simp only [show l ≤ j by omega, show l + 1 ≤ j by omega, if_true]
          exact b1 l (by omega)
      · by_cases hlj : l ≤ j
        · simp only [hlj, if_true]; exact b2 l hlj
        · obtain rfl : l = j + 1 := by omega
          simp only [hlj, if_false]
          obtain ⟨k1, k2, k3, k4⟩ := f1 ((e2, q), xs (j + 1), t₀ + (j + 1 : Nat) * h, Trunc.none)
          exact ⟨k3, k2, by rw [k1]⟩
      · simp only [show ¬ (j + 1 ≤ j) by omega, if_false]
        exact (f1 _).2.2.2
      · simp only [show ¬ (j + 1 ≤ j) by omega, if_false]
        obtain ⟨k1, k2, k3, k4⟩ := f1 ((e2, q), xs (j + 1), t₀ + (j + 1 : Nat) * h, Trunc.none)
        rw [k1, k2, k3]
        exact g2
  obtain ⟨st, b0, b1, b2, b3, b4⟩ := quietRun k le_rfl
  obtain ⟨c1, c2, c3⟩ := b2 k le_rfl
  obtain ⟨ee, d1, d2, d3⟩ := start (st k) k c1 c2 c3 b4
  obtain ⟨mk, f1, f2⟩ := doStep_ec hT1 hT0 hTm b3 d1
  have et : (st k).t + h = t₀ + (k + 1 : Nat) * h := by rw [c1]; push_cast; ring
  have ex : T.output m.rhs (st k).t h (st k).x 0 = xs (k + 1) := by rw [c1, c2, hxs]
  rw [et, ex] at f2
  have hoth' : ∀ j, j < n → j ≠ i → 0 < z0 j * (r.zeroFunctions q (t₀ + (k + 1 : Nat) * h) (xs (k + 1))).getD j 0 :=
    fun j hj hji => by rw [hgz]; exact hoth j hj hji
  refine ⟨st, b0, b1, b2, fun hlt => ?_, fun hzz => ?_⟩
  · obtain ⟨e2, θ, q', x', θ0, θ1, lin, sw, fin⟩ := end_event (e := ee) (t2 := t₀ + (k + 1 : Nat) * h) (x2 := xs (k + 1)) hlen
      hw0 d3 d2 hi hoth' (by rw [hgz]; exact hlt)
    rw [hgz, hgz, c1, c2] at lin
    have hstep : (t₀ + (k + 1 : Nat) * h : K) - (t₀ + k * h) = h := by push_cast; ring
    have hend : ecEnd m (ee, q) (st k).x (xs (k + 1)) (t₀ + (k + 1 : Nat) * h)
        = ee.atStepEnd r q (st k).x (xs (k + 1)) (t₀ + (k + 1 : Nat) * h) := by
      unfold ecEnd
      rw [hec]
      rfl
    rw [hend, fin] at f2
    simp only [Except.bind] at f2
    obtain ⟨k1, k2, k3, k4⟩ := f1 ((e2, q'), x', (st k).t + θ * (t₀ + (k + 1 : Nat) * h - (st k).t),
      ⟨true, some i, sgn ((r.zeroFunctions q (t₀ + (k + 1 : Nat) * h) (xs (k + 1))).getD i 0)⟩)
    have hτ : (st k).t + θ * (t₀ + (k + 1 : Nat) * h - (st k).t) = t₀ + k * h + θ * h := by rw [c1, hstep]
    have hsgn : sgn ((r.zeroFunctions q (t₀ + (k + 1 : Nat) * h) (xs (k + 1))).getD i 0)
        = if 0 < g i (t₀, xs 0) then -1 else 1 := by
      rw [hgz]
      unfold sgn
      by_cases hz : 0 < g i (t₀, xs 0)
      · rw [if_pos hz, if_pos]
        by_contra hc
        exact absurd (mul_nonneg hz.le (not_lt.1 hc)) (not_le.2 hlt)
      · have hpos : 0 < g i (t₀ + (k + 1 : Nat) * h, xs (k + 1)) := by
          by_contra hc
          exact absurd (mul_nonneg_of_nonpos_of_nonpos (not_lt.1 hz) (not_lt.1 hc)) (not_le.2 hlt)
        rw [if_neg hz, if_neg (not_lt.2 hpos.le), if_pos hpos]
    refine ⟨θ, q', mk _, θ0, θ1, lin, ?_, f2, ?_, ?_⟩
    · rw [k2, ← hsgn, ← hτ, ← c2]
      exact sw
    · rw [k3, ← hτ]
    · rw [k1]
  · have hprev : (r.zeroFunctions q (st k).t (st k).x).getD i 0 ≠ 0 := by
      rw [hgz, c1, c2]
      intro h1
      have := hpos' k le_rfl i hi
      rw [h1, mul_zero] at this
      exact lt_irrefl _ this
    have fin := end_landing (e := ee) (t2 := t₀ + (k + 1 : Nat) * h) (x2 := xs (k + 1)) hlen hw0 d3 hi hoth' hprev
      (by rw [hgz]; exact hzz)
    have hend : ecEnd m (ee, q) (st k).x (xs (k + 1)) (t₀ + (k + 1 : Nat) * h) = .error (.exc "out_of_range") := by
      unfold ecEnd
      rw [hec]
      exact fin
    rw [hend] at f2
    obtain ⟨mk', f1', f2'⟩ := doStep_ec (m := { m with ec := none }) (e1 := (st k).ec) hT1 hT0 hTm b3 rfl
    rw [et] at f2'
    change _ = (Except.ok ((st k).ec, T.output m.rhs (st k).t h (st k).x 0, t₀ + (k + 1 : Nat) * h, Trunc.none) : Res _).bind _ at f2'
    rw [ex] at f2'
    simp only [Except.bind] at f2'
    obtain ⟨k1, k2, k3, k4⟩ := f1' ((st k).ec, xs (k + 1), t₀ + (k + 1 : Nat) * h, Trunc.none)
    exact ⟨_, f2', k3, k2, f2⟩

end

end Verif.Event
