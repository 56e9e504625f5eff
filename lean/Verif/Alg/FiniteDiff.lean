import Verif.Alg.MapProps

/-! # Properties of the finite-difference Jacobian and of the normalizer -/

namespace Verif.Alg

open Verif.Res Verif.Vec

set_option linter.unusedSectionVars false

section
variable {K : Type} [Field K] [DecidableEq K]

/-- The vector `x` with `dx` added to component `i` -/
def bump (x : List K) (i : Nat) (dx : K) : List K := x.set i (x.getD i 0 + dx)

theorem getD_bump {x : List K} {i j : Nat} {dx : K} (hi : i < x.length) :
    (bump x i dx).getD j 0 = if j = i then x.getD i 0 + dx else x.getD j 0 := by
  unfold bump
  rw [getD_set hi]

theorem shifted_ok {x : List K} {i : Nat} {dx : K} (h : i < x.length) :
    shifted x i dx = .ok (bump x i dx) := by
  unfold shifted bump
  rw [at_lt h, bind_ok]
  unfold atSet
  rw [if_pos h]

/-- C82: the finite-difference Jacobian of any mapping: its size, and at every position the difference
quotient, stored exactly when it is not zero. -/
theorem C82_differences {F : Mapping K} {dx : K} (hdx : dx ≠ 0) {x0 f0 : List K} {f : Nat → List K}
    (hx : x0.length = F.inSize) (h0 : F.map x0 = .ok f0) (hl0 : f0.length = F.inSize)
    (hf : ∀ i, i < F.inSize → F.map (x0.set i (x0.getD i 0 + dx)) = .ok (f i) ∧
      (f i).length = F.inSize) :
    ∃ J, computeJacobian F dx x0 = .ok J ∧ J.size = (F.inSize, F.inSize) ∧ Sparse.Wf J ∧
      ∀ r c, J.data.find (r, c) = if r < F.inSize ∧ c < F.inSize ∧ (f c).getD r 0 - f0.getD r 0 ≠ 0
        then some (((f c).getD r 0 - f0.getD r 0) / dx) else none := by
  unfold computeJacobian
  obtain ⟨n, hn⟩ : ∃ n, F.inSize = n := ⟨_, rfl⟩
  rw [hn] at hx hl0 hf ⊢
  rw [h0, bind_ok]
  have hout := loop_post (lo := 0) (hi := n) (s := Sparse.Mat.ofSize (K := K) n n)
    (f := fun i J => do
      let x ← shifted x0 i dx
      let f ← F.map x
      loop 0 n (fun j J => do
        let a ← at' f j
        let b ← at' f0 j
        if a - b = 0 then .ok J
        else do
          let q ← Res.div (a - b) dx
          .ok { J with data := J.data.set (j, i) q }) J)
    (fun i J => J.size = (n, n) ∧ Sparse.Wf J ∧ ∀ r c, J.data.find (r, c)
      = if r < n ∧ c < i ∧ (f c).getD r 0 - f0.getD r 0 ≠ 0
        then some (((f c).getD r 0 - f0.getD r 0) / dx) else none)
    (E := fun _ => False) (Nat.zero_le _)
    ⟨rfl, ⟨List.Pairwise.nil, fun e he => by cases he⟩, fun r c => by
      rw [if_neg (by omega)]; rfl⟩ (by
      intro i J _ hi ⟨h1, h2, h3⟩
      rw [shifted_ok (by omega), bind_ok]
      unfold bump
      rw [(hf i hi).1, bind_ok]
      have hlen := (hf i hi).2
      refine Post.mono (loop_post (lo := 0) (hi := n) (s := J)
        (fun j J => J.size = (n, n) ∧ Sparse.Wf J ∧ ∀ r c, J.data.find (r, c)
          = if r < n ∧ (c < i ∨ (c = i ∧ r < j)) ∧ (f c).getD r 0 - f0.getD r 0 ≠ 0
            then some (((f c).getD r 0 - f0.getD r 0) / dx) else none)
        (E := fun _ => False) (Nat.zero_le _) ⟨h1, h2, fun r c => by
          rw [h3 r c]
          simp⟩ ?_) ?_ (fun _ h => h)
      · intro j J _ hj ⟨g1, g2, g3⟩
        rw [at_lt (by omega), bind_ok, at_lt (by omega), bind_ok]
        by_cases hz : (f i).getD j 0 - f0.getD j 0 = 0
        · rw [if_pos hz]
          refine ⟨g1, g2, fun r c => ?_⟩
          rw [g3 r c]
          by_cases hrc : r = j ∧ c = i
          · obtain ⟨rfl, rfl⟩ := hrc
            rw [if_neg (fun h => h.2.2 hz), if_neg (fun h => h.2.2 hz)]
          · have : (c < i ∨ (c = i ∧ r < j)) ↔ (c < i ∨ (c = i ∧ r < j + 1)) := by omega
            simp only [this]
        · rw [if_neg hz]
          unfold Res.div
          rw [if_neg hdx, bind_ok]
          refine ⟨g1, ⟨Sparse.Data.inc_set g2.inc _ _, ?_⟩, fun r c => ?_⟩
          · dsimp only
            rw [g1]
            refine Sparse.Data.modify_keys (P := fun e => e.1 < n ∧ e.2 < n) ⟨hj, hi⟩ ?_
            intro e he
            have := g2.inside e he
            rw [g1] at this
            exact this
          · dsimp only
            rw [Sparse.Data.find_set g2.inc, g3 r c]
            by_cases hrc : r = j ∧ c = i
            · obtain ⟨rfl, rfl⟩ := hrc
              rw [if_pos rfl, if_pos ⟨hj, Or.inr ⟨rfl, by omega⟩, hz⟩]
            · have hne : ¬ ((r, c) = (j, i)) := fun h => hrc ⟨congrArg Prod.fst h, congrArg Prod.snd h⟩
              rw [if_neg hne]
              have : (c < i ∨ (c = i ∧ r < j)) ↔ (c < i ∨ (c = i ∧ r < j + 1)) := by omega
              simp only [this]
      · rintro J' ⟨g1, g2, g3⟩
        refine ⟨g1, g2, fun r c => ?_⟩
        rw [g3 r c]
        congr 1
        refine propext (and_congr_right (fun hr => ?_))
        have : (c < i ∨ c = i ∧ r < n) ↔ c < i + 1 := by omega
        rw [this])
  rw [post_false_iff] at hout
  exact hout

/-- The mapping `x ↦ A x - b` with `n` inputs and outputs -/
def affine (n : Nat) (A : Nat → Nat → K) (b : Nat → K) : Mapping K :=
  ⟨n, n, fun x => if x.length = n
    then .ok ((List.range n).map (fun r => (∑ c ∈ Finset.range n, A r c * x.getD c 0) - b r))
    else .error (.exc "size")⟩

theorem affine_ok {n : Nat} {A : Nat → Nat → K} {b : Nat → K} {x : List K} (h : x.length = n) :
    (affine n A b).map x
      = .ok ((List.range n).map (fun r => (∑ c ∈ Finset.range n, A r c * x.getD c 0) - b r)) := by
  unfold affine
  dsimp only
  rw [if_pos h]

theorem sum_bump {n : Nat} (a : Nat → K) {x : List K} (hx : x.length = n) {i : Nat} (hi : i < n)
    (dx : K) : (∑ c ∈ Finset.range n, a c * (bump x i dx).getD c 0)
      = (∑ c ∈ Finset.range n, a c * x.getD c 0) + a i * dx := by
  have : ∀ c ∈ Finset.range n, a c * (bump x i dx).getD c 0
      = a c * x.getD c 0 + (if c = i then a i * dx else 0) := by
    intro c _
    rw [getD_bump (by omega)]
    by_cases h : c = i
    · subst h; simp; ring
    · simp [h]
  rw [Finset.sum_congr rfl this, Finset.sum_add_distrib, Finset.sum_ite_eq' (Finset.range n) i]
  simp [hi]

/-- C82: for an affine mapping the Jacobian is its matrix, at every point and for every increment, and
an entry is stored exactly when it is not zero. -/
theorem C82_affine {n : Nat} (A : Nat → Nat → K) (b : Nat → K) {dx : K} (hdx : dx ≠ 0)
    {x0 : List K} (hx : x0.length = n) :
    ∃ J, computeJacobian (affine n A b) dx x0 = .ok J ∧ J.size = (n, n) ∧ Sparse.Wf J ∧
      (∀ r c, r < n → c < n → J.data.get (r, c) = A r c) ∧
      (∀ r c, (J.data.find (r, c)).isSome ↔ r < n ∧ c < n ∧ A r c ≠ 0) := by
  obtain ⟨J, hJ, h1, h2, h3⟩ := C82_differences (F := affine n A b) hdx (x0 := x0)
    (f := fun i => (List.range n).map
      (fun r => (∑ c ∈ Finset.range n, A r c * (bump x0 i dx).getD c 0) - b r))
    hx (affine_ok hx) (by simp [affine]) (fun i hi => ⟨affine_ok (by simp [hx]), by simp [affine]⟩)
  have hn : (affine n A b).inSize = n := rfl
  rw [hn] at h1 h3
  have hd : ∀ r c, r < n → c < n →
      ((List.range n).map (fun r => (∑ k ∈ Finset.range n, A r k * (bump x0 c dx).getD k 0) - b r)).getD r 0
      - ((List.range n).map (fun r => (∑ k ∈ Finset.range n, A r k * x0.getD k 0) - b r)).getD r 0
      = A r c * dx := by
    intro r c hr hc
    rw [getD_map_range hr, getD_map_range hr, sum_bump _ hx hc]
    ring
  refine ⟨J, hJ, h1, h2, ?_, ?_⟩
  · intro r c hr hc
    rw [Sparse.Data.get_eq, h3 r c, hd r c hr hc]
    split
    · rw [mul_div_assoc, div_self hdx, mul_one]; rfl
    · next h =>
      have : A r c * dx = 0 := by
        by_contra hne
        exact h ⟨hr, hc, hne⟩
      rcases mul_eq_zero.1 this with h | h
      · rw [h]; rfl
      · exact absurd h hdx
  · intro r c
    rw [h3 r c]
    by_cases hrc : r < n ∧ c < n
    · obtain ⟨hr, hc⟩ := hrc
      rw [hd r c hr hc]
      by_cases hA : A r c = 0
      · simp [hA]
      · simp [hA, hr, hc, hdx]
    · rw [if_neg (fun h => hrc ⟨h.1, h.2.1⟩)]
      simp only [Option.isSome_none, Bool.false_eq_true, false_iff]
      exact fun h => hrc ⟨h.1, h.2.1⟩

/-- An affine mapping of two inputs, evaluated away from the origin -/
example : ∃ J, computeJacobian (affine 2 (fun r c => if r = 1 ∧ c = 0 then (0 : ℚ) else r + 2 * c + 1)
      (fun _ => 7)) (1 / 1000000) [3, 4] = .ok J ∧ J.data = [((0, 0), 1), ((0, 1), 3), ((1, 1), 4)] :=
  Verif.Res.exists_of_test (p := fun J => decide (J.data = [((0, 0), 1), ((0, 1), 3), ((1, 1), 4)]))
    (by decide +kernel) |>.imp (fun _ h => ⟨h.1, of_decide_eq_true h.2⟩)

/-! ### The normalizer -/

/-- The normalized mapping as a mapping (MappingNormalizer.h:20-34 sizes) -/
def normalized (F : Mapping K) (d : List K) : Mapping K := ⟨F.inSize, F.outSize, normalizedMap F d⟩

/-- C83: `y` is a root of the normalized mapping exactly when the diagonal applied to `y` is a root of
the original one, if the diagonal has no zeros. -/
theorem C83_roots {F : Mapping K} (hsq : F.outSize = F.inSize)
    (hF : ∀ x f, F.map x = .ok f → f.length = F.outSize) {d : List K} (hd : d.length = F.inSize)
    (h0 : ∀ v ∈ d, v ≠ 0) {y : List K} (hy : y.length = F.inSize) :
    ∃ x, (diagonal d).map y = .ok x ∧
      ((normalized F d).map y = .ok (List.replicate F.outSize 0) ↔
        F.map x = .ok (List.replicate F.outSize 0)) := by
  refine ⟨_, diagMap_ok (by omega), ?_⟩
  unfold normalized normalizedMap
  dsimp only
  rw [diagMap_ok (by omega), bind_ok]
  cases hf : F.map ((List.range y.length).map (fun i => y.getD i 0 * d.getD i 0)) with
  | error e => simp [bind_error]
  | ok f =>
    rw [bind_ok]
    have hl := hF _ _ hf
    rw [diagMap_ok (by omega)]
    have hne : ∀ i, i < d.length → d.getD i 0 ≠ 0 := by
      intro i hi
      apply h0
      simp [List.getD_eq_getElem?_getD, List.getElem?_eq_getElem hi]
    have hrep : ∀ i, (List.replicate F.outSize (0 : K)).getD i 0 = 0 := by
      intro i
      simp [List.getD_eq_getElem?_getD, List.getElem?_replicate]
      split <;> rfl
    constructor
    · intro h
      have h := Except.ok.inj h
      congr 1
      apply ext_getD (by simpa using hl)
      intro i hi
      have hi' : i < f.length := by simpa [hl] using hi
      have := congrArg (fun l : List K => l.getD i 0) h
      beta_reduce at this
      rw [getD_map_range hi', hrep] at this
      rw [hrep]
      exact (mul_eq_zero.1 this).resolve_right (hne i (by omega))
    · intro h
      have h := Except.ok.inj h
      congr 1
      apply ext_getD (by simpa using hl)
      intro i hi
      have hi' : i < f.length := by simpa [hl] using hi
      rw [getD_map_range hi', hrep, h, hrep, zero_mul]

end

/-- What `normalize` computes for an affine mapping: the diagonal `1/√|A i i|`, or the exception when
a diagonal entry is zero. -/
theorem normalize_affine {n : Nat} (A : Nat → Nat → ℝ) (b : Nat → ℝ) {dx : ℝ} (hdx : dx ≠ 0)
    {x0 : List ℝ} (hx : x0.length = n) :
    ((∃ i, i < n ∧ A i i = 0) → ∃ msg, normalize Real.sqrt (affine n A b) dx x0 = .error (.exc msg)) ∧
    ((∀ i, i < n → A i i ≠ 0) → normalize Real.sqrt (affine n A b) dx x0
      = .ok ((List.range n).map (fun i => 1 / Real.sqrt |A i i|))) := by
  obtain ⟨J, hJ, -, -, hget, -⟩ := C82_affine A b hdx hx
  have hdec : (fun a b => instDecidableEqOfLawfulBEq a b : DecidableEq ℝ)
      = (inferInstance : DecidableEq ℝ) := Subsingleton.elim _ _
  have hn : (affine n A b).inSize = n := rfl
  constructor
  · rintro ⟨k, hk, hz⟩
    unfold normalize
    have hJ' : computeJacobian (affine n A b) dx x0 = .ok J := by
      convert hJ
    rw [hJ', bind_ok, hn]
    have key := loop_post (lo := 0) (hi := n) (s := List.replicate n (0 : ℝ))
      (f := fun i d => do
        let di := J.data.get (i, i)
        if di = 0 then
          .error (.exc "MappingNormalizer::normalize() failed: zero diagonal element in Jacobian")
        else do
          let q ← Res.div 1 (Real.sqrt |di|)
          atSet d i q)
      (fun j d => d.length = n ∧ (k < j → False))
      (E := fun e => e = .exc "MappingNormalizer::normalize() failed: zero diagonal element in Jacobian")
      (Nat.zero_le _) ⟨by simp, fun h => absurd h (Nat.not_lt_zero _)⟩ (by
        intro j d _ hj ⟨h1, h2⟩
        dsimp only
        by_cases hd : J.data.get (j, j) = 0
        · rw [if_pos hd]
          exact rfl
        · rw [if_neg hd]
          unfold Res.div
          rw [if_neg (by
            rw [Real.sqrt_eq_zero (abs_nonneg _), abs_eq_zero]
            exact hd), bind_ok]
          unfold atSet
          rw [if_pos (by omega)]
          refine ⟨by simp [h1], fun hlt => ?_⟩
          by_cases hkj : k = j
          · apply hd
            rw [← hkj, hget k k hk hk, hz]
          · exact h2 (by omega))
    dsimp only at key
    cases h : (loop 0 n (fun i d => do
        if J.data.get (i, i) = 0 then
          .error (.exc "MappingNormalizer::normalize() failed: zero diagonal element in Jacobian")
        else do
          let q ← Res.div 1 (Real.sqrt |J.data.get (i, i)|)
          atSet d i q) (List.replicate n (0 : ℝ)) : Res (List ℝ)) with
    | ok v => rw [h] at key; exact (key.2 hk).elim
    | error e => rw [h] at key; exact ⟨_, congrArg _ key⟩
  · intro hA
    unfold normalize
    have hJ' : computeJacobian (affine n A b) dx x0 = .ok J := by
      convert hJ
    rw [hJ', bind_ok, hn]
    refine loop_fill _ _ (by simp) (fun i d hi hd => ?_)
    dsimp only
    rw [hget i i hi hi, if_neg (hA i hi)]
    unfold Res.div
    rw [if_neg (by
      rw [Real.sqrt_eq_zero (abs_nonneg _), abs_eq_zero]
      exact hA i hi), bind_ok]
    unfold atSet
    rw [if_pos (by omega)]

theorem normalized_affine {n : Nat} (A : Nat → Nat → ℝ) (b : Nat → ℝ) {d x : List ℝ}
    (hd : d.length = n) (hx : x.length = n) :
    (normalized (affine n A b) d).map x
      = (affine n (fun r c => d.getD r 0 * A r c * d.getD c 0) (fun r => d.getD r 0 * b r)).map x := by
  unfold normalized normalizedMap
  dsimp only
  rw [diagMap_ok (by omega), bind_ok, affine_ok (by simpa using hx), bind_ok, affine_ok hx,
    diagMap_ok (by simp [hd])]
  congr 1
  simp only [List.length_map, List.length_range]
  apply List.map_congr_left
  intro r hr
  have hr' : r < n := by simpa using hr
  rw [getD_map_range hr', sub_mul, Finset.sum_mul, mul_comm (b r)]
  congr 1
  apply Finset.sum_congr rfl
  intro c hc
  have hc' : c < n := by simpa using hc
  rw [getD_map_range (by omega)]
  ring

/-- C83: `normalize` applied to an affine mapping throws exactly when a diagonal entry of its matrix is
zero; otherwise the Jacobian of the normalized mapping, taken at any point, has entries of absolute
value 1 on the diagonal, keeping the sign. -/
theorem C83_unit_diagonal {n : Nat} (A : Nat → Nat → ℝ) (b : Nat → ℝ) {dx : ℝ} (hdx : dx ≠ 0)
    {x0 : List ℝ} (hx : x0.length = n) :
    ((∃ i, i < n ∧ A i i = 0) → ∃ msg, normalize Real.sqrt (affine n A b) dx x0 = .error (.exc msg)) ∧
    ((∀ i, i < n → A i i ≠ 0) → ∃ d, normalize Real.sqrt (affine n A b) dx x0 = .ok d ∧
      (∀ v ∈ d, v ≠ 0) ∧
      ∀ x1 : List ℝ, x1.length = n → ∃ J, computeJacobian (normalized (affine n A b) d) dx x1 = .ok J ∧
        ∀ i, i < n → J.data.get (i, i) = A i i / |A i i|) := by
  refine ⟨(normalize_affine A b hdx hx).1, fun hA => ?_⟩
  refine ⟨_, (normalize_affine A b hdx hx).2 hA, ?_, ?_⟩
  · intro v hv
    obtain ⟨i, hi, rfl⟩ := List.mem_map.1 hv
    have hi' : i < n := by simpa using hi
    have := Real.sqrt_pos.2 (abs_pos.2 (hA i hi'))
    exact (one_div_pos.2 this).ne'
  · intro x1 hx1
    obtain ⟨d, hd⟩ : ∃ d, d = (List.range n).map (fun i => 1 / Real.sqrt |A i i|) := ⟨_, rfl⟩
    rw [← hd]
    have hdl : d.length = n := by simp [hd]
    obtain ⟨J, hJ, -, -, hget, -⟩ := C82_affine (fun r c => d.getD r 0 * A r c * d.getD c 0)
      (fun r => d.getD r 0 * b r) hdx hx1
    refine ⟨J, ?_, ?_⟩
    · rw [← hJ]
      unfold computeJacobian
      have hin : (normalized (affine n A b) d).inSize = n := rfl
      have hin' : (affine n (fun r c => d.getD r 0 * A r c * d.getD c 0)
        (fun r => d.getD r 0 * b r)).inSize = n := rfl
      rw [hin, hin', normalized_affine A b hdl hx1]
      dsimp only
      congr 1
      funext f0
      refine loop_congr ?_
      intro i J _ hi
      rw [shifted_ok (by omega), bind_ok, bind_ok, normalized_affine A b hdl (by simp [bump, hx1])]
    · intro i hi
      rw [hget i i hi hi, hd, getD_map_range hi]
      have h1 := abs_pos.2 (hA i hi)
      have h2 := Real.mul_self_sqrt h1.le
      have h3 := (Real.sqrt_pos.2 h1).ne'
      rw [eq_div_iff h1.ne']
      nth_rewrite 3 [← h2]
      field_simp

/-- A matrix with a negative diagonal entry -/
example : ∀ i, i < 2 → (fun r c : Nat => if r = 0 ∧ c = 0 then (-4 : ℝ) else 1 + c) i i ≠ 0 := by
  intro i hi
  have : i = 0 ∨ i = 1 := by omega
  rcases this with rfl | rfl <;> norm_num

end Verif.Alg
