import Verif.Driver.ChangeProps

/-!
# Linear quantities that all solvers keep (C144)
-/

set_option linter.unusedSectionVars false

namespace Verif.Driver.Invariants

open Verif.Res RK Variables

section
variable {K V W E : Type} [Field K] [LinearOrder K] [IsStrictOrderedRing K] [AddCommGroup V] [Module K V] [AddCommGroup W] [Module K W]

/-! ### The method of Gragg -/

/-- Between steps: the two solutions have the value `w`, and the derivative kept for the next step has none. -/
def KeptGr (φ : V →ₗ[K] W) (w : W) (s : Extrap.GrSt K V E) : Prop :=
  φ s.u = w ∧ (s.running = true → φ s.v = w ∧ φ s.f = 0)

theorem gragg_kept {φ : V →ₗ[K] W} {w : W} {m : Extrap.GrMethod K V E} (hf : ∀ t x, φ (m.rhs t x) = 0) (hk : Keeps φ m.ec)
    {s s' : Extrap.GrSt K V E} (hs : KeptGr φ w s) (h : s.doStep m = .ok s') : KeptGr φ w s' := by
  unfold Extrap.GrSt.doStep at h
  obtain ⟨e, -, h⟩ := bind_inv h
  obtain ⟨⟨e', x', t', tr⟩, hq, h⟩ := bind_inv h
  simp only [Except.ok.injEq] at h
  subst h
  have hv : φ (if s.running then s.v else s.u) = w := by
    split
    · rename_i hr
      exact (hs.2 hr).1
    · exact hs.1
  have hff : φ (if s.running then s.f else m.rhs s.t s.u) = 0 := by
    split
    · rename_i hr
      exact (hs.2 hr).2
    · exact hf _ _
  refine ⟨?_, fun _ => ⟨?_, hf _ _⟩⟩
  · show φ x' = w
    unfold Extrap.GrMethod.ecEnd at hq
    rw [← hs.1]
    rcases hc : m.ec with _ | c <;> rw [hc] at hq
    · simp only [Except.ok.injEq, Prod.mk.injEq] at hq
      rw [← hq.2.1]
      simp [hf]
    · exact hk c hc e s.u _ _ _ (by simp [hf]) hq
  · simp only [map_add, map_smul, hf, hv, hff, smul_zero, add_zero]

theorem gragg_shown {φ : V →ₗ[K] W} {w : W} (m : Extrap.GrMethod K V E) {s : Extrap.GrSt K V E} (hs : KeptGr φ w s) :
    φ (s.initialState m) = w := by
  unfold Extrap.GrSt.initialState
  split
  · rename_i h
    simp only [Bool.and_eq_true] at h
    rw [map_add, map_smul, map_smul, hs.1, (hs.2 h.2).1, ← add_smul]
    norm_num
  · exact hs.1

theorem noteOf_state {P : V → Prop} {t : K} {x : V} {log : List (Obs K)} (hx : P x) : ∀ n ∈ noteOf t x log, P n.state := by
  intro n hn
  unfold noteOf at hn
  split at hn
  · rw [List.mem_singleton.1 hn]
    exact hx
  · cases hn

/-- C144: a linear quantity that the right-hand side does not change has the same value in all reports of a run of the solver of
Gragg, smoothed or not, and at its end. -/
theorem C144_gragg (φ : V →ₗ[K] W) (m : Extrap.GrMethod K V E) (hf : ∀ t x, φ (m.rhs t x) = 0) (hk : Keeps φ m.ec)
    (o : Outputs) (s : Extrap.GrSt K V E) (hs : s.running = false) (d : K) (fuel : Nat) (evs : List (Ev K V))
    (r : Res (Extrap.GrSt K V E)) (hr : solveOde (gragg m) o d fuel s = some (evs, r)) :
    (∀ n, Ev.note n ∈ evs → φ n.state = φ s.u) ∧ ∀ s', r = .ok s' → φ (s'.initialState m) = φ s.u := by
  have key : ∀ s1, KeptGr φ (φ s.u) s1 → (∀ n ∈ ((gragg m).doStep s1).1, φ n.state = φ s.u) ∧
      ∀ s', ((gragg m).doStep s1).2 = .ok s' → KeptGr φ (φ s.u) s' := by
    intro s1 h1
    simp only [gragg]
    rcases h2 : s1.doStep m with f | a
    · exact ⟨fun n hn => (by cases hn), fun s' hs' => by cases hs'⟩
    · have h3 := gragg_kept hf hk h1 h2
      exact ⟨noteOf_state (P := fun x => φ x = φ s.u) (gragg_shown m h3), fun s' hs' => by cases hs'; exact h3⟩
  obtain ⟨k1, k2⟩ := solve_kept (gragg m) (KeptGr φ (φ s.u)) (fun n => φ n.state = φ s.u) key o d fuel s
    ⟨rfl, fun h => by rw [hs] at h; cases h⟩ evs r hr
  exact ⟨k1, fun s' h' => gragg_shown m (k2 s' h')⟩

/-! ### Extrapolation -/

variable {S Q : Type}

/-- What the extrapolator asks of its reference solver: steps from a given state show states with the value of the given one. -/
def RefKeeps (φ : V →ₗ[K] W) (r : Extrap.RefSolver K V S) : Prop :=
  ∃ I : W → S → Prop, (∀ t x h s, I (φ x) (r.setInitialStepSize h (r.setInitialState t x s))) ∧
    (∀ w s s', I w s → r.doStep s = .ok s' → I w s') ∧ ∀ w s, I w s → φ (r.initialState s) = w

/-- C144: what the extrapolator asks is met by the method of Gragg -/
theorem C144_ref_gragg {φ : V →ₗ[K] W} {m : Extrap.GrMethod K V E} (hf : ∀ t x, φ (m.rhs t x) = 0) (hk : Keeps φ m.ec) :
    RefKeeps φ m.ref :=
  ⟨KeptGr φ, fun _ _ _ _ => ⟨rfl, fun h => by cases h⟩, fun _ _ _ h1 h2 => gragg_kept hf hk h1 h2, fun _ _ h => gragg_shown m h⟩

/-- C144: and by the explicit Runge-Kutta methods with constant step size. -/
theorem C144_ref_fixed {φ : V →ₗ[K] W} {m : Method K V E} (hf : ∀ t x, φ (m.rhs t x) = 0) (hc : Fits m.co 1) (hk : Keeps φ m.ec)
    (p : Int) : RefKeeps φ (m.ref p) :=
  ⟨fun w => Kept φ w m.co 1, fun _ _ _ _ => ⟨rfl, .inl rfl⟩, fun _ _ _ h1 h2 => step_kept hf hc hk h1 h2, fun _ _ h => h.1⟩

theorem loop_inv {σ : Type} {lo hi : Nat} {f : Nat → σ → Res σ} {s s' : σ} (P : Nat → σ → Prop) (hle : lo ≤ hi) (h0 : P lo s)
    (hs : ∀ j s s1, lo ≤ j → j < hi → P j s → f j s = .ok s1 → P (j + 1) s1) (h : loop lo hi f s = .ok s') : P hi s' := by
  have := loop_post (f := f) (s := s) P (E := fun _ => True) hle h0 (fun j s h1 h2 h3 => by
    rcases hf : f j s with e | a
    · trivial
    · exact hs j s a h1 h2 h3 hf)
  rw [h] at this
  exact this

theorem set_inv {l l' : List V} {i : Nat} {a : V} (h : rawSet l i a = .ok l') : l' = l.set i a := by
  unfold rawSet at h
  split at h
  · cases h; rfl
  · cases h

/-- The first `k` elements have the value `w`. -/
def First (φ : V →ₗ[K] W) (w : W) (k : Nat) (T : List V) : Prop := ∀ i v, i < k → T[i]? = some v → φ v = w

theorem First.set {φ : V →ₗ[K] W} {w : W} {k : Nat} {T : List V} (h : First φ w k T) {a : V} (ha : φ a = w) (i : Nat) :
    First φ w k (T.set i a) := by
  intro j v hj hv
  rw [List.getElem?_set] at hv
  split at hv
  · split at hv
    · simp only [Option.some.injEq] at hv
      rw [← hv, ha]
    · cases hv
  · exact h j v hj hv

theorem stages_kept {φ : V →ₗ[K] W} {r : Extrap.RefSolver K V S} (hr : RefKeeps φ r) {sq : Extrap.StepSeq Q} {n : Nat} {t h : K}
    {x : V} {st st' : S × Q × List V × List Nat} (hs : Extrap.stages r sq n t h x st = .ok st') : First φ (φ x) n st'.2.2.1 := by
  obtain ⟨I, i1, i2, i3⟩ := hr
  unfold Extrap.stages at hs
  refine loop_inv (fun k st => First φ (φ x) k st.2.2.1) (Nat.zero_le _) (fun i v hi => absurd hi (Nat.not_lt_zero _)) ?_ hs
  intro k a b _ _ ha hab
  obtain ⟨⟨n1, q⟩, -, hab⟩ := bind_inv hab
  obtain ⟨hk, -, hab⟩ := bind_inv hab
  obtain ⟨s1, hs1, hab⟩ := bind_inv hab
  obtain ⟨T, hT, hab⟩ := bind_inv hab
  obtain ⟨n', -, hab⟩ := bind_inv hab
  simp only [Except.ok.injEq] at hab
  subst hab
  have hI := loop_inv (fun _ s => I (φ x) s) (Nat.zero_le _) (i1 t x hk a.1) (fun _ s s1 _ _ h1 h2 => i2 _ s s1 h1 h2) hs1
  have hv := i3 _ _ hI
  show First φ (φ x) (k + 1) T
  rw [set_inv hT]
  intro i v hi hv'
  rw [List.getElem?_set] at hv'
  split at hv'
  · split at hv'
    · simp only [Option.some.injEq] at hv'
      rw [← hv', hv]
    · cases hv'
  · exact ha i v (by omega) hv'

theorem neville_kept {φ : V →ₗ[K] W} {w : W} {b : Bool} {N : Nat} (hN : 1 ≤ N) {n : List Nat} {T T' : List V}
    (hT : First φ w N T) (h : Extrap.neville (K := K) b N n T = .ok T') : First φ w N T' := by
  unfold Extrap.neville at h
  refine loop_inv (fun _ T => First φ w N T) hN hT ?_ h
  intro k T1 T2 h1 h2 h3 h4
  refine loop_inv (fun _ T => First φ w N T) (by omega) h3 ?_ h4
  intro j A B h5 h6 h7 h8
  unfold Extrap.nevilleStep at h8
  obtain ⟨t1, e1, h8⟩ := bind_inv h8
  obtain ⟨t2, e2, h8⟩ := bind_inv h8
  obtain ⟨a, -, h8⟩ := bind_inv h8
  obtain ⟨c, -, h8⟩ := bind_inv h8
  obtain ⟨r, -, h8⟩ := bind_inv h8
  obtain ⟨d, -, h8⟩ := bind_inv h8
  rw [set_inv h8]
  refine h7.set ?_ _
  rw [map_add, map_smul, map_smul, h7 _ _ (by omega) (raw_eq_ok_iff.1 e1), h7 _ _ (by omega) (raw_eq_ok_iff.1 e2), ← add_smul]
  simp

theorem extrap_kept {φ : V →ₗ[K] W} {m : Extrap.ExMethod K V E S Q} (hm : 1 ≤ m.maxStages) (hr : ∀ r, m.ref = some r → RefKeeps φ r)
    (hk : Keeps φ m.ec) {s : Extrap.ExSt K V E S Q} {A : Attempt (Extrap.ExSt K V E S Q)} (h : s.attempt m = .ok A) :
    φ A.state.x = φ s.x := by
  unfold Extrap.ExSt.attempt at h
  obtain ⟨s1, h1, h⟩ := bind_inv h
  have hx : s1.x = s.x := by
    unfold Extrap.ExSt.initStep at h1
    split at h1
    · cases h1; rfl
    · split at h1
      · cases h1
      · split at h1
        · cases h1
        · obtain ⟨⟨n, q⟩, -, h1⟩ := bind_inv h1
          cases h1
          rfl
  obtain ⟨e, -, h⟩ := bind_inv h
  split at h
  · rename_i r sq hmr _
    obtain ⟨hh, -, h⟩ := bind_inv h
    obtain ⟨⟨ref, q, T, n⟩, hst, h⟩ := bind_inv h
    obtain ⟨T2, hT2, h⟩ := bind_inv h
    obtain ⟨next, hn, h⟩ := bind_inv h
    obtain ⟨⟨T3, err⟩, -, h⟩ := bind_inv h
    obtain ⟨⟨s2, tr⟩, hs2, h⟩ := bind_inv h
    simp only at hs2 h
    generalize (if m.disableErrorCheck = true then (⟨hh, true, false⟩ : CtlResult K) else m.control hh err m.lowOrder) = res at hs2 h
    have hnx : φ next = φ s1.x := neville_kept hm (stages_kept (hr r hmr) hst) hT2 0 next (by omega) (raw_eq_ok_iff.1 hn)
    have hx2 : φ s2.x = φ s1.x := by
      split at hs2
      · obtain ⟨⟨e', x', t', tr'⟩, hq, hs2⟩ := bind_inv hs2
        obtain ⟨T4, -, hs2⟩ := bind_inv hs2
        simp only [Except.ok.injEq, Prod.mk.injEq] at hs2
        rw [← hs2.1]
        show φ x' = φ s1.x
        unfold Extrap.ExMethod.ecEnd at hq
        rcases hc : m.ec with _ | c <;> rw [hc] at hq
        · simp only [Except.ok.injEq, Prod.mk.injEq] at hq
          rw [← hq.2.1, hnx]
        · exact hk c hc e s1.x next _ _ hnx hq
      · simp only [Except.ok.injEq, Prod.mk.injEq] at hs2
        rw [← hs2.1]
    rw [← hx, ← hx2]
    have hs3 : ∀ b : Bool, (if b = true then { s2 with h := some res.newStepSize } else s2 : Extrap.ExSt K V E S Q).x = s2.x := by
      intro b
      split <;> rfl
    have hs3 := hs3 res.changeStepSize
    generalize (if res.changeStepSize = true then { s2 with h := some res.newStepSize } else s2 : Extrap.ExSt K V E S Q) = s3 at h hs3
    split at h
    · cases h
      exact congrArg φ hs3
    · obtain ⟨h', -, h⟩ := bind_inv h
      split at h <;> cases h <;> exact congrArg φ hs3
  · cases h

theorem passes_kept {S' : Type} (attempt : S' → Res (Attempt S')) (note : S' → List (Note K V)) (I : S' → Prop) (P : Note K V → Prop)
    (hA : ∀ s A, I s → attempt s = .ok A → I A.state) (hn : ∀ s, I s → ∀ n ∈ note s, P n) (fuel : Nat) (s : S') (hs : I s) :
    (∀ n ∈ (passes attempt note fuel s).1, P n) ∧ ∀ s', (passes attempt note fuel s).2 = .ok s' → I s' := by
  induction fuel generalizing s with
  | zero => exact ⟨fun n hn => (by cases hn), fun s' hs' => by cases hs'⟩
  | succ fuel ih =>
    unfold passes
    rcases h1 : attempt s with e | A
    · exact ⟨fun n hn => (by cases hn), fun s' hs' => by cases hs'⟩
    · have hi := hA s A hs h1
      rcases A with a | a | ⟨msg, a⟩
      · exact ⟨hn a hi, fun s' hs' => by cases hs'; exact hi⟩
      · obtain ⟨k1, k2⟩ := ih a hi
        refine ⟨fun n hn' => ?_, k2⟩
        rcases List.mem_append.1 hn' with h' | h'
        · exact hn a hi n h'
        · exact k1 n h'
      · exact ⟨fun n hn => (by cases hn), fun s' hs' => by cases hs'⟩

/-- C144: and of a run of the extrapolator, if its reference solver keeps the quantity. -/
theorem C144_extrapolator (φ : V →ₗ[K] W) (m : Extrap.ExMethod K V E S Q) (hm : 1 ≤ m.maxStages)
    (hr : ∀ r, m.ref = some r → RefKeeps φ r) (hk : Keeps φ m.ec) (o : Outputs) (s : Extrap.ExSt K V E S Q) (d : K) (p fuel : Nat)
    (evs : List (Ev K V)) (r : Res (Extrap.ExSt K V E S Q)) (h : solveOde (extrapolator m p) o d fuel s = some (evs, r)) :
    (∀ n, Ev.note n ∈ evs → φ n.state = φ s.x) ∧ ∀ s', r = .ok s' → φ s'.x = φ s.x :=
  solve_kept (extrapolator m p) (fun s1 => φ s1.x = φ s.x) (fun n => φ n.state = φ s.x)
    (fun s1 h1 => passes_kept _ _ (fun s1 => φ s1.x = φ s.x) _ (fun _ _ h2 h3 => (extrap_kept hm hr hk h3).trans h2)
      (fun _ h2 => noteOf_state (P := fun x => φ x = φ s.x) h2) p s1 h1) o d fuel s rfl evs r h

end

end Verif.Driver.Invariants
