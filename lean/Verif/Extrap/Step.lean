import Verif.Extrap.Neville

/-! # One pass of the step loop of the extrapolator -/

set_option linter.unusedSectionVars false

namespace Verif.Extrap

open Verif.Res Verif.RK
open scoped BigOperators
open Finset

section
variable {K V E S Q : Type} [Field K] [LinearOrder K] [IsStrictOrderedRing K]
  [AddCommGroup V] [Module K V]

/-- The reference solver computes a function: `n` steps of size `h` from `x` at `t` give
`Φ t x h n`, whatever it did before. -/
def Behaves (r : RefSolver K V S) (Φ : K → V → K → Nat → V) : Prop :=
  ∀ (t : K) (x : V) (h : K) (n : Nat) (s : S), ∃ s',
    loop 0 n (fun _ s => r.doStep s) (r.setInitialStepSize h (r.setInitialState t x s)) = .ok s' ∧
      r.initialState s' = Φ t x h n

theorem getElem?_set_lt {α : Type} {l : List α} {k : Nat} {a : α} (hk : k < l.length) (i : Nat) :
    (l.set k a)[i]? = if i = k then some a else l[i]? := by
  split
  · next h => rw [h, List.getElem?_set_self hk]
  · next h => rw [List.getElem?_set_ne (fun h' => h h'.symm)]

/-- The loop over stages fills the arrays. -/
theorem stages_ok {r : RefSolver K V S} {Φ : K → V → K → Nat → V} (hr : Behaves r Φ)
    {sq : StepSeq Q} {b : Nat → Nat} {B : Nat} (hg : Gives sq b B) (M : Nat) (hM : M ≤ B)
    (t h : K) (x : V) (s : S) (q : Q) (T : List V) (n : List Nat) (hT : M ≤ T.length)
    (hn : M ≤ n.length) :
    ∃ s' q' T' n', stages r sq M t h x (s, sq.reset q, T, n) = .ok (s', q', T', n') ∧
      T'.length = T.length ∧ n'.length = n.length ∧
      (∀ i, i < M → T'[i]? = some (Φ t x (h / (b i : K)) (b i))) ∧
      (∀ i, i < M → n'[i]? = some (b i)) := by
  have := loop_post (lo := 0) (hi := M) (s := (s, sq.reset q, T, n))
    (f := fun k (st : S × Q × List V × List Nat) => do
      let s := r.setInitialState t x st.1
      let (n, q) ← sq.next st.2.1
      let hk ← Res.div h (n : K)
      let s := r.setInitialStepSize hk s
      let s ← loop 0 n (fun _ s => r.doStep s) s
      let T ← rawSet st.2.2.1 k (r.initialState s)
      let n ← rawSet st.2.2.2 k n
      .ok (s, q, T, n))
    (fun k st => st.2.2.1.length = T.length ∧ st.2.2.2.length = n.length ∧
      numbers sq k (sq.reset q) = .ok ((List.range k).map b, st.2.1) ∧
      (∀ i, i < k → st.2.2.1[i]? = some (Φ t x (h / (b i : K)) (b i))) ∧
      (∀ i, i < k → st.2.2.2[i]? = some (b i))) (E := fun _ => False) (Nat.zero_le _)
    ⟨rfl, rfl, rfl, fun i hi => absurd hi (by omega), fun i hi => absurd hi (by omega)⟩
    (by
      rintro k ⟨s1, q1, T1, n1⟩ _ hk ⟨h1, h2, h3, h4, h5⟩
      simp only at h1 h2 h3 h4 h5
      obtain ⟨q1', q2, g1, g2, g3⟩ := hg.next q k (by omega)
      rw [h3] at g1
      have hq : q1' = q1 := by injection g1 with g1; exact (Prod.mk.inj g1).2.symm
      subst hq
      have hbk : (b k : K) ≠ 0 := by
        have := hg.le k
        exact_mod_cast (by omega : b k ≠ 0)
      obtain ⟨s2, l1, l2⟩ := hr t x (h / (b k : K)) (b k) s1
      simp only [g2, bind_ok]
      rw [Res.div, if_neg hbk, bind_ok, l1, bind_ok, rawSet, if_pos (by omega), bind_ok, rawSet,
        if_pos (by omega), bind_ok]
      refine ⟨by simp [h1], by simp [h2], g3, ?_, ?_⟩
      · intro i hi
        simp only
        rw [getElem?_set_lt (by omega), l2]
        split
        · next h => rw [h]
        · exact h4 i (by omega)
      · intro i hi
        simp only
        rw [getElem?_set_lt (by omega)]
        split
        · next h => rw [h]
        · exact h5 i (by omega))
  obtain ⟨⟨s', q', T', n'⟩, hs, h1, h2, _, h4, h5⟩ := post_false_iff.1 this
  exact ⟨s', q', T', n', hs, h1, h2, h4, h5⟩

/-- Stage results extrapolated to zero. -/
noncomputable def extrapolated (sym : Bool) (b : Nat → Nat) (Φ : K → V → K → Nat → V) (lo M : Nat)
    (t : K) (x : V) (h : K) : V :=
  extrap (Ico lo M) (fun m => (node sym (b m) : K)) (fun m => Φ t x (h / (b m : K)) (b m))

theorem extrap_congr {s : Finset Nat} {v : Nat → K} {F G : Nat → V} (h : ∀ m ∈ s, F m = G m) :
    extrap s v F = extrap s v G := by
  unfold extrap
  exact sum_congr rfl (fun m hm => by rw [h m hm])

/-- The arrays are allocated for `M` stages. -/
def Ready (b : Nat → Nat) (M : Nat) (h : K) (s : ExSt K V E S Q) : Prop :=
  (s.T = [] ∧ h = s.hInit) ∨ (s.T.length = b (M - 1) ∧ s.n.length = b (M - 1) ∧ s.h = some h)

theorem initStep_ok {m : ExMethod K V E S Q} {r : RefSolver K V S} {sq : StepSeq Q} {b : Nat → Nat}
    {B : Nat} (hr : m.ref = some r) (hs : m.seq = some sq) (hg : Gives sq b B)
    (hM : 1 ≤ m.maxStages) (hB : m.maxStages ≤ B) {h : K} (s : ExSt K V E S Q)
    (hready : Ready b m.maxStages h s) :
    ∃ s1, s.initStep m = .ok s1 ∧ s1.t = s.t ∧ s1.x = s.x ∧ s1.h = some h ∧ s1.hInit = s.hInit ∧
      s1.ec = s.ec ∧ s1.log = s.log ∧ s1.T.length = b (m.maxStages - 1) ∧
      s1.n.length = b (m.maxStages - 1) := by
  have hbpos := hg.le (m.maxStages - 1)
  rcases hready with ⟨h1, h2⟩ | ⟨h1, h2, h3⟩
  · obtain ⟨q', hq, _⟩ := C33_size hg m.maxStages hM hB s.seq
    unfold ExSt.initStep
    rw [h1, hr, hs]
    simp only [List.isEmpty_nil, Bool.not_true, Bool.false_eq_true, if_false]
    rw [hq, bind_ok]
    refine ⟨_, rfl, rfl, rfl, by rw [h2], rfl, rfl, rfl, ?_, ?_⟩
    · simp
    · simp [resizeTo]
  · unfold ExSt.initStep
    have : s.T.isEmpty = false := by
      cases hT : s.T with
      | nil => rw [hT] at h1; simp at h1; omega
      | cons _ _ => rfl
    rw [this]
    exact ⟨s, rfl, rfl, rfl, h3, rfl, rfl, rfl, h1, h2⟩

/-- Everything one pass of the loop does, for at least two stages or without the error check. -/
theorem attempt_ok {m : ExMethod K V E S Q} {r : RefSolver K V S} {sq : StepSeq Q} {b : Nat → Nat}
    {B : Nat} {Φ : K → V → K → Nat → V} (hr : m.ref = some r) (hs : m.seq = some sq)
    (hΦ : Behaves r Φ) (hg : Gives sq b B)
    (hM : 1 ≤ m.maxStages) (hB : m.maxStages ≤ B)
    (hM2 : m.disableErrorCheck = true ∨ 2 ≤ m.maxStages) {h : K} (s : ExSt K V E S Q)
    (hready : Ready b m.maxStages h s) {e e2 : E} {x2 : V} {t2 : K} {tr : Trunc}
    (X : V) (hX : X = extrapolated m.symmetric b Φ 0 m.maxStages s.t s.x h) (err : K)
    (herr : err = if m.disableErrorCheck then 0 else
      m.norm (X - extrapolated m.symmetric b Φ 1 m.maxStages s.t s.x h))
    (res : CtlResult K) (hres : res = if m.disableErrorCheck then ⟨h, true, false⟩ else
      m.control h err m.lowOrder)
    (he : m.ecStart s.ec s.x s.t = .ok e)
    (hend : res.acceptStep = true → m.ecEnd e s.x X (s.t + h) = .ok (e2, x2, t2, tr)) :
    ∃ s', s'.t = (if res.acceptStep then t2 else s.t) ∧ s'.x = (if res.acceptStep then x2 else s.x) ∧
      s'.h = some (if res.changeStepSize then res.newStepSize else h) ∧ s'.hInit = s.hInit ∧
      s'.T.length = b (m.maxStages - 1) ∧ s'.n.length = b (m.maxStages - 1) ∧
      s'.ec = (if res.acceptStep then e2 else e) ∧
      (if res.changeStepSize && decide (res.newStepSize ≤ m.hMin) then
        s'.log = .pre s.h :: s.log ∧
        s.attempt m = .ok (.thrown "Step size has decreased to the minimum or below" s')
      else
        s'.log = .post (if res.changeStepSize then res.newStepSize else h) res.acceptStep
          res.changeStepSize (if res.acceptStep then tr else Trunc.none) err :: .pre s.h :: s.log ∧
        s.attempt m = .ok (if res.acceptStep then .accepted s' else .rejected s')) := by
  obtain ⟨s1, i0, i1, i2, i3, i4, i5, i6, i7, i8⟩ := initStep_ok hr hs hg hM hB
    { s with log := .pre s.h :: s.log } (show Ready b m.maxStages h { s with log := .pre s.h :: s.log }
      from hready)
  have hle := hg.le (m.maxStages - 1)
  obtain ⟨ref', q', T1, n1, a1, a2, a3, a4, a5⟩ := stages_ok hΦ hg m.maxStages hB s1.t h s1.x
    s1.ref s1.seq s1.T s1.n (by omega) (by omega)
  obtain ⟨T2, b1, b2, b3⟩ := neville_ok (K := K) m.symmetric m.maxStages n1 b hg.pos hg.mono a5 T1
    (by omega)
  have hval : ∀ lo, lo < m.maxStages → T2[lo]? = some
      (extrapolated m.symmetric b Φ lo m.maxStages s.t s.x h) := by
    intro lo hlo
    rw [b3 lo hlo]
    congr 1
    apply extrap_congr
    intro k hk
    rw [mem_Ico] at hk
    rw [List.getD_eq_getElem?_getD, a4 k hk.2, i1, i2]
    rfl
  have hX0 : T2[0]? = some X := by rw [hval 0 (by omega), hX]
  have hT20 : 0 < T2.length := by omega
  -- the error
  obtain ⟨T3, c1, c2, c3⟩ : ∃ T3, (if m.disableErrorCheck = true then Except.ok (T2, 0) else
      (raw T2 1 >>= fun low => rawSet T2 1 ((-1 : K) • low + X) >>= fun T =>
        Except.ok (T, m.norm ((-1 : K) • low + X)) : Res (List V × K))) = .ok (T3, err) ∧
      T3.length = T2.length ∧ True := by
    by_cases hd : m.disableErrorCheck = true
    · rw [if_pos hd] at herr
      rw [if_pos hd, herr]
      exact ⟨T2, rfl, rfl, trivial⟩
    · rw [if_neg hd] at herr
      have h2 : 2 ≤ m.maxStages := by
        rcases hM2 with h | h
        · exact absurd h hd
        · exact h
      rw [if_neg hd, raw_of_getElem? (hval 1 (by omega)), bind_ok, rawSet, if_pos (by omega), bind_ok]
      refine ⟨T2.set 1 ((-1 : K) • extrapolated m.symmetric b Φ 1 m.maxStages s.t s.x h + X), ?_,
        List.length_set, trivial⟩
      rw [herr]
      congr 3
      rw [neg_smul, one_smul, neg_add_eq_sub]
  have hstart : m.ecStart s1.ec s1.x s1.t = .ok e := by rw [i5, i1, i2]; exact he
  have hunf : s.attempt m = (do
      let (s, tr) ← (if res.acceptStep then do
          let (e, next, nextTime, tr) ← m.ecEnd e s1.x X (s1.t + h)
          let T ← rawSet T3 0 s1.x
          .ok ({ s1 with ref := ref', seq := q', n := n1, t := nextTime, x := next, ec := e, T := T }, tr)
        else .ok ({ s1 with ref := ref', seq := q', T := T3, n := n1, ec := e }, Trunc.none) :
          Res (ExSt K V E S Q × Trunc))
      let s := if res.changeStepSize then { s with h := some res.newStepSize } else s
      if res.changeStepSize && decide (res.newStepSize ≤ m.hMin) then
        .ok (.thrown "Step size has decreased to the minimum or below" s)
      else do
        let hNow ← readH s.h
        let s := { s with log := .post hNow res.acceptStep res.changeStepSize tr err :: s.log }
        if res.acceptStep then .ok (.accepted s) else .ok (.rejected s)) := by
    unfold ExSt.attempt
    simp only
    rw [i0, bind_ok, hstart, bind_ok, hr, hs]
    simp only
    rw [i3]
    simp only [readH, bind_ok]
    rw [a1]
    simp only [bind_ok]
    rw [b1, bind_ok, raw_of_getElem? hX0, bind_ok, c1]
    simp only [bind_ok]
    rw [← hres]
  rw [hunf]
  have hx2 : s1.x = s.x := i2
  have ht2 : s1.t = s.t := i1
  rw [hx2, ht2]
  have hset : rawSet T3 0 s.x = .ok (T3.set 0 s.x) := if_pos (by omega)
  by_cases hacc : res.acceptStep = true
  · rw [hend hacc]
    simp only [hacc, if_true, bind_ok]
    rw [hset]
    simp only [bind_ok]
    by_cases hch : res.changeStepSize = true
    · simp only [hch, if_true, Bool.true_and, readH, bind_ok]
      by_cases hmin : res.newStepSize ≤ m.hMin
      · simp only [hmin, decide_true, if_true]
        refine ⟨_, ?_, ?_, ?_, ?_, ?_, ?_, ?_, ?_, rfl⟩ <;>
          first | rfl | exact i1 | exact i2 | exact i3 | exact i4 | exact i6 | (simp; omega)
      · simp only [hmin, decide_false, Bool.false_eq_true, if_false]
        refine ⟨_, ?_, ?_, ?_, ?_, ?_, ?_, ?_, ?_, rfl⟩ <;>
          first | rfl | exact i1 | exact i2 | exact i3 | exact i4 | exact i6 | (simp; omega)
    · simp only [hch, Bool.false_eq_true, if_false, Bool.false_and, i3, readH, bind_ok]
      refine ⟨_, ?_, ?_, ?_, ?_, ?_, ?_, ?_, ?_, rfl⟩ <;>
          first | rfl | exact i1 | exact i2 | exact i3 | exact i4 | exact i6 | (simp; omega)
  · simp only [hacc, Bool.false_eq_true, if_false, bind_ok]
    by_cases hch : res.changeStepSize = true
    · simp only [hch, if_true, Bool.true_and, readH, bind_ok]
      by_cases hmin : res.newStepSize ≤ m.hMin
      · simp only [hmin, decide_true, if_true]
        refine ⟨_, ?_, ?_, ?_, ?_, ?_, ?_, ?_, ?_, rfl⟩ <;>
          first | rfl | exact i1 | exact i2 | exact i3 | exact i4 | exact i6 | (simp; omega)
      · simp only [hmin, decide_false, Bool.false_eq_true, if_false]
        refine ⟨_, ?_, ?_, ?_, ?_, ?_, ?_, ?_, ?_, rfl⟩ <;>
          first | rfl | exact i1 | exact i2 | exact i3 | exact i4 | exact i6 | (simp; omega)
    · simp only [hch, Bool.false_eq_true, if_false, Bool.false_and, i3, readH, bind_ok]
      refine ⟨_, ?_, ?_, ?_, ?_, ?_, ?_, ?_, ?_, rfl⟩ <;>
          first | rfl | exact i1 | exact i2 | exact i3 | exact i4 | exact i6 | (simp; omega)

end

end Verif.Extrap
