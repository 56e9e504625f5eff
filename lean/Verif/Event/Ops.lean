import Verif.Event.Props

/-! # Results of `atStepEnd` in any arithmetic -/

set_option linter.unusedSectionVars false

namespace Verif.Event

open Verif.Res Verif.RK

section
variable {K V Q : Type} [Zero K] [One K] [Add K] [Sub K] [Mul K] [Div K] [LinearOrder K] [Add V] [SMul K V]

/-- The controller watches `n` functions. -/
structure Sized (e : Ctl K) (n : Nat) : Prop where
  clean : e.clean = false
  haveZf : e.haveZf = true
  pos : 0 < n
  zf1 : e.zf1.length = n
  flags : e.flags.length = n
  state : e.state.length = n
  haveRec : e.haveRec = e.flags.any (fun f => f &&& 4 != 0)

theorem Armed.sized {e : Ctl K} {n : Nat} (h : Armed e n) : Sized e n :=
  ⟨h.clean, h.haveZf, h.pos, h.zf1, h.flags, h.state, h.haveRec⟩

/-- What `atStepEnd` computes, with the operations of the type of the scalars. -/
theorem atStepEnd_ops (r : EvRhs K V Q) (n : Nat) (hlen : ∀ q t x, (r.zeroFunctions q t x).length = n) (q : Q) (e : Ctl K)
    (he : Sized e n) (x1 x2 : V) (t2 : K) :
    let z1 := fun i => e.zf1.getD i 0
    let z2 := fun i => (r.zeroFunctions q t2 x2).getD i 0
    let X := fun i => i < n ∧ Crosses (e.flags.getD i 0) (e.state.getD i 0) (z2 i)
    ((∀ i, ¬ X i) ∧ ∃ e', e.atStepEnd r q x1 x2 t2 = .ok ((e', q), x2, t2, Trunc.none) ∧ Sized e' n ∧
      e'.zf1 = r.zeroFunctions q t2 x2 ∧ e'.flags = e.flags ∧ e'.state = e.state) ∨
    ((∃ i, X i ∧ z1 i - z2 i = 0) ∧ e.atStepEnd r q x1 x2 t2 = .error .divZero) ∨
    ((∃ i, X i) ∧ (∀ i, X i → z1 i - z2 i ≠ 0 ∧ 1 ≤ tau (z1 i) (z2 i)) ∧
      e.atStepEnd r q x1 x2 t2 = .error (.exc "out_of_range")) ∨
    ∃ i e', X i ∧ tau (z1 i) (z2 i) < 1 ∧
      (∀ j, X j → z1 j - z2 j ≠ 0 ∧ tau (z1 i) (z2 i) ≤ tau (z1 j) (z2 j)) ∧
      let θ := tau (z1 i) (z2 i)
      let t := e.t1 + (t2 - e.t1) * θ
      let res := r.switchPhaseState q ((List.replicate n 0).set i (sgn (z2 i))) t (θ • x2 + (1 - θ) • x1)
      e.atStepEnd r q x1 x2 t2 = .ok ((e', res.1), res.2, t, ⟨true, some i, sgn (z2 i)⟩) ∧ Sized e' n ∧ e'.flags = e.flags ∧
      ∀ j, j < n →
        (e.flags.getD j 0 &&& 4 ≠ 0 → e'.zf1.getD j 0 = (r.zeroFunctions res.1 t res.2).getD j 0 ∧
          e'.state.getD j 0 = sFlag ((r.zeroFunctions res.1 t res.2).getD j 0) (e.flags.getD j 0)) ∧
        (e.flags.getD j 0 &&& 4 = 0 → e'.zf1.getD j 0 = z1 j * (1 - θ) + z2 j * θ ∧
          e'.state.getD j 0 = if j = i then
              (if e.flags.getD j 0 &&& 3 = 3 then sgn (z2 i) else sFlag (z1 j * (1 - θ) + z2 j * θ) (e.flags.getD j 0))
            else e.state.getD j 0) := by
  intro z1 z2 X
  obtain ⟨hclean, hhave, hpos, hzf1, hflags, hstate, hrec⟩ := he
  have hl2 := hlen q t2 x2
  simp only [z2] at X ⊢
  generalize hzf2 : r.zeroFunctions q t2 x2 = zf2 at *
  obtain ⟨e2, he2⟩ : ∃ e2 : Ctl K, { e with zf2 := zf2 } = e2 := ⟨_, rfl⟩
  have p1 : e2.zf1 = e.zf1 := by rw [← he2]
  have p2 : e2.zf2 = zf2 := by rw [← he2]
  have p3 : e2.state = e.state := by rw [← he2]
  have p4 : e2.flags = e.flags := by rw [← he2]
  have p5 : e2.t1 = e.t1 := by rw [← he2]
  have p6 : e2.haveRec = e.haveRec := by rw [← he2]
  have p7 : e2.clean = e.clean := by rw [← he2]
  have p8 : e2.haveZf = e.haveZf := by rw [← he2]
  have hcr := crossed_eq (e := e2) (n := n) (by rw [p1]; exact hzf1) (by rw [p2]; exact hl2)
    (by rw [p3]; exact hstate) (by rw [p4]; exact hflags)
  rw [p2, p3, p4] at hcr
  generalize hL : (List.range n).filter
    (fun i => xz (e.flags.getD i 0) (e.state.getD i 0) (zf2.getD i 0)) = L at hcr
  have hmem : ∀ i, i ∈ L ↔ X i := by
    intro i
    rw [← hL, List.mem_filter, List.mem_range, xz_iff]
    simp only [X, z2, hzf2]
  unfold Ctl.atStepEnd
  rw [if_neg (by rw [hhave]; decide)]
  simp only [hzf2, he2]
  rw [hcr]
  simp only [bind_ok]
  cases hLe : L with
  | nil =>
    left
    refine ⟨fun i hi => ?_, _, rfl, ⟨hclean, hhave, hpos, hl2, hflags, hstate, hrec⟩, rfl, rfl, rfl⟩
    have := (hmem i).2 hi
    rw [hLe] at this
    simp at this
  | cons i0 L' =>
    right
    rw [← hLe]
    have hne : L.isEmpty = false := by rw [hLe]; rfl
    have hi0 : i0 ∈ L := by rw [hLe]; simp
    simp only [hne, Bool.false_eq_true, if_false]
    have hLn : ∀ i ∈ L, i < n := fun i hi => ((hmem i).1 hi).1
    rcases earliest_eq (e := e2) (n := n) (by rw [p1]; exact hzf1) (by rw [p2]; exact hl2) L hLn
      with ⟨⟨i, hi, hz⟩, hr⟩ | ⟨hnz, t, o, hr, hmin, ho⟩
    · left
      simp only [hr, bind_error]
      rw [p1, p2] at hz
      exact ⟨⟨i, (hmem i).1 hi, hz⟩, trivial⟩
    · right
      rw [p1, p2] at hmin ho hnz
      simp only [hr, bind_ok]
      rcases ho with ⟨rfl, rfl⟩ | ⟨i, rfl, hi, ht1, ht⟩
      · left
        exact ⟨⟨i0, (hmem i0).1 hi0⟩, fun j hj => ⟨hnz j ((hmem j).2 hj), hmin j ((hmem j).2 hj)⟩, rfl⟩
      · right
        have hin := hLn i hi
        have hu := afterSwitch_eq (e := e2) (n := n) r
          (by rw [p1]; exact hzf1) (by rw [p2]; exact hl2) (by rw [p3]; exact hstate)
          (by rw [p4]; exact hflags) (by rw [p6, p4]; exact hrec) hlen
        simp only [p1, p2, p3, p4] at hu ⊢
        rw [at_getD (by omega) 0]
        simp only [bind_ok]
        rw [rawSet_lt (by rw [List.length_replicate, hzf1]; exact hin)]
        simp only [bind_ok]
        rw [hzf1]
        obtain ⟨res, hsw⟩ : ∃ res, r.switchPhaseState q
          ((List.replicate n 0).set i (sgn (zf2.getD i 0))) (e.t1 + (t2 - e.t1) * t) (t • x2 + (1 - t) • x1) = res := ⟨_, rfl⟩
        obtain ⟨e', hup, q1, q2, hl1, hls, hall⟩ := hu res.1 t i (sgn (zf2.getD i 0)) res.2 (e.t1 + (t2 - e.t1) * t)
        refine ⟨i, e', (hmem i).1 hi, by rw [ht] at ht1; exact ht1, fun j hj => ⟨hnz j ((hmem j).2 hj), ?_⟩, ?_⟩
        · have := hmin j ((hmem j).2 hj)
          rw [ht] at this
          exact this
        · have ht' : tau (z1 i) (zf2.getD i 0) = t := ht.symm
          simp only [ht', hsw]
          rw [hup]
          simp only [bind_ok]
          refine ⟨trivial, ⟨by rw [q2.1, p7, hclean], by rw [q2.2.1, p8, hhave], hpos, hl1, by rw [q1, hflags],
            hls, by rw [q2.2.2, q1, p6, hrec]⟩, q1, hall⟩

end

end Verif.Event
