import Verif.LU.Update

/-! # `secantUpdateProportional` (helper lemmas) -/

namespace Verif.LU

open Verif.Res Finset

variable {K : Type _} [Field K] [DecidableEq K] {E : Sten}

/-- Row `i` after scaling by `f`. -/
def pNew (E : Sten) (M : Nat → Nat → K) (i : Nat) (f : K) (r c : Nat) : K :=
  if r = i then
    if c < i then (if E.p i ≤ c then M i c * f else M i c)
    else (if Pat E i c then M i c * f else M i c)
  else M r c

/-- U part of row `i` times `s`, over the pattern -/
def rowU (E : Sten) (M : Nat → Nat → K) (σ : Nat → K) (i : Nat) : K :=
  ∑ c ∈ Ico i E.n, onPat E i (fun c => M i c * σ c) c

/-- One row: either nothing changes (`y i = 0`), or row `i` is scaled by `1 + y i / c`. -/
theorem propRow_post {σ y ρ : Nat → K} {ms my i : Nat} (hs : E.n ≤ ms) (hy : E.n ≤ my)
    (hi : i < E.n) {M : Nat → Nat → K} {st : Fact K} (hR : Rep E true M st) (hz : Zeros E M) :
    Post (propRow ((List.range ms).map σ) ((List.range my).map y) i (st, (List.range i).map ρ))
      (fun a => ∃ f ρ', Rep E true (pNew E M i f) a.1 ∧ Zeros E (pNew E M i f)
        ∧ a.2 = (List.range (i + 1)).map ρ'
        ∧ (∑ k ∈ range i, M i k * ρ k + rowU E M σ i) * f
            = ∑ k ∈ range i, M i k * ρ k + rowU E M σ i + y i
        ∧ (y i ≠ 0 → ∑ k ∈ range i, M i k * ρ k + rowU E M σ i ≠ 0)
        ∧ rowU E (pNew E M i f) σ i = rowU E M σ i * f)
      (fun e => e = .exc
        "LUFactorizer::secantUpdateProportional() failed due to unexpected orthogonality") := by
  have hp := E.p_le i hi
  have hzN : ∀ f, Zeros E (pNew E M i f) := by
    intro f
    constructor
    · intro r c hr hc
      have := E.p_le r hr
      unfold pNew
      split
      · rename_i e; subst e
        rw [if_pos (by omega), if_neg (by omega)]
        exact hz.1 r c hr hc
      · exact hz.1 r c hr hc
    · intro r c hc hr
      have := E.q_le c hc
      unfold pNew
      split
      · rename_i e; subst e
        rw [if_neg (by omega), if_neg (by unfold Pat; omega)]
        exact hz.2 r c hc hr
      · exact hz.2 r c hc hr
  have hrowN : ∀ f, rowU E (pNew E M i f) σ i = rowU E M σ i * f := by
    intro f
    unfold rowU
    rw [Finset.sum_mul]
    apply Finset.sum_congr rfl
    intro c hc
    have hc := mem_Ico.1 hc
    have hci : ¬ c < i := by omega
    unfold onPat
    split
    · rename_i hpt
      simp only [pNew, if_true, if_neg hci, if_pos hpt]; ring
    · simp
  have hone : ∀ r c, pNew E M i 1 r c = M r c := by
    intro r c; unfold pNew
    by_cases h : r = i
    · subst h; simp
    · simp [h]
  have hext : ∀ v : K, (List.range i).map ρ ++ [v]
      = (List.range (i + 1)).map (fun k => if k = i then v else ρ k) := by
    intro v
    rw [List.range_succ, List.map_append]
    congr 1
    · apply List.map_congr_left
      intro k hk
      have := List.mem_range.1 hk
      rw [if_neg (by omega)]
    · simp
  unfold propRow
  simp only
  rw [raw_map_range (by omega), hR.toShape.raw_p hi]
  simp only [bind_ok]
  refine Post.bind (Q := fun cl => cl = ∑ k ∈ range i, M i k * ρ k) ?_ ?_
  · refine loop_post (fun j cl => cl = ∑ k ∈ range j, M i k * ρ k) hp ?_ ?_
    · symm; apply Finset.sum_eq_zero
      intro k hk; rw [hz.1 i k hi (mem_range.1 hk), zero_mul]
    · rintro k cl hk1 hk2 rfl
      rw [hR.rdL hi hk2 hk1, raw_map_range hk2]
      simp only [bind_ok, post_ok]
      rw [sum_range_succ]
  rintro cl rfl
  rw [hR.toShape.raw_s hi]
  simp only [bind_ok]
  refine Post.bind (Q := fun cu => cu = rowU E M σ i) ?_ ?_
  · refine patLoop i hi (fun k cu => .ok (cu + M i k * σ k))
      (fun j ri => ri = ∑ c ∈ Ico i j, onPat E i (fun c => M i c * σ c) c) _ ?_ ?_ ?_ _ ?_ ?_
    · simp
    · rintro k ri hk1 hk2 hpat rfl
      simp only [post_ok]
      rw [Finset.sum_Ico_succ_top hk1]
      simp only [onPat, if_pos hpat]
    · rintro k ri hk1 hk2 hpat rfl
      rw [Finset.sum_Ico_succ_top hk1]
      simp only [onPat, if_neg hpat, add_zero]
    · rintro k ri hik hk hq _
      rw [hR.toShape.raw_q hk]
      simp only [bind_ok, ge_iff_le, if_pos hq]
      rw [hR.rdU hk hik hq, raw_map_range (by omega)]; rfl
    · rintro k ri hik hk hq _
      rw [hR.toShape.raw_q hk]
      simp only [bind_ok, ge_iff_le, if_neg hq]
  rintro cu rfl
  split
  · rename_i hb
    refine ⟨1, _, hR.congr (fun r c _ _ _ => hone r c), hzN 1, hext _, ?_, fun h => absurd hb h,
      hrowN 1⟩
    rw [hb]; ring
  split
  · rfl
  · rename_i hb hc
    unfold Res.div
    rw [if_neg hc]
    simp only [bind_ok]
    set f := y i / (∑ k ∈ range i, M i k * ρ k + rowU E M σ i) + 1 with hf
    refine Post.bind (Q := fun st' => Rep E true
      (fun r c => if r = i ∧ E.p i ≤ c ∧ c < i then M r c * f else M r c) st') ?_ ?_
    · refine loop_post (fun j st' => Rep E true
        (fun r c => if r = i ∧ E.p i ≤ c ∧ c < j then M r c * f else M r c) st') hp ?_ ?_
      · refine hR.congr ?_
        intro r c _ _ _
        rw [if_neg (by omega)]
      · intro k st' hk1 hk2 hR'
        rw [hR'.rdL hi hk2 hk1]
        simp only [bind_ok]
        rw [if_neg (by omega)]
        obtain ⟨st'', e1, e2⟩ := hR'.wrL hi hk2 hk1 (M i k * f)
        refine Post.of_ok e1 (e2.congr ?_)
        intro r c _ _ _
        unfold upd
        by_cases e : r = i ∧ c = k
        · obtain ⟨rfl, rfl⟩ := e
          rw [if_pos (by omega), if_pos ⟨rfl, rfl⟩]
        · rw [if_neg e]
          simp only
          split <;> split <;> first | rfl | omega
    · intro st1 hR1
      let MM : Nat → Nat → Nat → K := fun j r c =>
        if r = i ∧ i ≤ c ∧ c < j ∧ Pat E i c then M r c * f
        else if r = i ∧ E.p i ≤ c ∧ c < i then M r c * f else M r c
      refine Post.bind (Q := fun sr => Rep E true (pNew E M i f) sr.1) ?_ ?_
      · refine (patLoop (E := E) i hi (fun k (sr : Fact K × K) => do
            let st ← wrU sr.1 i k (M i k * f)
            let a' ← rdU st i k
            .ok (st, sr.2 + a' * σ k))
          (fun j (sr : Fact K × K) => Rep E true (MM j) sr.1)
          _ ?_ ?_ ?_ _ ?_ ?_).mono ?_ (fun _ h => h)
        · refine hR1.congr ?_
          intro r c _ _ _
          simp only [MM]
          rw [if_neg (by omega)]
        · rintro k ⟨st', v⟩ hk1 hk2 hpat hR'
          simp only at hR'
          obtain ⟨st'', e1, e2⟩ := hR'.wrU hk2 hk1 hpat.2 (M i k * f)
          simp only
          rw [e1]
          simp only [bind_ok]
          rw [e2.rdU hk2 hk1 hpat.2, upd_same]
          simp only [bind_ok, post_ok]
          refine e2.congr ?_
          intro r c _ _ _
          unfold upd
          simp only [MM]
          by_cases e : r = i ∧ c = k
          · obtain ⟨rfl, rfl⟩ := e
            rw [if_pos ⟨rfl, hk1, by omega, hpat⟩, if_pos ⟨rfl, rfl⟩]
          · rw [if_neg e]
            by_cases e1 : r = i ∧ i ≤ c ∧ c < k ∧ Pat E i c
            · rw [if_pos e1, if_pos ⟨e1.1, e1.2.1, by omega, e1.2.2.2⟩]
            · rw [if_neg e1, if_neg (fun h => e1 ⟨h.1, h.2.1, by omega, h.2.2.2⟩)]
        · rintro k ⟨st', v⟩ hk1 hk2 hpat hR'
          simp only at hR' ⊢
          refine hR'.congr ?_
          intro r c _ _ _
          simp only [MM]
          by_cases e1 : r = i ∧ i ≤ c ∧ c < k ∧ Pat E i c
          · rw [if_pos e1, if_pos ⟨e1.1, e1.2.1, by omega, e1.2.2.2⟩]
          · rw [if_neg e1, if_neg (fun h => e1 ⟨h.1, h.2.1, by
              by_contra hck
              obtain rfl : c = k := by omega
              exact hpat h.2.2.2, h.2.2.2⟩)]
        · rintro k ⟨st', v⟩ hik hk hq hR'
          simp only at hR' ⊢
          rw [hR'.toShape.raw_q hk]
          simp only [bind_ok, ge_iff_le, if_pos hq]
          rw [raw_map_range (by omega), hR'.rdU hk hik hq]
          simp only [bind_ok]
          have : MM k i k = M i k := by
            simp only [MM]
            rw [if_neg (by omega), if_neg (by omega)]
          rw [this]
        · rintro k ⟨st', v⟩ hik hk hq hR'
          simp only at hR' ⊢
          rw [hR'.toShape.raw_q hk]
          simp only [bind_ok, ge_iff_le, if_neg hq]
        · rintro ⟨st', v⟩ hR'
          refine hR'.congr ?_
          intro r c _ hcn _
          simp only [MM, pNew]
          by_cases hr : r = i
          · subst hr
            by_cases hci : c < r
            · have hnot : ¬(r ≤ c ∧ c < E.n ∧ Pat E r c) := by omega
              simp only [if_true, hci, hnot, if_false, true_and, and_true]
            · simp only [if_true, hci, true_and, and_false, if_false]
              by_cases hpt : Pat E r c
              · rw [if_pos hpt, if_pos ⟨by omega, hcn, hpt⟩]
              · rw [if_neg hpt, if_neg (fun h => hpt h.2.2)]
          · simp [hr]
      · rintro ⟨st2, v⟩ hR2
        refine ⟨f, _, hR2, hzN f, hext v, ?_, fun _ => hc, hrowN f⟩
        rw [hf, mul_add, mul_div_cancel₀ _ hc]; ring

/-- After the whole update the first row is `old + y 0`. -/
theorem prop_post {σ y : Nat → K} {ms my : Nat} (hs : E.n ≤ ms) (hy : E.n ≤ my) (hn : 0 < E.n)
    {M : Nat → Nat → K} {st : Fact K} (hR : Rep E true M st) (hz : Zeros E M) :
    Post (loop 0 st.p.length (propRow ((List.range ms).map σ) ((List.range my).map y)) (st, []))
      (fun a => ∃ M', Rep E true M' a.1 ∧ Zeros E M'
        ∧ rowU E M' σ 0 = rowU E M σ 0 + y 0 ∧ (y 0 ≠ 0 → rowU E M σ 0 ≠ 0))
      (fun e => e = .exc
        "LUFactorizer::secantUpdateProportional() failed due to unexpected orthogonality") := by
  rw [hR.toShape.len]
  refine (loop_post (fun i a => ∃ M' ρ, Rep E true M' a.1 ∧ Zeros E M'
      ∧ a.2 = (List.range i).map ρ ∧ (i = 0 → M' = M) ∧ (0 < i →
        rowU E M' σ 0 = rowU E M σ 0 + y 0 ∧ (y 0 ≠ 0 → rowU E M σ 0 ≠ 0)))
    (Nat.zero_le _) ?_ ?_).mono ?_ (fun _ h => h)
  · exact ⟨M, fun _ => 0, hR, hz, rfl, fun _ => rfl, fun h => by omega⟩
  · rintro i ⟨st', rs⟩ _ hi ⟨M', ρ, h1, h2, h3, h4, h5⟩
    simp only at h1 h3
    subst h3
    refine (propRow_post hs hy hi h1 h2).mono ?_ (fun _ h => h)
    rintro a ⟨f, ρ', g1, g2, g3, g4, g5, g6⟩
    refine ⟨_, ρ', g1, g2, g3, fun h => by omega, fun _ => ?_⟩
    rcases Nat.eq_zero_or_pos i with rfl | hpos
    · have := h4 rfl; subst this
      simp only [range_zero, sum_empty, zero_add] at g4 g5
      exact ⟨by rw [g6, g4], g5⟩
    · have := h5 hpos
      refine ⟨?_, this.2⟩
      rw [← this.1]
      unfold rowU
      apply Finset.sum_congr rfl
      intro c _
      have : ¬ (0 = i) := by omega
      simp only [pNew, this, if_false]
  · rintro a ⟨M', ρ, h1, h2, _, _, h5⟩
    exact ⟨M', h1, h2, h5 hn⟩

end Verif.LU
