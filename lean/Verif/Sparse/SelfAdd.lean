import Verif.Sparse.Props

/-! # Property C63: the exact effect of `m += m.transposed()`

The loop adds while it enumerates the map it extends, so elements that were already updated are
added again. -/

set_option linter.unusedSectionVars false
set_option linter.unusedSimpArgs false

namespace Verif.Sparse

variable {K : Type} [CommRing K]

/-- Sum of weights of the keys. -/
def keySum (g : Index → Nat) (d : Data K) : Nat := (d.map (fun e => g e.1)).sum

theorem keySum_modify (g : Index → Nat) (d : Data K) (i : Index) (f : K → K) :
    keySum g (d.modify i f) ≤ keySum g d + g i := by
  induction d with
  | nil => simp [keySum, Data.modify]
  | cons e d ih =>
    unfold Data.modify
    unfold keySum at *
    split
    · simp; omega
    · split
      · rename_i h; subst h; simp
      · simp only [List.map_cons, List.sum_cons] at *; omega

theorem keySum_le (g g' : Index → Nat) (hg : ∀ q, g' q ≤ g q) (d : Data K) :
    keySum g' d ≤ keySum g d := by
  induction d with
  | nil => simp [keySum]
  | cons e d ih => unfold keySum at *; have := hg e.1; simp; omega

theorem keySum_lt (g g' : Index → Nat) (c : Nat) (hg : ∀ q, g' q ≤ g q) (d : Data K)
    (e : Index × K) (he : e ∈ d) (hc : g' e.1 + c ≤ g e.1) : keySum g' d + c ≤ keySum g d := by
  induction d with
  | nil => simp at he
  | cons x d ih =>
    have hx := hg x.1
    have hd := keySum_le g g' hg d
    unfold keySum at *
    simp only [List.map_cons, List.sum_cons] at *
    rcases List.mem_cons.1 he with h | h
    · subst h; omega
    · have := ih h; omega

/-- Cost of visiting a key: an element above the diagonal may create one below. -/
def visitCost (q : Index) : Nat := if q.1 < q.2 then 2 else 1

/-- The value at `q` when the loop ends, if the keys with `rem` are still to be visited. -/
def finalVal (d : Data K) (rem : Index → Bool) (q : Index) : K :=
  let x := d.get q
  let y := d.get (q.2, q.1)
  if q.1 < q.2 then
    if rem q then 2 * x + y else if rem (q.2, q.1) then x + y else x
  else if q.2 < q.1 then
    if rem (q.2, q.1) then x + y else x
  else if rem q then 2 * x else x

theorem addOwnTransposeFrom_get (fuel : Nat) (d : Data K) (rem : Index → Bool)
    (hd : Increasing d) (hrem : ∀ a b, rem a = true → ltI a b = true → rem b = true)
    (hf : keySum (fun q => if rem q then visitCost q else 0) d < fuel) (q : Index) :
    (addOwnTransposeFrom fuel d (d.filter (fun e => rem e.1))).get q = finalVal d rem q := by
  induction fuel generalizing d rem with
  | zero => omega
  | succ fuel ih =>
    cases hr : d.filter (fun e => rem e.1) with
    | nil =>
      have hz : ∀ p, rem p = true → d.get p = 0 := by
        intro p hp
        rw [Data.get_eq]
        cases hp' : d.find p with
        | none => rfl
        | some v =>
          have := (Data.mem_iff hd).2 hp'
          have h2 : (p, v) ∈ d.filter (fun e => rem e.1) := by
            rw [List.mem_filter]; exact ⟨this, hp⟩
          rw [hr] at h2; simp at h2
      have h0 : addOwnTransposeFrom (fuel + 1) d [] = d := by simp [addOwnTransposeFrom]
      rw [h0]
      unfold finalVal
      obtain ⟨r, c⟩ := q
      simp only
      cases h1 : rem (r, c) with
      | true =>
        cases h2 : rem (c, r) with
        | true => simp [hz _ h1, hz _ h2]
        | false =>
          have : ¬ r < c := by
            intro h
            have := hrem (r, c) (c, r) h1 (by rw [ltI_iff]; left; exact h)
            rw [h2] at this; cases this
          simp [hz _ h1, this]
      | false =>
        cases h2 : rem (c, r) with
        | true => simp [hz _ h2]
        | false => simp
    | cons e rest =>
      obtain ⟨i, v⟩ := e
      have hmem : (i, v) ∈ d ∧ rem i = true := by
        have : (i, v) ∈ d.filter (fun e => rem e.1) := by rw [hr]; simp
        rw [List.mem_filter] at this; exact this
      have hfi : d.find i = some v := (Data.mem_iff hd).1 hmem.1
      have hgi : d.get i = v := by rw [Data.get_eq, hfi]; rfl
      -- keys between the cut and `i` are absent
      have hz : ∀ p, rem p = true → ltI p i = true → d.get p = 0 := by
        intro p hp hlt
        rw [Data.get_eq]
        cases hp' : d.find p with
        | none => rfl
        | some w =>
          have hm := (Data.mem_iff hd).2 hp'
          have h2 : (p, w) ∈ d.filter (fun e => rem e.1) := by
            rw [List.mem_filter]; exact ⟨hm, hp⟩
          have hinc : Increasing (d.filter (fun e => rem e.1)) := Data.inc_filter hd _
          rw [hr] at h2 hinc
          rw [inc_cons] at hinc
          rcases List.mem_cons.1 h2 with h2 | h2
          · have : p = i := congrArg Prod.fst h2
            rw [this, ltI_irrefl] at hlt; cases hlt
          · have := ltI_trans (hinc.1 _ h2) hlt
            rw [ltI_irrefl] at this; cases this
      have hd' := Data.inc_modify hd (Transpose.idx i) (fun x => x + v)
      have hstep : addOwnTransposeFrom (fuel + 1) d ((i, v) :: rest)
          = addOwnTransposeFrom fuel (d.modify (Transpose.idx i) (fun x => x + v))
            ((d.modify (Transpose.idx i) (fun x => x + v)).filter (fun e => ltI i e.1)) := by
        rw [← Data.upperBound_eq hd']; rfl
      rw [hstep, ih _ (ltI i) hd' (fun a b h1 h2 => ltI_trans h1 h2)]
      · -- the final values agree
        have hg' : ∀ p, (d.modify (Transpose.idx i) (fun x => x + v)).get p
            = if p = (i.2, i.1) then d.get p + v else d.get p := by
          intro p
          rw [Data.get_eq, Data.find_modify hd, Data.get_eq]
          show (if p = (i.2, i.1) then _ else _ : Option K).getD 0 = _
          by_cases hp : p = (i.2, i.1)
          · rw [if_pos hp, if_pos hp, hp]; rfl
          · rw [if_neg hp, if_neg hp]
        have hnr : ∀ p, rem p = false → ltI i p = false := by
          intro p hp
          cases h : ltI i p with
          | false => rfl
          | true => rw [hrem i p hmem.2 h] at hp; cases hp
        have htri : ∀ p, ltI i p = false → p ≠ i → ltI p i = true :=
          fun p h1 h2 => ltI_total h1 (Ne.symm h2)
        unfold finalVal
        obtain ⟨a, b⟩ := i
        obtain ⟨r, c⟩ := q
        simp only [hg', Prod.mk.injEq]
        have e1 := hz (r, c)
        have e2 := hz (c, r)
        have n1 := hnr (r, c)
        have n2 := hnr (c, r)
        have t1 := htri (r, c)
        have t2 := htri (c, r)
        have hr := hmem.2
        simp only [ltI, Bool.or_eq_true, Bool.and_eq_true, decide_eq_true_eq, beq_iff_eq,
          Bool.or_eq_false_iff, Bool.and_eq_false_iff, decide_eq_false_iff_not, beq_eq_false_iff_ne,
          ne_eq, Prod.mk.injEq] at *
        by_cases hq : r = a ∧ c = b
        · obtain ⟨rfl, rfl⟩ := hq
          rcases lt_trichotomy r c with h | h | h
          · have hx : ¬ r = c := by omega
            have hy : ¬ c = r := by omega
            simp [h, hx, hy, hr, hgi]; ring
          · subst h
            simp [hr, hgi]; ring
          · have hx : ¬ r = c := by omega
            have hy : ¬ c = r := by omega
            have h' : ¬ r < c := by omega
            simp only [h, h', hx, hy]
            cases hc : rem (c, r) with
            | true => simp [e2 hc (Or.inl h), h']
            | false => simp [h']
        · by_cases hp : r = b ∧ c = a
          · obtain ⟨rfl, rfl⟩ := hp
            rcases lt_trichotomy r c with h | h | h
            · have hx : ¬ r = c := by omega
              have hy : ¬ c = r := by omega
              have h' : ¬ c < r := by omega
              simp only [h, h', hx, hy]
              cases hc : rem (r, c) with
              | true => simp [e1 hc (Or.inl h), hgi]
              | false => simp [hr, hgi]
            · omega
            · have hx : ¬ r = c := by omega
              have hy : ¬ c = r := by omega
              have h' : ¬ r < c := by omega
              simp [h, h', hx, hy, hr, hgi]
          · have hp' : ¬ (c = b ∧ r = a) := fun hh => hq ⟨hh.2, hh.1⟩
            have hp2 : ¬ (c = a ∧ r = b) := fun hh => hp ⟨hh.2, hh.1⟩
            simp only [hp, hp', if_false]
            have key1 : rem (r, c) = true → ¬ (a < r ∨ a = r ∧ b < c) → d.get (r, c) = 0 := by
              intro hh1 hh2
              push Not at hh2
              refine e1 hh1 (t1 ⟨by omega, ?_⟩ (fun hh => hq hh))
              by_cases hra : a = r
              · right; have := hh2.2 hra; omega
              · left; exact hra
            have key2 : rem (c, r) = true → ¬ (a < c ∨ a = c ∧ b < r) → d.get (c, r) = 0 := by
              intro hh1 hh2
              push Not at hh2
              refine e2 hh1 (t2 ⟨by omega, ?_⟩ (fun hh => hp2 hh))
              by_cases hra : a = c
              · right; have := hh2.2 hra; omega
              · left; exact hra
            have m1 : (a < r ∨ a = r ∧ b < c) → rem (r, c) = true := by
              intro hh
              cases h : rem (r, c) with
              | true => rfl
              | false => have := n1 h; omega
            have m2 : (a < c ∨ a = c ∧ b < r) → rem (c, r) = true := by
              intro hh
              cases h : rem (c, r) with
              | true => rfl
              | false => have := n2 h; omega
            have m3 : r < c → rem (r, c) = true → rem (c, r) = true :=
              fun h1 h2 => hrem (r, c) (c, r) h2 (Or.inl h1)
            have m4 : c < r → rem (c, r) = true → rem (r, c) = true :=
              fun h1 h2 => hrem (c, r) (r, c) h2 (Or.inl h1)
            by_cases g1 : (a < r ∨ a = r ∧ b < c)
            · have r1 := m1 g1
              by_cases g2 : (a < c ∨ a = c ∧ b < r)
              · have r2 := m2 g2
                simp [g1, g2, r1, r2]
              · have : ¬ r < c := by omega
                simp only [g1, g2, r1, this, if_false, if_true]
                cases hc : rem (c, r) with
                | true => simp [key2 hc g2]
                | false => simp
            · by_cases g2 : (a < c ∨ a = c ∧ b < r)
              · have r2 := m2 g2
                simp only [g1, g2, r2, if_false, if_true]
                cases hc : rem (r, c) with
                | true => simp [key1 hc g1]
                | false => simp
              · simp only [g1, g2, if_false]
                cases hc : rem (r, c) with
                | true =>
                  cases hc2 : rem (c, r) with
                  | true => simp [key1 hc g1, key2 hc2 g2]
                  | false =>
                    have : ¬ r < c := fun h => by simp [m3 h hc] at hc2
                    simp [key1 hc g1, this]
                | false =>
                  cases hc2 : rem (c, r) with
                  | true => simp [key2 hc2 g2]
                  | false => simp
      · -- fuel
        have h1 := keySum_modify (fun q => if ltI i q then visitCost q else 0) d (Transpose.idx i)
          (fun x => x + v)
        have h2 := keySum_lt (fun q => if rem q then visitCost q else 0)
          (fun q => if ltI i q then visitCost q else 0) (visitCost i)
          (fun q => by
            by_cases hq : ltI i q = true
            · simp [hq, hrem i q hmem.2 hq]
            · simp [hq]) d (i, v) hmem.1 (by simp [ltI_irrefl, hmem.2])
        have h3 : (if ltI i (Transpose.idx i) then visitCost (Transpose.idx i) else 0) + 1
            ≤ visitCost i := by
          unfold visitCost Transpose.idx
          simp only [ltI_iff]
          split <;> split <;> (try split) <;> omega
        omega

/-- C63, what `m += m.transposed()` does instead, for every matrix: elements below the diagonal
get the sum with the transpose, diagonal elements are doubled, and elements above the diagonal
count twice. -/
theorem C63_self_add_exact (m : Mat K) (h : Increasing m.data) (r c : Nat) :
    (addOwnTranspose m).data.get (r, c) =
      if r < c then 2 * m.data.get (r, c) + m.data.get (c, r)
      else m.data.get (r, c) + m.data.get (c, r) := by
  have h1 := addOwnTransposeFrom_get (2 * m.data.length + 1) m.data (fun _ => true) h
    (fun _ _ _ _ => rfl) (by
      have : ∀ d : Data K, keySum (fun q => if true = true then visitCost q else 0) d
          ≤ 2 * d.length := by
        intro d
        induction d with
        | nil => simp [keySum]
        | cons e d ih =>
          unfold keySum at *
          have : visitCost e.1 ≤ 2 := by unfold visitCost; split <;> omega
          simp only [if_true, List.map_cons, List.sum_cons, List.length_cons] at *
          omega
      have := this m.data
      omega) (r, c)
  rw [List.filter_true] at h1
  show (addOwnTransposeFrom (2 * m.data.length + 1) m.data m.data).get (r, c) = _
  rw [h1]
  unfold finalVal
  simp only [if_true]
  rcases lt_trichotomy r c with hh | hh | hh
  · simp [hh]
  · subst hh; simp; ring
  · have : ¬ r < c := by omega
    simp [hh, this]

/-- C63 holds for `+=` where the element above the diagonal is zero. -/
theorem C63_self_add_partial (m : Mat K) (h : Increasing m.data) (r c : Nat)
    (hz : r < c → m.data.get (r, c) = 0) :
    (addOwnTranspose m).data.get (r, c) = m.data.get (r, c) + m.data.get (c, r) := by
  rw [C63_self_add_exact m h]
  split
  · rename_i hrc; rw [hz hrc]; ring
  · rfl

example : (addOwnTranspose (⟨(2, 2), [((0, 1), 5), ((1, 1), 3)]⟩ : Mat ℚ)).data.get (0, 1) = 10 := by
  decide +kernel

end Verif.Sparse
