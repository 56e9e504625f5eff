import Verif.Driver.Model
import Verif.Util.Lemmas
import Mathlib.Data.List.Nodup
import Mathlib.Data.List.Range

/-! # C46: which components are written, and their names in the header -/

namespace Verif.Driver

/-- All indices below `n` if there are at most `2 L`, otherwise the first `L` and the last `L` -/
def chosen (L n : Nat) : List Nat :=
  if n ≤ 2 * L then List.range n else List.range L ++ List.range' (n - L) L

theorem addLoop_succ (a n L fuel i : Nat) (l : List Nat) :
    addIndicesLoop a n L (fuel + 1) i l = if i < n then
      addIndicesLoop a n L fuel (addIndicesStep a n L i l).1 (addIndicesStep a n L i l).2 else some l := rfl

theorem addLoop_plain (a n L k i fuel : Nat) (l : List Nat) (hk : i + k ≤ n) (ha : a + n ≤ 4294967296)
    (hj : ∀ j, i ≤ j → j < i + k → ¬ (j = L ∧ (2 * L) % 4294967296 < n)) :
    addIndicesLoop a n L (fuel + k) i l
      = addIndicesLoop a n L fuel (i + k) (l ++ (List.range' i k).map (a + ·)) := by
  induction k generalizing i l with
  | zero => simp
  | succ k ih =>
    rw [← Nat.add_assoc, addLoop_succ, if_pos (by omega)]
    unfold addIndicesStep
    rw [if_neg (hj i (Nat.le_refl _) (by omega))]
    simp only
    rw [ih (i + 1) _ (by omega) (fun j h1 h2 => hj j (by omega) (by omega)),
      Nat.mod_eq_of_lt (by omega : a + i < 4294967296), List.range'_succ]
    simp [Nat.add_assoc, Nat.add_comm 1 k]

theorem addIndices_ok (L fuel a b : Nat) (l : List Nat) (hL : L < 4294967296) (hab : a ≤ b)
    (hb : b < 4294967296) (hn : b - a ≤ 2147483648) (hf : b - a + 2 ≤ fuel) :
    addIndices L fuel a b l = some (l ++ (chosen L (b - a)).map (a + ·)) := by
  obtain ⟨n, hn'⟩ : ∃ n, b - a = n := ⟨_, rfl⟩
  have hm : (b + 4294967296 - a) % 4294967296 = n := by omega
  unfold addIndices
  rw [hm, hn']
  have hend : ∀ fuel l, 0 < fuel → addIndicesLoop a n L fuel n l = some l := by
    intro fuel l h
    obtain ⟨k, rfl⟩ : ∃ k, fuel = k + 1 := ⟨fuel - 1, by omega⟩
    rw [addLoop_succ, if_neg (by omega)]
  by_cases hc : n ≤ 2 * L
  · obtain ⟨f', rfl⟩ : ∃ f', fuel = f' + n := ⟨fuel - n, by omega⟩
    rw [addLoop_plain a n L n 0 f' l (by omega) (by omega), Nat.zero_add, hend _ _ (by omega)]
    · rw [chosen, if_pos hc, List.range_eq_range']
    · intro j _ hj ⟨h1, h2⟩
      by_cases hb : 2 * L < 4294967296
      · rw [Nat.mod_eq_of_lt hb] at h2
        omega
      · omega
  · have hb : 2 * L < 4294967296 := by omega
    obtain ⟨f', rfl⟩ : ∃ f', fuel = f' + L + 1 + L := ⟨fuel - 2 * L - 1, by omega⟩
    rw [addLoop_plain a n L L 0 _ _ (by omega) (by omega) (by omega), Nat.zero_add]
    rw [addLoop_succ, if_pos (by omega)]
    have hstep : ∀ l, addIndicesStep a n L L l = (n - L, l) := by
      intro l
      unfold addIndicesStep
      rw [Nat.mod_eq_of_lt hb]
      exact if_pos ⟨rfl, by omega⟩
    rw [hstep]
    simp only
    rw [addLoop_plain a n L L (n - L) f' _ (by omega) (by omega) (by omega),
      show n - L + L = n by omega, hend _ _ (by omega)]
    rw [chosen, if_neg hc, List.range_eq_range']
    simp

/-- C46. Without second-order variables: the selection ends and is all components if there are at most `2 L`,
otherwise the first `L` and the last `L`. -/
theorem C46_indices (L n fuel : Nat) (hL : L < 4294967296) (hn : n ≤ 2147483648) (hf : n + 2 ≤ fuel) :
    indices L fuel n 0 = some (chosen L n) := by
  unfold indices
  rw [if_pos rfl, addIndices_ok L fuel 0 n [] hL (by omega) (by omega) (by omega) (by omega)]
  simp

/-- C46. With second-order variables: so for the coordinates, for their velocities, and for the variables of
first-order equations. -/
theorem C46_indices_second (L n n2 fuel : Nat) (hL : L < 4294967296) (hn : n ≤ 2147483648) (h2 : 0 < n2)
    (h2n : 2 * n2 ≤ n) (hf : n + 2 ≤ fuel) :
    indices L fuel n n2 = some (chosen L n2 ++ (chosen L n2).map (n2 + ·) ++
      (chosen L (n - 2 * n2)).map (2 * n2 + ·)) := by
  unfold indices
  rw [if_neg (by omega), Nat.mod_eq_of_lt (by omega : 2 * n2 < 4294967296),
    addIndices_ok L fuel 0 n2 [] hL (by omega) (by omega) (by omega) (by omega)]
  simp only [Option.bind_eq_bind, Option.bind_some]
  rw [addIndices_ok L fuel n2 (2 * n2) _ hL (by omega) (by omega) (by omega) (by omega)]
  simp only [Option.bind_some]
  rw [addIndices_ok L fuel (2 * n2) n _ hL (by omega) (by omega) (by omega) (by omega),
    show 2 * n2 - n2 = n2 by omega]
  simp

theorem chosen_sorted (L n : Nat) : (chosen L n).Pairwise (· < ·) := by
  unfold chosen
  split
  · exact List.pairwise_lt_range
  · rw [List.pairwise_append]
    refine ⟨List.pairwise_lt_range, List.pairwise_lt_range', ?_⟩
    intro a ha b hb
    rw [List.mem_range] at ha
    rw [List.mem_range'_1] at hb
    omega

theorem mem_chosen (L n i : Nat) : i ∈ chosen L n ↔ i < n ∧ (n ≤ 2 * L ∨ i < L ∨ n ≤ i + L) := by
  unfold chosen
  split
  · rw [List.mem_range]
    omega
  · rw [List.mem_append, List.mem_range, List.mem_range'_1]
    omega

/-- C46. The components selected are strictly increasing, so without repetition, and exist. -/
theorem C46_increasing (L n n2 fuel : Nat) (hL : L < 4294967296) (hn : n ≤ 2147483648)
    (h2n : 2 * n2 ≤ n) (hf : n + 2 ≤ fuel) :
    ∃ ix, indices L fuel n n2 = some ix ∧ ix.Pairwise (· < ·) ∧ (∀ i ∈ ix, i < n) := by
  by_cases h0 : n2 = 0
  · subst h0
    exact ⟨_, C46_indices L n fuel hL hn hf, chosen_sorted L n, fun i hi => ((mem_chosen L n i).1 hi).1⟩
  · refine ⟨_, C46_indices_second L n n2 fuel hL hn (by omega) h2n hf, ?_, ?_⟩
    · rw [List.pairwise_append, List.pairwise_append]
      refine ⟨⟨chosen_sorted _ _, (chosen_sorted _ _).map _ (by intros; omega), ?_⟩,
        (chosen_sorted _ _).map _ (by intros; omega), ?_⟩
      · intro a ha b hb
        obtain ⟨c, hc, rfl⟩ := List.mem_map.1 hb
        have := ((mem_chosen _ _ _).1 ha).1
        omega
      · intro a ha b hb
        obtain ⟨c, hc, rfl⟩ := List.mem_map.1 hb
        rcases List.mem_append.1 ha with ha | ha
        · have := ((mem_chosen _ _ _).1 ha).1
          omega
        · obtain ⟨d, hd, rfl⟩ := List.mem_map.1 ha
          have := ((mem_chosen _ _ _).1 hd).1
          omega
    · intro i hi
      rcases List.mem_append.1 hi with hi | hi
      · rcases List.mem_append.1 hi with hi | hi
        · have := ((mem_chosen _ _ _).1 hi).1
          omega
        · obtain ⟨d, hd, rfl⟩ := List.mem_map.1 hi
          have := ((mem_chosen _ _ _).1 hd).1
          omega
      · obtain ⟨d, hd, rfl⟩ := List.mem_map.1 hi
        have := ((mem_chosen _ _ _).1 hd).1
        omega

/-- C46 fails beyond 2³¹ components: with the half limit 2³¹ the doubled limit is zero in 32 bits, the index
goes back from 2³¹ to 1, and the selection never ends. -/
theorem C46_indices_false (fuel : Nat) : indices 2147483648 fuel 2147483649 0 = none := by
  unfold indices
  rw [if_pos rfl]
  unfold addIndices
  have hm : (2147483649 + 4294967296 - 0) % 4294967296 = 2147483649 := by decide
  rw [hm]
  have key : ∀ fuel i l, i ≤ 2147483648 →
      addIndicesLoop 0 2147483649 2147483648 fuel i l = none := by
    intro fuel
    induction fuel with
    | zero => intros; rfl
    | succ fuel ih =>
      intro i l hi
      rw [addLoop_succ, if_pos (by omega)]
      unfold addIndicesStep
      split
      · exact ih _ _ (by omega)
      · rename_i hne
        have : i ≠ 2147483648 := fun h => hne ⟨h, by decide⟩
        exact ih _ _ (by omega)
  exact key fuel 0 [] (by omega)

theorem formatInt_inj {a b : Nat} (ha : a < 2147483648) (hb : b < 2147483648)
    (h : formatInt a = formatInt b) : a = b := by
  unfold formatInt at h
  rw [if_pos (by omega), if_pos (by omega), Nat.mod_eq_of_lt (by omega), Nat.mod_eq_of_lt (by omega)] at h
  exact Util.dec_inj h

/-- C46. Different components have different names in the header. -/
theorem C46_names (n2 : Nat) {i j : Nat} (hi : i < 2147483648) (hj : j < 2147483648)
    (h : columnName n2 i = columnName n2 j) : i = j := by
  have hc : ∀ k, (columnName n2 k = 'x' :: formatInt k ∧ (n2 = 0 ∨ k < n2)) ∨
      (columnName n2 k = 'v' :: formatInt (k - n2) ∧ n2 ≤ k ∧ k < 2 * n2) ∨
      (columnName n2 k = 'z' :: formatInt (k - 2 * n2) ∧ 2 * n2 ≤ k) := by
    intro k
    unfold columnName
    by_cases h1 : n2 = 0 ∨ k < n2
    · exact .inl ⟨if_pos h1, h1⟩
    · rw [if_neg h1]
      by_cases h2 : k < 2 * n2
      · exact .inr (.inl ⟨if_pos h2, by omega, h2⟩)
      · exact .inr (.inr ⟨if_neg h2, by omega⟩)
  rcases hc i with ⟨a, ha⟩ | ⟨a, ha⟩ | ⟨a, ha⟩ <;> rcases hc j with ⟨b, hb⟩ | ⟨b, hb⟩ | ⟨b, hb⟩ <;>
    rw [a, b] at h
  all_goals first
    | exact absurd (List.cons.inj h).1 (by decide)
    | (have := formatInt_inj (by omega) (by omega) (List.cons.inj h).2; omega)

/-- Seven variables, two of them coordinates, half limit 1 -/
example : indices 1 9 7 2 = some [0, 1, 2, 3, 4, 6] ∧
    [0, 1, 2, 3, 4, 6].map (columnName 2) = ["x0", "x1", "v0", "v1", "z0", "z2"].map String.toList := by
  decide

end Verif.Driver
