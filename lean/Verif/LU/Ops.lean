import Verif.LU.SetMatrix

/-! # `factorize` and `solve` without laws of arithmetic (helper lemmas)

What the loops compute as a sequence of operations, for numbers that only have the operations. -/

set_option linter.unusedSectionVars false

namespace Verif.LU

open Verif.Res

section Chain
variable {K : Type _} [Sub K]

/-- `a - f 0 - f 1 - …`, in this order, over the indices below `j` at which `on` holds -/
def chain (on : Nat → Prop) [DecidablePred on] (f : Nat → K) (a : K) : Nat → K
  | 0 => a
  | j + 1 => if on j then chain on f a j - f j else chain on f a j

variable {on : Nat → Prop} [DecidablePred on] {f : Nat → K} {a : K}

theorem chain_off {j : Nat} (h : ∀ k < j, ¬ on k) : chain on f a j = a := by
  induction j with
  | zero => rfl
  | succ j ih =>
    rw [chain, if_neg (h j (by omega))]
    exact ih fun k hk => h k (by omega)

theorem chain_congr {g : Nat → K} {j : Nat} (h : ∀ k < j, on k → f k = g k) : chain on f a j = chain on g a j := by
  induction j with
  | zero => rfl
  | succ j ih =>
    rw [chain, chain, ih fun k hk => h k (by omega)]
    split
    · rename_i hon
      rw [h j (by omega) hon]
    · rfl

/-- Nothing happens beyond the last index at which `on` holds. -/
theorem chain_stop {m j : Nat} (hmj : m ≤ j) (h : ∀ k, m ≤ k → k < j → ¬ on k) : chain on f a j = chain on f a m := by
  induction j with
  | zero =>
    obtain rfl : m = 0 := by omega
    rfl
  | succ j ih =>
    rcases Nat.eq_or_lt_of_le hmj with rfl | hlt
    · rfl
    · rw [chain, if_neg (h j (by omega) (by omega))]
      exact ih (by omega) fun k h1 h2 => h k h1 (by omega)

theorem foldl_chain (j : Nat) :
    Fin.foldl j (fun acc (k : Fin j) => if on k then acc - f k else acc) a = chain on f a j := by
  induction j with
  | zero => rfl
  | succ j ih =>
    rw [Fin.foldl_succ_last, chain]
    have e : Fin.foldl j (fun acc (k : Fin j) => if on (k.castSucc : Fin (j + 1)) then acc - f (k.castSucc : Fin (j + 1)) else acc) a
        = chain on f a j := ih
    rw [e]
    rfl

end Chain

variable {K : Type _} [Zero K] [Sub K] [Mul K] [Div K]

/-- What `factorize` stores at `(r,c)`, with the order of operations of the code: below the diagonal L, on and above it U. -/
def luOps (p q : Nat → Nat) (A : Nat → Nat → K) (r c : Nat) : K :=
  if _h : c < r then
    Fin.foldl c (fun acc (k : Fin c) => if p r ≤ k ∧ q c ≤ k then acc - luOps p q A r k * luOps p q A k c else acc) (A r c)
      / luOps p q A c c
  else
    Fin.foldl r (fun acc (k : Fin r) => if p r ≤ k ∧ q c ≤ k then acc - luOps p q A r k * luOps p q A k c else acc) (A r c)
termination_by r + c
decreasing_by
  all_goals (try have := k.isLt)
  all_goals omega

/-- The sum for the position `(r,c)`, up to the index `j` -/
def rowChain (E : Sten) (M : Nat → Nat → K) (a : K) (r c j : Nat) : K :=
  chain (fun k => E.p r ≤ k ∧ E.q c ≤ k) (fun k => M r k * M k c) a j

variable {E : Sten} {A : Nat → Nat → K}

theorem luOps_lower {r c : Nat} (h : c < r) :
    luOps E.p E.q A r c = rowChain E (luOps E.p E.q A) (A r c) r c c / luOps E.p E.q A c c := by
  rw [luOps, dif_pos h]
  congr 1
  exact foldl_chain (on := fun k => E.p r ≤ k ∧ E.q c ≤ k) (f := fun k => luOps E.p E.q A r k * luOps E.p E.q A k c) c

theorem luOps_upper {r c : Nat} (h : r ≤ c) :
    luOps E.p E.q A r c = rowChain E (luOps E.p E.q A) (A r c) r c r := by
  rw [luOps, dif_neg (by omega)]
  exact foldl_chain (on := fun k => E.p r ≤ k ∧ E.q c ≤ k) (f := fun k => luOps E.p E.q A r k * luOps E.p E.q A k c) r

theorem rowChain_base {M : Nat → Nat → K} {a : K} {r c : Nat} :
    rowChain E M a r c (max (E.p r) (E.q c)) = a :=
  chain_off fun k hk => by omega

theorem rowChain_succ {M : Nat → Nat → K} {a : K} {r c j : Nat} (h : max (E.p r) (E.q c) ≤ j) :
    rowChain E M a r c (j + 1) = rowChain E M a r c j - M r j * M j c := by
  unfold rowChain
  rw [chain, if_pos (by omega)]

variable [DecidableEq K]

/-- The factorization divides by zero. -/
def PivZero (E : Sten) (A : Nat → Nat → K) (e : Fault) : Prop :=
  e = .divZero ∧ ∃ c, c < E.n ∧ luOps E.p E.q A c c = 0

theorem factorL_ops {st : Fact K} {M : Nat → Nat → K} (h : Rep E true M st)
    {i c : Nat} (hi : i < E.n) (hc : c < i) (hp : E.p i ≤ c)
    (hrow : ∀ k, k < c → E.p i ≤ k → M i k = luOps E.p E.q A i k)
    (hcol : ∀ k, k ≤ c → E.q c ≤ k → M k c = luOps E.p E.q A k c)
    (hv : M i c = A i c) :
    Post (factorL i c st) (fun st' => Rep E true (upd M i c (luOps E.p E.q A i c)) st' ∧ luOps E.p E.q A c c ≠ 0)
      (PivZero E A) := by
  have hcn : c < E.n := by omega
  have hqc := E.q_le c hcn
  unfold factorL
  rw [h.toShape.maxpq hi hcn]
  simp only [bind_ok]
  refine Post.bind (Q := fun st' => Rep E true (upd M i c (rowChain E (luOps E.p E.q A) (A i c) i c c)) st') ?_ ?_
  · refine loop_post (fun j st' => Rep E true (upd M i c (rowChain E (luOps E.p E.q A) (A i c) i c j)) st') (by omega) ?_ ?_
    · rw [rowChain_base, ← hv]
      refine h.congr ?_
      intro r' c' _ _ _
      unfold upd; split
      · rename_i heq; rw [heq.1, heq.2]
      · rfl
    · intro j st' hj1 hj2 hR
      rw [hR.rdL hi hc hp, hR.rdL hi (by omega) (by omega), hR.rdU hcn (by omega) (by omega)]
      simp only [bind_ok, upd_same]
      obtain ⟨st'', e1, e2⟩ := hR.wrL hi hc hp
        (rowChain E (luOps E.p E.q A) (A i c) i c j
          - upd M i c (rowChain E (luOps E.p E.q A) (A i c) i c j) i j
            * upd M i c (rowChain E (luOps E.p E.q A) (A i c) i c j) j c)
      refine Post.of_ok e1 ?_
      rw [upd_upd] at e2
      rw [upd_ne _ _ (by omega), upd_ne _ _ (by omega), hrow j (by omega) (by omega),
        hcol j (by omega) (by omega)] at e2
      rw [rowChain_succ hj1]
      exact e2
  · intro st' hR
    rw [hR.rdL hi hc hp, hR.rdU hcn (le_refl _) hqc]
    simp only [bind_ok, upd_same]
    rw [upd_ne _ _ (by omega), hcol c (le_refl _) hqc]
    unfold Res.div
    split
    · rename_i h0
      exact ⟨rfl, c, hcn, h0⟩
    · rename_i hne
      simp only [bind_ok]
      rw [← luOps_lower hc]
      obtain ⟨st'', e1, e2⟩ := hR.wrL hi hc hp (luOps E.p E.q A i c)
      rw [upd_upd] at e2
      exact Post.of_ok e1 ⟨e2, hne⟩

omit [DecidableEq K] in
theorem factorU_ops {st : Fact K} {M : Nat → Nat → K} (h : Rep E true M st)
    {i r : Nat} (hi : i < E.n) (hr : r < i) (hq : E.q i ≤ r)
    (hrow : ∀ k, k < r → E.p r ≤ k → M r k = luOps E.p E.q A r k)
    (hcol : ∀ k, k < r → E.q i ≤ k → M k i = luOps E.p E.q A k i)
    (hv : M r i = A r i) :
    Post (factorU i r st) (fun st' => Rep E true (upd M r i (luOps E.p E.q A r i)) st')
      (fun _ => False) := by
  have hrn : r < E.n := by omega
  have hpr := E.p_le r hrn
  unfold factorU
  rw [h.toShape.maxpq hrn hi]
  simp only [bind_ok]
  rw [luOps_upper hr.le]
  refine loop_post (fun j st' => Rep E true (upd M r i (rowChain E (luOps E.p E.q A) (A r i) r i j)) st') (by omega) ?_ ?_
  · rw [rowChain_base, ← hv]
    refine h.congr ?_
    intro r' c' _ _ _
    unfold upd; split
    · rename_i heq; rw [heq.1, heq.2]
    · rfl
  · intro j st' hj1 hj2 hR
    rw [hR.rdU hi hr.le hq, hR.rdL hrn (by omega) (by omega), hR.rdU hi (by omega) (by omega)]
    simp only [bind_ok, upd_same]
    obtain ⟨st'', e1, e2⟩ := hR.wrU hi hr.le hq
      (rowChain E (luOps E.p E.q A) (A r i) r i j
        - upd M r i (rowChain E (luOps E.p E.q A) (A r i) r i j) r j
          * upd M r i (rowChain E (luOps E.p E.q A) (A r i) r i j) j i)
    refine Post.of_ok e1 ?_
    rw [upd_upd] at e2
    rw [upd_ne _ _ (by omega), upd_ne _ _ (by omega), hrow j (by omega) (by omega),
      hcol j (by omega) (by omega)] at e2
    rw [rowChain_succ hj1]
    exact e2

omit [DecidableEq K] in
theorem factorD_ops {st : Fact K} {M : Nat → Nat → K} (h : Rep E true M st)
    {i : Nat} (hi : i < E.n)
    (hrow : ∀ k, k < i → E.p i ≤ k → M i k = luOps E.p E.q A i k)
    (hcol : ∀ k, k < i → E.q i ≤ k → M k i = luOps E.p E.q A k i)
    (hv : M i i = A i i) :
    Post (factorD i st) (fun st' => Rep E true (upd M i i (luOps E.p E.q A i i)) st')
      (fun _ => False) := by
  have hpr := E.p_le i hi
  have hqr := E.q_le i hi
  unfold factorD
  rw [h.toShape.maxpq hi hi]
  simp only [bind_ok]
  rw [luOps_upper (le_refl i)]
  refine loop_post (fun j st' => Rep E true (upd M i i (rowChain E (luOps E.p E.q A) (A i i) i i j)) st') (by omega) ?_ ?_
  · rw [rowChain_base, ← hv]
    refine h.congr ?_
    intro r' c' _ _ _
    unfold upd; split
    · rename_i heq; rw [heq.1, heq.2]
    · rfl
  · intro j st' hj1 hj2 hR
    rw [hR.rdU hi (le_refl _) hqr, hR.rdL hi (by omega) (by omega),
      hR.rdU hi (by omega) (by omega)]
    simp only [bind_ok, upd_same]
    obtain ⟨st'', e1, e2⟩ := hR.wrU hi (le_refl _) hqr
      (rowChain E (luOps E.p E.q A) (A i i) i i j
        - upd M i i (rowChain E (luOps E.p E.q A) (A i i) i i j) i j
          * upd M i i (rowChain E (luOps E.p E.q A) (A i i) i i j) j i)
    refine Post.of_ok e1 ?_
    rw [upd_upd] at e2
    rw [upd_ne _ _ (by omega), upd_ne _ _ (by omega), hrow j (by omega) (by omega),
      hcol j (by omega) (by omega)] at e2
    rw [rowChain_succ hj1]
    exact e2

/-- Progress of the factorization: which positions already hold the factors. -/
def stageOps (E : Sten) (A : Nat → Nat → K) (i cc rr : Nat) (r c : Nat) : K :=
  if (r < i ∧ c < i) ∨ (r = i ∧ c < cc) ∨ (c = i ∧ r < rr) then luOps E.p E.q A r c else A r c

theorem factorStep_ops {st : Fact K} {i : Nat} (hi : i < E.n)
    (h : Rep E true (stageOps E A i 0 0) st) :
    Post (factorStep i st) (fun st' => Rep E true (stageOps E A (i + 1) 0 0) st'
      ∧ ∀ c, c < i → E.p i ≤ c → luOps E.p E.q A c c ≠ 0) (PivZero E A) := by
  have hpi := E.p_le i hi
  have hqi := E.q_le i hi
  unfold factorStep
  rw [h.toShape.raw_p hi]
  simp only [bind_ok]
  refine Post.bind (Q := fun st' => Rep E true (stageOps E A i i 0) st'
    ∧ ∀ c, c < i → E.p i ≤ c → luOps E.p E.q A c c ≠ 0) ?_ ?_
  · refine loop_post (fun cc st' => Rep E true (stageOps E A i cc 0) st'
      ∧ ∀ c, c < cc → E.p i ≤ c → luOps E.p E.q A c c ≠ 0) hpi ?_ ?_
    · refine ⟨h.congr ?_, fun c h1 h2 => by omega⟩
      intro r c hr hc henv
      unfold stageOps
      rcases eq_or_ne r i with rfl | hne <;> split <;> split <;> first | rfl | omega
    · rintro c st' h1 h2 ⟨hR, hpiv⟩
      refine (factorL_ops (A := A) hR hi h2 h1 ?_ ?_ ?_).mono ?_ (fun _ h => h)
      · intro k hk _; unfold stageOps; rw [if_pos (by omega)]
      · intro k hk _; unfold stageOps; rw [if_pos (by omega)]
      · unfold stageOps; rw [if_neg (by omega)]
      · rintro st'' ⟨hR', hne⟩
        refine ⟨hR'.congr ?_, fun c' hc1 hc2 => by
          rcases Nat.lt_succ_iff_lt_or_eq.1 hc1 with h | rfl
          · exact hpiv c' h hc2
          · exact hne⟩
        intro r' c' _ _ _
        unfold upd stageOps
        by_cases e : r' = i ∧ c' = c
        · obtain ⟨rfl, rfl⟩ := e
          rw [if_pos (by omega), if_pos ⟨rfl, rfl⟩]
        · rw [if_neg e]
          split <;> split <;> first | rfl | omega
  · rintro st1 ⟨h1, hpiv⟩
    rw [h1.toShape.raw_q hi]
    simp only [bind_ok]
    refine Post.bind (Q := Rep E true (stageOps E A i i i)) ?_ ?_
    · refine loop_post (fun r st' => Rep E true (stageOps E A i i r) st') hqi ?_ ?_
      · refine h1.congr ?_
        intro r c hr hc henv
        unfold stageOps
        rcases eq_or_ne c i with rfl | hne <;> split <;> split <;> first | rfl | omega
      · intro r st' hr1 hr2 hR
        refine (factorU_ops (A := A) hR hi hr2 hr1 ?_ ?_ ?_).mono ?_ (fun _ h => h.elim)
        · intro k hk _; unfold stageOps; rw [if_pos (by omega)]
        · intro k hk _; unfold stageOps; rw [if_pos (by omega)]
        · unfold stageOps; rw [if_neg (by omega)]
        · intro st'' hR'
          refine hR'.congr ?_
          intro r' c' _ _ _
          unfold upd stageOps
          by_cases e : r' = r ∧ c' = i
          · obtain ⟨rfl, rfl⟩ := e
            rw [if_pos (by omega), if_pos ⟨rfl, rfl⟩]
          · rw [if_neg e]
            split <;> split <;> first | rfl | omega
    · intro st2 h2
      refine (factorD_ops (A := A) h2 hi ?_ ?_ ?_).mono ?_ (fun _ h => h.elim)
      · intro k hk _; unfold stageOps; rw [if_pos (by omega)]
      · intro k hk _; unfold stageOps; rw [if_pos (by omega)]
      · unfold stageOps; rw [if_neg (by omega)]
      · intro st'' hR'
        refine ⟨hR'.congr ?_, hpiv⟩
        intro r' c' _ _ _
        unfold upd stageOps
        by_cases e : r' = i ∧ c' = i
        · obtain ⟨rfl, rfl⟩ := e
          rw [if_pos (by omega), if_pos ⟨rfl, rfl⟩]
        · rw [if_neg e]
          split <;> split <;> first | rfl | omega

/-- `factorize` either stores `luOps` or divides by a zero pivot. -/
theorem factorize_ops {st : Fact K} (h : Rep E false A st) :
    Post (factorize st) (fun st' => Rep E true (luOps E.p E.q A) st'
      ∧ ∀ r c, r < E.n → c < r → E.p r ≤ c → luOps E.p E.q A c c ≠ 0) (PivZero E A) := by
  unfold factorize
  rw [h.fact]
  simp only [Bool.false_eq_true, if_false]
  rw [h.toShape.len]
  have h0 : Rep E true (stageOps E A 0 0 0) { st with factorized := true } := by
    have h' : Rep E true A { st with factorized := true } :=
      ⟨⟨h.p, h.q, h.s, h.al, h.au, h.l, h.u⟩, rfl, h.L, h.U⟩
    refine h'.congr ?_
    intro r c _ _ _; unfold stageOps; rw [if_neg (by omega)]
  refine (loop_post (fun i st' => Rep E true (stageOps E A i 0 0) st'
    ∧ ∀ r c, r < i → c < r → E.p r ≤ c → luOps E.p E.q A c c ≠ 0) (Nat.zero_le _)
    ⟨h0, fun r c h => by omega⟩ ?_).mono ?_ (fun _ h => h)
  · rintro i st' _ hi ⟨hR, hpiv⟩
    refine (factorStep_ops hi hR).mono (fun st'' h => ⟨h.1, fun r c hr => ?_⟩) (fun _ h => h)
    rcases Nat.lt_succ_iff_lt_or_eq.1 hr with h' | rfl
    · exact hpiv r c h'
    · exact h.2 c
  · rintro st' ⟨hR, hpiv⟩
    refine ⟨hR.congr ?_, hpiv⟩
    intro r c hr hc _
    unfold stageOps; rw [if_pos (by omega)]

/-! ### Substitution -/

/-- The result of forward substitution satisfies its own recursion. -/
def FwdOps (E : Sten) (M : Nat → Nat → K) (b y : Nat → K) : Prop :=
  ∀ i < E.n, y i = chain (fun k => E.p i ≤ k) (fun k => M i k * y k) (b i) i

/-- The result of backward substitution satisfies its own recursion. -/
def BwdOps (E : Sten) (M : Nat → Nat → K) (y x : Nat → K) : Prop :=
  ∀ i < E.n, M i i ≠ 0 ∧
    x i = chain (fun k => i < k ∧ k ≤ E.s i ∧ E.q k ≤ i) (fun k => M i k * x k) (y i) E.n / M i i

theorem rawSet_range {α : Type _} (X : Nat → α) {m i : Nat} (h : i < m) (v : α) :
    rawSet ((List.range m).map X) i v = .ok ((List.range m).map (fun j => if j = i then v else X j)) := by
  unfold rawSet
  rw [if_pos (by simpa using h)]
  congr 1
  apply List.ext_getElem?
  intro j
  simp only [List.getElem?_set, List.getElem?_map, List.length_map, List.length_range]
  by_cases hj : i = j
  · subst hj; simp [h]
  · rw [if_neg hj]
    by_cases hjm : j < m
    · simp [hjm, Ne.symm hj]
    · simp [hjm]

omit [Zero K] [Div K] [DecidableEq K] in
theorem forward_ops {M : Nat → Nat → K} {st : Fact K} (h : Rep E true M st) (b : Nat → K) {m : Nat} (hm : E.n ≤ m) :
    Post (forward st ((List.range m).map b))
      (fun x => ∃ y, x = (List.range m).map y ∧ FwdOps E M b y ∧ ∀ i, E.n ≤ i → y i = b i) (fun _ => False) := by
  unfold forward
  rw [h.toShape.len]
  by_cases hn : E.n = 0
  · rw [loop_of_ge (by omega)]
    exact ⟨b, rfl, fun i hi => by omega, fun _ _ => rfl⟩
  refine (loop_post (fun i x => ∃ y, x = (List.range m).map y ∧
    (∀ j < i, y j = chain (fun k => E.p j ≤ k) (fun k => M j k * y k) (b j) j) ∧ ∀ j, i ≤ j → y j = b j) (by omega) ?_ ?_).mono ?_
    (fun _ h => h)
  · refine ⟨b, rfl, fun j hj => ?_, fun _ _ => rfl⟩
    obtain rfl : j = 0 := by omega
    rfl
  · rintro i x hi1 hi2 ⟨y, rfl, hy1, hy2⟩
    rw [h.toShape.raw_p hi2]
    simp only [bind_ok]
    have hpi := E.p_le i hi2
    refine (loop_post (fun k x => x = (List.range m).map (fun j => if j = i then
      chain (fun k => E.p i ≤ k) (fun k => M i k * y k) (b i) k else y j)) hpi ?_ ?_).mono ?_ (fun _ h => h)
    · rw [chain_off (fun k hk => by omega)]
      congr 1; funext j; split
      · rename_i e; rw [e, hy2 i le_rfl]
      · rfl
    · intro k x hk1 hk2 hx
      subst hx
      rw [raw_map_range (by omega), h.rdL hi2 hk2 hk1, raw_map_range (by omega)]
      simp only [bind_ok]
      rw [rawSet_range _ (by omega)]
      simp only [post_ok]
      congr 1; funext j
      by_cases e : j = i
      · subst e
        simp only [if_true]
        rw [if_neg (by omega), chain, if_pos hk1]
      · simp [e]
    · rintro x rfl
      refine ⟨_, rfl, fun j hj => ?_, fun j hj => ?_⟩
      · have e : chain (fun k => E.p j ≤ k)
            (fun k => M j k * if k = i then chain (fun k => E.p i ≤ k) (fun k => M i k * y k) (b i) i else y k) (b j) j
            = chain (fun k => E.p j ≤ k) (fun k => M j k * y k) (b j) j :=
          chain_congr fun k hk _ => by rw [if_neg (by omega)]
        simp only [e]
        by_cases hji : j = i
        · rw [if_pos hji, hji]
        · rw [if_neg hji]
          exact hy1 j (by omega)
      · show (if j = i then _ else _) = _
        rw [if_neg (by omega)]
        exact hy2 j (by omega)
  · rintro x ⟨y, rfl, hy1, hy2⟩
    exact ⟨y, rfl, hy1, hy2⟩

theorem backRow_ops {M : Nat → Nat → K} {st : Fact K} (h : Rep E true M st) {i m : Nat} (hi : i < E.n) (hm : E.n ≤ m)
    (X : Nat → K) :
    backRow st i ((List.range m).map X) = if M i i = 0 then .error .divZero else
      .ok ((List.range m).map (fun j => if j = i then
        chain (fun k => i < k ∧ k ≤ E.s i ∧ E.q k ≤ i) (fun k => M i k * X k) (X i) E.n / M i i else X j)) := by
  unfold backRow
  have hs := E.s_lt i hi
  have hqi := E.q_le i hi
  rw [h.toShape.raw_s hi]
  simp only [bind_ok]
  have inner : Post (loop (i + 1) (E.s i + 1) (fun k x => do
        let qk ← raw st.q k
        if i ≥ qk then do
          let xi ← raw x i
          let a ← rdU st i k
          let xk ← raw x k
          rawSet x i (xi - a * xk)
        else .ok x) ((List.range m).map X))
      (fun x => x = (List.range m).map (fun j => if j = i then
        chain (fun k => i < k ∧ k ≤ E.s i ∧ E.q k ≤ i) (fun k => M i k * X k) (X i) (max (i + 1) (E.s i + 1)) else X j))
      (fun _ => False) := by
    have hbase : (List.range m).map X = (List.range m).map (fun j => if j = i then
        chain (fun k => i < k ∧ k ≤ E.s i ∧ E.q k ≤ i) (fun k => M i k * X k) (X i) (i + 1) else X j) := by
      rw [chain_off (fun k hk => by omega)]
      congr 1; funext j; split
      · rename_i e; rw [e]
      · rfl
    rcases Nat.lt_or_ge (E.s i + 1) (i + 1) with hlt | hge
    · rw [loop_of_ge hlt.le, max_eq_left hlt.le]
      simp only [post_ok]
      exact hbase
    · rw [max_eq_right hge]
      refine loop_post (fun k x => x = (List.range m).map (fun j => if j = i then
        chain (fun k => i < k ∧ k ≤ E.s i ∧ E.q k ≤ i) (fun k => M i k * X k) (X i) k else X j)) hge hbase ?_
      intro k x hk1 hk2 hx
      subst hx
      have hkn : k < E.n := by omega
      rw [h.toShape.raw_q hkn]
      simp only [bind_ok]
      split
      · rename_i hq
        rw [raw_map_range (by omega), h.rdU hkn (by omega) hq, raw_map_range (by omega)]
        simp only [bind_ok]
        rw [rawSet_range _ (by omega)]
        simp only [post_ok, if_true]
        congr 1; funext j
        split
        · rw [if_neg (by omega), chain, if_pos (by omega)]
        · rfl
      · rename_i hq
        simp only [post_ok]
        congr 1; funext j
        split
        · rw [chain, if_neg (by omega)]
        · rfl
  obtain ⟨x, hx1, hx2⟩ := post_false_iff.1 inner
  rw [hx1, hx2]
  simp only [bind_ok]
  rw [raw_map_range (by omega), h.rdU hi (le_refl _) hqi]
  simp only [bind_ok, if_true]
  unfold Res.div
  split
  · rfl
  · simp only [bind_ok]
    rw [rawSet_range _ (by omega)]
    congr 2; funext j
    split
    · congr 1
      symm
      exact chain_stop (by omega) (fun k h1 h2 => by omega)
    · rfl

theorem backward_ops {M : Nat → Nat → K} {st : Fact K} (h : Rep E true M st) (y : Nat → K) {m : Nat} (hm : E.n ≤ m) :
    Post (backward st ((List.range m).map y))
      (fun z => ∃ x, z = (List.range m).map x ∧ BwdOps E M y x ∧ ∀ i, E.n ≤ i → x i = y i)
      (fun e => e = .divZero ∧ ∃ i, i < E.n ∧ M i i = 0) := by
  unfold backward
  rw [h.toShape.len]
  refine (loop_post (fun j z => ∃ x, z = (List.range m).map x ∧
    (∀ i < E.n, E.n - j ≤ i → M i i ≠ 0 ∧
      x i = chain (fun k => i < k ∧ k ≤ E.s i ∧ E.q k ≤ i) (fun k => M i k * x k) (y i) E.n / M i i) ∧
    ∀ i, (i < E.n → i < E.n - j) → x i = y i) (Nat.zero_le _) ?_ ?_).mono ?_ (fun _ h => h)
  · exact ⟨y, rfl, fun i h1 h2 => by omega, fun _ _ => rfl⟩
  · rintro j z _ hj ⟨x, rfl, hx1, hx2⟩
    have hi : E.n - 1 - j < E.n := by omega
    rw [backRow_ops h hi hm]
    set i := E.n - 1 - j with hidef
    split
    · rename_i h0
      exact ⟨rfl, i, hi, h0⟩
    · rename_i h0
      refine ⟨_, rfl, fun i' h1 h2 => ?_, fun i' h1 => ?_⟩
      · have e : ∀ v, chain (fun k => i' < k ∧ k ≤ E.s i' ∧ E.q k ≤ i')
            (fun k => M i' k * if k = i then v else x k) (y i') E.n
            = chain (fun k => i' < k ∧ k ≤ E.s i' ∧ E.q k ≤ i') (fun k => M i' k * x k) (y i') E.n :=
          fun v => chain_congr fun k _ hk => by rw [if_neg (by omega)]
        simp only [e]
        by_cases hii : i' = i
        · rw [if_pos hii, hii, hx2 i (by omega)]
          exact ⟨h0, rfl⟩
        · rw [if_neg hii]
          exact hx1 i' h1 (by omega)
      · show (if i' = i then _ else _) = _
        rw [if_neg (by omega)]
        exact hx2 i' (by omega)
  · rintro z ⟨x, rfl, hx1, hx2⟩
    exact ⟨x, rfl, fun i hi => hx1 i hi (by omega), fun i hi => hx2 i (by omega)⟩

/-- `solve` after `setMatrix`: the factors and both substitutions as sequences of operations. -/
theorem solve_ops {st : Fact K} (h : Rep E false A st) (b : List K) (hb : E.n ≤ b.length) :
    Post (solve st b) (fun r => Rep E true (luOps E.p E.q A) r.1 ∧ ∃ y x : Nat → K,
        (∀ r c, r < E.n → c < r → E.p r ≤ c → luOps E.p E.q A c c ≠ 0) ∧
        FwdOps E (luOps E.p E.q A) (fun i => b.getD i 0) y ∧ BwdOps E (luOps E.p E.q A) y x ∧
        r.2 = (List.range b.length).map x ∧ ∀ i, E.n ≤ i → x i = b.getD i 0)
      (PivZero E A) := by
  unfold solve
  refine Post.bind (factorize_ops h) ?_
  rintro st' ⟨hR, hp⟩
  have hlist : b = (List.range b.length).map (fun i => b.getD i 0) := by
    apply List.ext_getElem?
    intro i
    by_cases hi : i < b.length
    · simp [hi]
    · simp [hi]
  have hf := forward_ops hR (fun i => b.getD i 0) hb
  rw [← hlist] at hf
  refine Post.bind (hf.mono (fun _ h => h) (fun _ h => h.elim)) ?_
  rintro z ⟨y, rfl, hy, hy'⟩
  refine Post.bind (backward_ops hR y hb) ?_
  rintro z ⟨x, rfl, hx, hx'⟩
  exact ⟨hR, y, x, hp, hy, hx, rfl, fun i hi => by rw [hx' i hi, hy' i hi]⟩

end Verif.LU
