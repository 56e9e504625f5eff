import Verif.Vec.Lemmas
import Verif.Witness
import Mathlib.Algebra.Order.Ring.Rat
import Mathlib.Algebra.BigOperators.Intervals
import Mathlib.Algebra.Order.BigOperators.Group.Finset
import Mathlib.Tactic.NormNum

/-! # Properties of vectors: C65 (arithmetic), C68 (overlapping operands), C64 (norms), C46 (text) -/

namespace Verif.Vec

open Verif.Res

section
variable {K : Type} [CommRing K]

/-- C65. `+=`, `-=` with an operand of the same size (or longer; the rest is ignored) that does not
overlap the target from below, and `*=`, change exactly the target, componentwise. -/
theorem C65_update (mem : List K) (t : Tgt) (ht : t.start + t.size ≤ mem.length) (s : Src K)
    (v : List K) (hv : s.val mem = some v) (hl : t.size ≤ v.length) (hs : s.safe t) (c : K) :
    (∃ m, addAssign mem t s = (m, none) ∧ Updated (· + ·) mem t v t.size m) ∧
    (∃ m, subAssign mem t s = (m, none) ∧ Updated (· - ·) mem t v t.size m) ∧
    (∃ m, mulAssign mem t c = (m, none) ∧ Updated (fun a _ => a * c) mem t [] t.size m) := by
  refine ⟨run_body (· + ·) mem t s v hv ht hs _ le_rfl hl,
    run_body (· - ·) mem t s v hv ht hs _ le_rfl hl, ?_⟩
  have := runFrom_inv (f := fun i m => (do
      let a ← at' m (i + t.start)
      atSet m (i + t.start) (a * c) : Res (List K)))
    (fun j m => Updated (fun a _ => a * c) mem t [] j m) t.size 0 mem
    ⟨rfl, fun j => by rw [if_neg (by omega)]⟩ (by
      intro j m _ hj hm
      refine ⟨_, ?_, hm.step (by omega)⟩
      rw [at_lt (by rw [hm.1]; omega)]
      simp only [bind_ok]
      unfold atSet
      rw [if_pos (by rw [hm.1]; omega)])
  rw [Nat.zero_add] at this
  exact this

/-- C65. `clear` sets to zero exactly the components of the vector, or of the block. -/
theorem C65_clear (mem : List K) (t : Tgt) (ht : t.start + t.size ≤ mem.length) :
    ((clear mem).length = mem.length ∧ ∀ j, (clear mem).getD j 0 = 0) ∧
    ∃ m, clearBlock mem t = (m, none) ∧ Updated (fun _ _ => 0) mem t [] t.size m := by
  constructor
  · refine ⟨by simp [clear], fun j => ?_⟩
    by_cases h : j < mem.length <;> simp [clear, List.getD, h]
  · have := runFrom_inv (f := fun i m => rawSet m (i + t.start) (0 : K))
      (fun j m => Updated (fun _ _ => 0) mem t [] j m) t.size 0 mem
      ⟨rfl, fun j => by rw [if_neg (by omega)]⟩ (by
        intro j m _ hj hm
        refine ⟨_, ?_, hm.step (by omega)⟩
        unfold rawSet
        rw [if_pos (by rw [hm.1]; omega)])
    rw [Nat.zero_add] at this
    exact this

example : clearBlock ([1, 2, 3, 4] : List ℚ) ⟨1, 2⟩ = ([1, 0, 0, 4], none) := by decide +kernel

/-- C65. The updates never do anything undefined and never change the number of elements: whatever
the operands, they complete or throw `out_of_range`. -/
theorem C65_defined (mem : List K) (t : Tgt) (s : Src K) (c : K) (e : Fault) :
    ((addAssign mem t s).2 = some e → e = .exc "out_of_range") ∧
    ((subAssign mem t s).2 = some e → e = .exc "out_of_range") ∧
    ((mulAssign mem t c).2 = some e → e = .exc "out_of_range") ∧
    (dot mem s (.scale s c) = .error e → e = .exc "out_of_range") ∧
    ∀ s', dot mem s s' = .error e → e = .exc "out_of_range" := by
  have hat : ∀ (l : List K) i, Post (at' l i) (fun _ => True) (· = .exc "out_of_range") := by
    intro l i
    by_cases h : i < l.length
    · rw [at_lt h]; trivial
    · rw [at_ge (by omega)]; rfl
  have hset : ∀ (l : List K) i a, Post (atSet l i a) (fun _ => True) (· = .exc "out_of_range") := by
    intro l i a
    unfold atSet
    split
    · trivial
    · rfl
  have hsrc : ∀ (l : List K) (s : Src K) i,
      Post (s.at l i) (fun _ => True) (· = .exc "out_of_range") := by
    intro l s i
    rcases at_never_ub l s i with ⟨a, h⟩ | h <;> rw [h]
    · trivial
    · rfl
  have hdot : ∀ s', dot mem s s' = .error e → e = .exc "out_of_range" := by
    intro s' h
    have : Post (dot mem s s') (fun _ => True) (· = .exc "out_of_range") := by
      unfold dot
      refine loop_post (fun _ _ => True) (Nat.zero_le _) trivial (fun i r _ _ _ => ?_)
      exact Post.bind (hsrc _ _ _) (fun a _ => Post.bind (hsrc _ _ _) (fun b _ => trivial))
    rw [h] at this
    exact this
  refine ⟨?_, ?_, ?_, hdot _, hdot⟩
  · refine runFrom_fault (E := (· = .exc "out_of_range")) (fun i m => ?_) _ _ _ _
    exact Post.bind (hat _ _) (fun a _ => Post.bind (hsrc _ _ _) (fun b _ => hset _ _ _))
  · refine runFrom_fault (E := (· = .exc "out_of_range")) (fun i m => ?_) _ _ _ _
    exact Post.bind (hat _ _) (fun a _ => Post.bind (hsrc _ _ _) (fun b _ => hset _ _ _))
  · refine runFrom_fault (E := (· = .exc "out_of_range")) (fun i m => ?_) _ _ _ _
    exact Post.bind (hat _ _) (fun a _ => hset _ _ _)

/-- C65, mismatch: with a shorter operand without blocks the update throws `out_of_range`, after
having changed the components the operand has. -/
theorem C65_shorter_partial (mem : List K) (t : Tgt) (ht : t.start + t.size ≤ mem.length)
    (s : Src K) (hw : s.whole = true) (v : List K) (hv : s.val mem = some v)
    (hl : v.length < t.size) (hs : s.safe t) :
    (∃ m, addAssign mem t s = (m, some (.exc "out_of_range")) ∧
      Updated (· + ·) mem t v v.length m) ∧
    ∃ m, subAssign mem t s = (m, some (.exc "out_of_range")) ∧
      Updated (· - ·) mem t v v.length m := by
  have key : ∀ g : K → K → K, ∃ m, runFrom (body g t s) t.size 0 mem
      = (m, some (.exc "out_of_range")) ∧ Updated g mem t v v.length m := by
    intro g
    obtain ⟨m, h1, h2⟩ := run_body g mem t s v hv ht hs v.length hl.le le_rfl
    refine ⟨m, ?_, h2⟩
    obtain ⟨d, hd⟩ : ∃ d, t.size = v.length + (d + 1) := ⟨t.size - v.length - 1, by omega⟩
    rw [hd, runFrom_add, h1]
    simp only
    rw [runFrom_succ]
    have hsz : s.size m ≤ v.length := by
      have : ∀ s : Src K, s.whole = true → s.size m = s.size mem := by
        intro s
        induction s with
        | self => intro _; exact h2.1
        | vec l => intro _; rfl
        | block _ _ _ _ => intro h; cases h
        | scale s c ih => intro h; exact ih h
      rw [this s hw, size_val hv]
    have : body g t s (0 + v.length) m = .error (.exc "out_of_range") := by
      unfold body
      rw [at_lt (by rw [h2.1]; omega), Nat.zero_add, (whole_beyond hw hsz).1]
      rfl
    rw [this]
  exact ⟨key _, key _⟩

theorem elems_val {mem : List K} {s : Src K} {v : List K} (hv : s.val mem = some v) :
    elems mem s = .ok v := by
  have := loop_post (lo := 0) (hi := v.length) (s := ([] : List K))
    (f := fun i l => (do .ok (l ++ [← s.deref mem i]) : Res (List K)))
    (fun k l => l = v.take k) (E := fun _ => False) (Nat.zero_le _) (by simp) (by
      intro j l _ hj hl
      rw [(at_val hv hj).2]
      simp only [bind_ok, post_ok]
      rw [List.take_add_one, hl, List.getElem?_eq_getElem hj]
      simp [List.getD_eq_getElem?_getD, List.getElem?_eq_getElem hj])
  rw [post_false_iff] at this
  obtain ⟨a, h1, h2⟩ := this
  unfold elems
  rw [size_val hv, h1, h2, List.take_length]

theorem fill_val {n : Nat} (w : Nat → K) (f : Nat → List K → Res (List K))
    (hf : ∀ i l, i < n → l.length = n → f i l = .ok (l.set i (w i))) :
    loop 0 n f (List.replicate n 0) = .ok ((List.range n).map w) := by
  have := loop_post (lo := 0) (hi := n) (s := List.replicate n (0 : K)) (f := f)
    (fun k l => l.length = n ∧ ∀ i, i < k → l.getD i 0 = w i) (E := fun _ => False)
    (Nat.zero_le _) ⟨by simp, by omega⟩ (by
      intro j l _ hj ⟨hl, hl'⟩
      rw [hf j l hj hl, post_ok]
      refine ⟨by simpa using hl, ?_⟩
      intro i hi
      rw [getD_set (by omega)]
      split
      · subst i; rfl
      · exact hl' i (by omega))
  rw [post_false_iff] at this
  obtain ⟨a, h1, h2, h3⟩ := this
  rw [h1]
  congr 1
  refine ext_getD (by simp [h2]) (fun i hi => ?_)
  simp only [List.length_map, List.length_range] at hi
  rw [h3 i hi]
  simp [List.getD_eq_getElem?_getD, hi]

theorem range_getD (v : List K) : (List.range v.length).map (fun i => v.getD i 0) = v := by
  refine ext_getD (by simp) (fun i hi => ?_)
  simp [List.getD_eq_getElem?_getD, hi]

theorem clone_val {mem : List K} {s : Src K} {v : List K} (hv : s.val mem = some v) :
    clone mem s = .ok v := by
  unfold clone
  rw [size_val hv, fill_val (fun i => v.getD i 0), range_getD]
  intro i l hi hl
  rw [(at_val hv hi).2]
  simp only [bind_ok]
  unfold rawSet
  rw [if_pos (by omega)]

/-- C65. Sums, differences, copies, products and memberwise functions of operands of the same size
are componentwise. -/
theorem C65_values (mem : List K) (a b : Src K) (v w : List K) (hv : a.val mem = some v)
    (hw : b.val mem = some w) (hl : v.length = w.length) (op : K → K) (op2 : K → K → K) :
    clone mem a = .ok v ∧
    add mem a b = .ok (List.zipWith (· + ·) v w) ∧
    sub mem a b = .ok (List.zipWith (· - ·) v w) ∧
    unaryOp mem a op = .ok (v.map op) ∧
    binaryOp mem a b op2 = .ok (List.zipWith op2 v w) ∧
    dot mem a b = .ok (∑ i ∈ Finset.range v.length, v.getD i 0 * w.getD i 0) := by
  have hzip : ∀ g : K → K → K, (List.range v.length).map (fun i => g (v.getD i 0) (w.getD i 0))
      = List.zipWith g v w := by
    intro g
    refine ext_getD (by simp [hl]) (fun i hi => ?_)
    simp only [List.length_zipWith] at hi
    simp [List.getD_eq_getElem?_getD, List.getElem?_eq_getElem (show i < w.length by omega),
      show i < v.length by omega, List.getElem?_zipWith]
  have hop : ∀ g : K → K → K, ∃ m, runFrom (body g ⟨0, v.length⟩ (b.fixed mem)) v.length 0 v
      = (m, none) ∧ m = List.zipWith g v w := by
    intro g
    obtain ⟨m, h1, h2⟩ := run_body g v ⟨0, v.length⟩ (b.fixed mem) w
      (by rw [fixed_val, hw]) (by simp) (by intro o ho; rw [fixed_origin] at ho; cases ho) v.length
      le_rfl (by omega)
    refine ⟨m, h1, ?_⟩
    rw [← hzip g]
    refine ext_getD (by simp [h2.1]) (fun i hi => ?_)
    simp only [List.length_map, List.length_range] at hi
    rw [h2.2, if_pos ⟨Nat.zero_le _, by simpa using hi⟩]
    simp [List.getD_eq_getElem?_getD, hi]
  refine ⟨clone_val hv, ?_, ?_, ?_, ?_, ?_⟩
  · obtain ⟨m, h1, h2⟩ := hop (· + ·)
    unfold add
    rw [clone_val hv]
    simp only [bind_ok]
    unfold addAssign
    unfold body at h1
    rw [h1]
    simp only [h2]
  · obtain ⟨m, h1, h2⟩ := hop (· - ·)
    unfold sub
    rw [clone_val hv]
    simp only [bind_ok]
    unfold subAssign
    unfold body at h1
    rw [h1]
    simp only [h2]
  · unfold unaryOp
    rw [size_val hv, fill_val (fun i => op (v.getD i 0))]
    · congr 1
      conv_rhs => rw [← range_getD v]
      rw [List.map_map]
      rfl
    · intro i l hi hl
      rw [(at_val hv hi).1]
      simp only [bind_ok]
      unfold atSet
      rw [if_pos (by omega)]
  · unfold binaryOp
    rw [size_val hv, fill_val (fun i => op2 (v.getD i 0) (w.getD i 0)), hzip]
    intro i l hi hl'
    rw [(at_val hv hi).1, (at_val hw (i := i) (by omega)).1]
    simp only [bind_ok]
    unfold atSet
    rw [if_pos (by omega)]
  · have := loop_post (lo := 0) (hi := v.length) (s := (0 : K))
      (f := fun i r => (do
        let x ← a.at mem i
        let y ← b.at mem i
        .ok (r + x * y) : Res K))
      (fun k r => r = ∑ i ∈ Finset.range k, v.getD i 0 * w.getD i 0) (E := fun _ => False)
      (Nat.zero_le _) (by simp) (by
        intro j l _ hj hl'
        rw [(at_val hv hj).1, (at_val hw (i := j) (by omega)).1]
        simp only [bind_ok, post_ok]
        rw [Finset.sum_range_succ, hl'])
    rw [post_false_iff] at this
    obtain ⟨r, h1, h2⟩ := this
    unfold dot
    rw [size_val hv, h1, h2]

theorem copy_val (mem : List K) (start : Nat) (s : Src K) (v : List K) (hv : s.val mem = some v)
    (ht : start + v.length ≤ mem.length) (hs : s.safe ⟨start, v.length⟩) :
    ∃ m, copyTo mem start s = (m, none) ∧
      Updated (fun _ b => b) mem ⟨start, v.length⟩ v v.length m := by
  have := runFrom_inv (f := fun i m => (do
      let v ← s.deref m i
      rawSet m (i + start) v : Res (List K)))
    (fun j m => Updated (fun _ b => b) mem ⟨start, v.length⟩ v j m) v.length 0 mem
    ⟨rfl, fun j => by rw [if_neg (by omega)]⟩ (by
      intro j m _ hj hm
      refine ⟨_, ?_, hm.step (by simp only; omega)⟩
      have hat : s.deref m j = .ok (v.getD j 0) := by
        rw [← (at_val hv (i := j) (by omega)).2]
        refine (at_local (fun o ho => getElem?_of_getD hm.1 ?_)).2
        rw [hm.2, if_neg]
        rcases hs o ho with h | h <;> simp only at h ⊢ <;> omega
      rw [hat]
      simp only [bind_ok]
      unfold rawSet
      rw [if_pos (by rw [hm.1]; omega)])
  unfold copyTo
  rw [size_val hv]
  rw [Nat.zero_add] at this
  exact this

theorem resize_length (mem : List K) (n : Nat) : (resize mem n).length = n := by
  simp [resize]

theorem val_congr {s : Src K} (mem mem' : List K) (h : s.origin = none) :
    s.val mem' = s.val mem := by
  induction s with
  | self => cases h
  | vec l => rfl
  | block s st n ih =>
    simp only [Src.origin, Option.map_eq_none_iff] at h
    simp only [Src.val, ih h]
  | scale s c ih => simp only [Src.val, ih h]

/-- C65. Assignment from an operand made from other vectors, or from the whole vector itself
(scaled any number of times), makes the vector equal to the value of the operand; assignment to a
block changes the block only. -/
theorem C65_assign (mem : List K) (s : Src K) (v : List K) (hv : s.val mem = some v) :
    (s.origin = none ∨ s.whole = true → assign mem s = (v, none)) ∧
    (∀ t : Tgt, t.start + t.size ≤ mem.length → v.length = t.size → s.safe t →
      ∃ m, assignBlock mem t s = (m, none) ∧ Updated (fun _ b => b) mem t v t.size m) := by
  constructor
  · intro h
    -- after resizing, the operand has the same value and does not overlap from below
    have hval : s.val (resize mem (s.size mem)) = some v ∧ s.safe ⟨0, v.length⟩ := by
      rcases h with h | h
      · exact ⟨by rw [val_congr mem _ h, hv], by intro o ho; rw [h] at ho; cases ho⟩
      · refine ⟨?_, fun o _ => .inl (Nat.zero_le _)⟩
        by_cases ho : s.origin = none
        · rw [val_congr mem _ ho, hv]
        · have : ∀ s : Src K, s.whole = true → s.origin ≠ none → s.size mem = mem.length := by
            intro s
            induction s with
            | self => intro _ _; rfl
            | vec l => intro _ h; exact absurd rfl h
            | block _ _ _ _ => intro h; cases h
            | scale s c ih => intro h h'; exact ih h h'
          rw [this s h ho]
          have : resize mem mem.length = mem := by simp [resize]
          rw [this, hv]
    obtain ⟨m, h1, h2⟩ := copy_val (resize mem (s.size mem)) 0 s v hval.1
      (by rw [resize_length, size_val hv]; omega) hval.2
    unfold assign
    rw [h1]
    congr 1
    refine ext_getD (by rw [h2.1, resize_length, size_val hv]) (fun i hi => ?_)
    rw [h2.2, if_pos ⟨Nat.zero_le _, by simpa using hi⟩]
    rfl
  · rintro ⟨st, n⟩ ht hl hs
    simp only at ht hl
    subst hl
    exact copy_val mem st s v hv ht hs

/-- C68, where it fails: assigning to a vector a non-empty block of itself that does not start at
the beginning always reads freed elements. -/
theorem C68_assign_own_block_false (mem : List K) (start n : Nat) (h0 : 0 < start) (hn : 0 < n)
    (hi : start + n ≤ mem.length) :
    (assign mem (.block .self start n)).2 = some .ub := by
  unfold assign
  obtain ⟨m0, hm0⟩ : ∃ m0, resize mem (Src.size mem (.block .self start n)) = m0 := ⟨_, rfl⟩
  have hl : m0.length = n := by rw [← hm0, resize_length]; rfl
  rw [hm0]
  unfold copyTo
  show (runFrom _ n 0 m0).2 = _
  by_cases hs : n ≤ start
  · obtain ⟨k, rfl⟩ : ∃ k, n = k + 1 := ⟨n - 1, by omega⟩
    rw [runFrom_succ]
    have : Src.deref m0 (.block .self start (k + 1)) 0 = .error .ub := by
      simp only [Src.deref]
      exact raw_ge (by omega)
    rw [this]
    rfl
  · obtain ⟨d, hd⟩ : ∃ d, n = (n - start) + (d + 1) := ⟨start - 1, by omega⟩
    have := runFrom_inv (f := fun i m => (do
        let v ← Src.deref m (.block .self start n) i
        rawSet m (i + 0) v : Res (List K))) (fun _ m => m.length = n) (n - start) 0 m0 hl (by
      intro j m _ hj hm
      refine ⟨m.set j (m.getD (j + start) 0), ?_, by simpa using hm⟩
      simp only [Src.deref]
      rw [raw_lt (by omega)]
      simp only [bind_ok]
      unfold rawSet
      rw [if_pos (by omega)]
      rfl)
    obtain ⟨m, h1, h2⟩ := this
    generalize hf : (fun i m => (do
        let v ← Src.deref m (.block .self start n) i
        rawSet m (i + 0) v : Res (List K))) = f at h1 ⊢
    rw [hd, runFrom_add, h1]
    simp only
    rw [runFrom_succ, ← hf]
    beta_reduce
    have : Src.deref m (.block .self start n) (0 + (n - start)) = .error .ub := by
      simp only [Src.deref]
      exact raw_ge (by omega)
    rw [this]
    rfl

/-- C68. Adding a scaled copy of a vector to itself multiplies it; a part of a vector may be added
to another part, from behind or without overlap. -/
theorem C68_self_partial (mem : List K) (c : K) :
    (addAssign mem ⟨0, mem.length⟩ (.scale .self c)).2 = none ∧
    (addAssign mem ⟨0, mem.length⟩ (.scale .self c)).1 = mem.map (fun x => x + x * c) ∧
    assign mem (.scale .self c) = (mem.map (· * c), none) := by
  obtain ⟨⟨m, h1, h2⟩, _⟩ := C65_update mem ⟨0, mem.length⟩ (by simp) (.scale .self c)
    (mem.map (· * c)) rfl (by simp) (fun o _ => .inl (Nat.zero_le _)) 0
  refine ⟨by rw [h1], ?_, (C65_assign mem (.scale .self c) _ rfl).1 (.inr rfl)⟩
  rw [h1]
  refine ext_getD (by simp [h2.1]) (fun i hi => ?_)
  simp only [List.length_map] at hi
  rw [h2.2, if_pos ⟨Nat.zero_le _, by simpa using hi⟩, Nat.sub_zero, getD_map hi]
  simp [List.getD_eq_getElem?_getD, hi]

end

/-- C65 fails for blocks: an operand that is a block of 1 element of a longer vector is read beyond
its end without notice. -/
theorem C65_short_block_false :
    addAssign ([0, 0, 0] : List ℚ) ⟨0, 3⟩ (.block (.vec [1, 2, 3, 4]) 0 1) = ([1, 2, 3], none) := by
  decide +kernel

/-- C65 fails for assignment: a longer vector assigned to a block overwrites elements after the
block, or, at the end of the vector, writes outside of it. -/
theorem C65_long_assign_false :
    assignBlock ([0, 0, 0] : List ℚ) ⟨0, 1⟩ (.vec [1, 2]) = ([1, 2, 0], none) ∧
    (assignBlock ([0, 0, 0] : List ℚ) ⟨2, 1⟩ (.vec [1, 2])).2 = some .ub := by
  decide +kernel

/-- C68 fails when the operand overlaps the target from below: components already changed are
used. -/
theorem C68_overlap_false :
    addAssign ([1, 1, 1, 1] : List ℚ) ⟨1, 3⟩ (.block .self 0 3) = ([1, 2, 3, 4], none) := by
  decide +kernel

/-- Overlap from above works. -/
example : addAssign ([1, 2, 3, 4] : List ℚ) ⟨0, 3⟩ (.block .self 1 3) = ([3, 5, 7, 4], none) ∧
    Src.safe (K := ℚ) ⟨0, 3⟩ (.block .self 1 3) ∧
    Src.val ([1, 2, 3, 4] : List ℚ) (.block .self 1 3) = some [2, 3, 4] :=
  ⟨by decide +kernel, fun _ _ => .inl (Nat.zero_le _), by decide +kernel⟩

/-- A shorter operand: two components are changed, then the exception is thrown. -/
example : addAssign ([1, 1, 1] : List ℚ) ⟨0, 3⟩ (.vec [5, 6])
    = ([6, 7, 1], some (.exc "out_of_range")) := by decide +kernel

section
variable {K : Type} [CommRing K] [LinearOrder K] [IsStrictOrderedRing K]

/-- C64. Norms of vectors and views: `infNorm` is the least upper bound of zero and the absolute
values of the elements; the others are sums over the elements. -/
theorem C64_vector (mem : List K) (s : Src K) (v : List K) (hv : s.val mem = some v) :
    (∃ r, infNorm mem s = .ok r ∧ (∀ i, |v.getD i 0| ≤ r) ∧
      ∀ b, 0 ≤ b → (∀ i, |v.getD i 0| ≤ b) → r ≤ b) ∧
    oneNorm mem s = .ok (∑ i ∈ Finset.range v.length, |v.getD i 0|) ∧
    euclideanNormSquare mem s = .ok (∑ i ∈ Finset.range v.length, v.getD i 0 ^ 2) := by
  unfold infNorm oneNorm euclideanNormSquare
  simp only [elems_val hv, bind_ok]
  have hmax : ∀ (l : List K) (r0 : K), r0 ≤ l.foldl (fun r v => max r |v|) r0 ∧
      (∀ x ∈ l, |x| ≤ l.foldl (fun r v => max r |v|) r0) ∧
      ∀ b, r0 ≤ b → (∀ x ∈ l, |x| ≤ b) → l.foldl (fun r v => max r |v|) r0 ≤ b := by
    intro l
    induction l with
    | nil => intro r0; exact ⟨le_rfl, by simp, fun b h _ => h⟩
    | cons a l ih =>
      intro r0
      obtain ⟨i1, i2, i3⟩ := ih (max r0 |a|)
      simp only [List.foldl_cons]
      refine ⟨le_trans (le_max_left _ _) i1, ?_, ?_⟩
      · intro x hx
        rcases List.mem_cons.1 hx with rfl | hx
        · exact le_trans (le_max_right _ _) i1
        · exact i2 x hx
      · intro b hb h
        exact i3 b (max_le hb (h a (by simp))) (fun x hx => h x (by simp [hx]))
  have hsum : ∀ (g : K → K) (l : List K) (r0 : K), l.foldl (fun r v => r + g v) r0
      = r0 + ∑ i ∈ Finset.range l.length, g (l.getD i 0) := by
    intro g l
    induction l with
    | nil => intro r0; simp
    | cons a l ih =>
      intro r0
      rw [List.foldl_cons, ih, List.length_cons, Finset.sum_range_succ']
      simp only [List.getD_cons_succ, List.getD_cons_zero]
      ring
  refine ⟨⟨_, rfl, ?_, ?_⟩, ?_, ?_⟩
  · intro i
    obtain ⟨h0, h1, _⟩ := hmax v 0
    by_cases hi : i < v.length
    · refine h1 _ ?_
      simp [List.getD_eq_getElem?_getD, List.getElem?_eq_getElem hi]
    · simp only [List.getD_eq_getElem?_getD, List.getElem?_eq_none (show v.length ≤ i by omega)]
      simpa using h0
  · intro b hb h
    refine (hmax v 0).2.2 b hb ?_
    intro x hx
    obtain ⟨i, hi, rfl⟩ := List.getElem_of_mem hx
    have := h i
    simpa [List.getD_eq_getElem?_getD, List.getElem?_eq_getElem hi] using this
  · rw [hsum (fun v => |v|)]
    simp
  · rw [hsum (fun v => v * v)]
    simp [pow_two]

end

/-- Norms of a scaled block. -/
example : infNorm ([3, -4, 5] : List ℚ) (.scale (.block .self 0 2) 2) = .ok 8 ∧
    oneNorm ([3, -4, 5] : List ℚ) (.scale (.block .self 0 2) 2) = .ok 14 ∧
    euclideanNormSquare ([3, -4, 5] : List ℚ) (.block .self 0 2) = .ok 25 := by decide +kernel

end Verif.Vec
