import Verif.Config.SetSolver

/-
C121: setting a parameter of a test model, an output, an initial state changes the setting it is and no other.
-/

set_option linter.unusedSectionVars false
set_option linter.unnecessarySeqFocus false
set_option linter.unusedSimpArgs false

namespace Verif.Config

open Verif.Infra Verif.Driver Verif.TestModels Verif.Res

section
variable {R : Type} [Field R] {F : Fmt R} {r : R → R} (hF : ∀ x, F.get (F.put x) = .ok (r x))

/-! ### Test models -/

theorem Model.named {i : String} {m : Option (Model R)} (h : Model.Named i m) :
    asPtr Model.new (Model.set F) (leaf i.toList) = .ok m := by
  cases h <;> rfl

theorem friction_read {i : String} {k : Friction} (h : FrictionNamed i k) : Friction.read i = .ok k := by
  cases h <;> rfl

include hF in
theorem Model.change {m : Model R} (hm : m.Good) {v : Val R} (hv : v.Good) {k : String} {m' : Model R}
    (h : Model.Sets (m.map r) k (v.map r) m') : ∃ P P', m.params F = .ok P ∧ P.assign [k] (leaf (v.text F)) = .ok P' ∧
      asPtr Model.new (Model.set F) (obj m.id P') = .ok (some m') := by
  generalize hw : v.map r = w at h
  cases m with
  | oscillator c f =>
    simp only [Model.map] at h
    cases h <;> obtain ⟨x, rfl, rfl⟩ := Val.eq_num hw <;>
    refine ⟨_, _, rfl, assign_single (x := leaf _) (by simp only [find_put]; simp; rfl) _, ?_⟩ <;> simp only [Model.id] <;>
    rw [load_node _ _ _ _ _ (by decide) (by rfl)] <;>
    simp [Model.set, maybeLoad, maybeSet, find_put, leaf, Tree.text, hF, Val.text]
  | coupled n c0 c2 f =>
    have hn : n < 2 ^ 32 := hm
    simp only [Model.map] at h
    cases h
    case coN =>
      obtain rfl := Val.eq_nat hw
      refine ⟨_, _, rfl, assign_single (x := leaf _) (by simp only [find_put]; simp; rfl) _, ?_⟩
      simp only [Model.id]
      rw [load_node _ _ _ _ _ (by decide) (by rfl)]
      simp [Model.set, maybeLoad, maybeSet, find_put, leaf, Tree.text, hF, Val.text, asUnsigned, unsigned_ok hv]
    all_goals
      obtain ⟨x, rfl, rfl⟩ := Val.eq_num hw
      refine ⟨_, _, rfl, assign_single (x := leaf _) (by simp only [find_put]; simp; rfl) _, ?_⟩
      simp only [Model.id]
      rw [load_node _ _ _ _ _ (by decide) (by rfl)]
      simp [Model.set, maybeLoad, maybeSet, find_put, leaf, Tree.text, hF, Val.text, asUnsigned, unsigned_ok hn]
  | stiff a =>
    simp only [Model.map] at h
    cases h
    obtain ⟨x, rfl, rfl⟩ := Val.eq_num hw
    refine ⟨_, _, rfl, assign_single (x := leaf _) (by simp only [find_put]; simp; rfl) _, ?_⟩
    simp only [Model.id]
    rw [load_node _ _ _ _ _ (by decide) (by rfl)]
    simp [Model.set, maybeLoad, maybeSet, find_put, leaf, Tree.text, hF, Val.text]
  | sliding k m f0 v0 F1 F2 w =>
    have hk : ∃ s, k.show = .ok s ∧ Friction.read s = .ok k := by cases k <;> exact ⟨_, rfl, rfl⟩
    obtain ⟨s, h1, h2⟩ := hk
    simp only [Model.map] at h
    cases h
    case friction h =>
      obtain rfl := Val.eq_word hw
      refine ⟨_, _, by rw [Model.params]; simp only [h1, bind_ok]; rfl,
        assign_single (x := leaf _) (by simp only [find_put]; simp; rfl) _, ?_⟩
      simp only [Model.id]
      rw [load_node _ _ _ _ _ (by decide) (by rfl)]
      simp [Model.set, maybeLoad, maybeSet, find_put, leaf, Tree.text, hF, Val.text, friction_read h]
    all_goals
      obtain ⟨x, rfl, rfl⟩ := Val.eq_num hw
      refine ⟨_, _, by rw [Model.params]; simp only [h1, bind_ok]; rfl,
        assign_single (x := leaf _) (by simp only [find_put]; simp; rfl) _, ?_⟩
      simp only [Model.id]
      rw [load_node _ _ _ _ _ (by decide) (by rfl)]
      simp [Model.set, maybeLoad, maybeSet, find_put, leaf, Tree.text, hF, Val.text, h2]
  | ball g c s st =>
    have hst : st = false := hm
    subst hst
    simp only [Model.map] at h
    cases h <;> obtain ⟨x, rfl, rfl⟩ := Val.eq_num hw <;>
    refine ⟨_, _, rfl, assign_single (x := leaf _) (by simp only [find_put]; simp; rfl) _, ?_⟩ <;> simp only [Model.id] <;>
    rw [load_node _ _ _ _ _ (by decide) (by rfl)] <;>
    simp [Model.set, maybeLoad, maybeSet, find_put, leaf, Tree.text, hF, Val.text]

/-! ### Output options -/

theorem Output.named {i : String} {o : Option Output} (h : Output.Named i o) :
    asPtr Output.new Output.set (leaf i.toList) = .ok o := by
  cases h <;> rfl

theorem Output.change {o : Output} (ho : o.Good) {v : Val R} (hv : v.Good) {k : String} {o' : Output}
    (h : Output.Sets o k (v.map r) o') : ∃ P', o.params.assign [k] (leaf (v.text F)) = .ok P' ∧
      asPtr Output.new Output.set (obj o.id P') = .ok (some o') := by
  generalize hw : v.map r = w at h
  cases h
  case half f n m =>
    obtain rfl := Val.eq_nat hw
    refine ⟨_, assign_single (x := leaf _) (by simp only [Output.params, find_put]; simp; rfl) _, ?_⟩
    simp only [Output.id]
    rw [load_node _ _ _ _ _ (by decide) (by rfl)]
    simp [Output.set, Output.params, maybeLoad, maybeSet, find_put, leaf, Tree.text, asText, asUnsigned, Val.text, unsigned_ok hv]
  case steps f n m =>
    obtain rfl := Val.eq_nat hw
    refine ⟨_, assign_single (x := leaf _) (by simp only [Output.params, find_put]; simp; rfl) _, ?_⟩
    simp only [Output.id]
    rw [load_node _ _ _ _ _ (by decide) (by rfl)]
    simp [Output.set, Output.params, maybeLoad, maybeSet, find_put, leaf, Tree.text, asText, asUnsigned, Val.text, unsigned_ok hv]
  case solution f n g =>
    have ho : n < 2 ^ 32 := ho
    obtain rfl := Val.eq_word hw
    refine ⟨_, assign_single (x := leaf _) (by simp only [Output.params, find_put]; simp; rfl) _, ?_⟩
    simp only [Output.id]
    rw [load_node _ _ _ _ _ (by decide) (by rfl)]
    simp [Output.set, Output.params, maybeLoad, maybeSet, find_put, leaf, Tree.text, asText, asUnsigned, Val.text, unsigned_ok ho]
  case columnwise f n g =>
    have ho : n < 2 ^ 32 := ho
    obtain rfl := Val.eq_word hw
    refine ⟨_, assign_single (x := leaf _) (by simp only [Output.params, find_put]; simp; rfl) _, ?_⟩
    simp only [Output.id]
    rw [load_node _ _ _ _ _ (by decide) (by rfl)]
    simp [Output.set, Output.params, maybeLoad, maybeSet, find_put, leaf, Tree.text, asText, asUnsigned, Val.text, unsigned_ok ho]
  all_goals
    obtain rfl := Val.eq_word hw
    refine ⟨_, assign_single (x := leaf _) (by simp only [Output.params, find_put]; simp; rfl) _, ?_⟩
    simp only [Output.id]
    rw [load_node _ _ _ _ _ (by decide) (by rfl)]
    simp [Output.set, Output.params, maybeLoad, maybeSet, find_put, leaf, Tree.text, asText, asUnsigned, Val.text]

/-- An output under a parameter of the configuration -/
theorem Out.change {o o' : Option Output} (ho : ∀ x ∈ o, x.Good) {v : Val R} (hv : v.Good) {l : List String} {P : Params}
    {k : String} (hk : findKV k P = some (ptr (fun o => obj o.id o.params) o)) (h : OutSets o l (v.map r) o') :
    ∃ T, P.assign (k :: l) (leaf (v.text F)) = .ok (P.put k T) ∧ asPtr Output.new Output.set T = .ok o' := by
  generalize hw : v.map r = w at h
  cases h
  case new h =>
    obtain rfl := Val.eq_word hw
    exact ⟨_, assign_single hk _, Output.named h⟩
  case nested h =>
    subst hw
    obtain ⟨P', h1, h2⟩ := Output.change (F := F) (ho _ rfl) hv h
    exact ⟨_, assign_nested hk h1, h2⟩

/-! ### Initial state -/

theorem loadVars_each (P : Params) : ∀ (zs ys : List R) (i : Nat), ys.length = zs.length →
    (∀ j, (hj : j < zs.length) → (hy : j < ys.length) →
      maybeLoad P (varName (i + j)) (F.get ·.text) ys[j] = .ok zs[j]) → loadVars F P i ys = .ok zs := by
  intro zs
  induction zs with
  | nil =>
    intro ys i hl _
    rw [List.length_nil, List.length_eq_zero_iff] at hl
    subst hl
    rfl
  | cons z zs ih =>
    intro ys i hl h
    cases ys with
    | nil => simp at hl
    | cons y ys =>
      have h0 := h 0 (by simp) (by simp)
      have h1 := ih ys (i + 1) (by simpa using hl) (fun j hj hy => by
        have := h (j + 1) (by simpa using hj) (by simpa using hy)
        rw [show i + (j + 1) = i + 1 + j by omega] at this
        exact this)
      simp only [Nat.add_zero, List.getElem_cons_zero] at h0
      rw [loadVars, h0]
      simp [h1]

include hF in
/-- An initial state from the parameters of one, of which the size or a variable may have been replaced -/
theorem init_read {Q : Params} {n : Nat} {t : R} {xs : List R} (hn : n < 2 ^ 31)
    (h1 : findKV "size" Q = some (leaf (ofInt n))) (h2 : findKV "time" Q = some (leaf (F.put t)))
    (h3 : ∀ j, (hj : j < xs.length) → j < n → findKV (varName j) Q = some (leaf (F.put xs[j])))
    (h4 : ∀ j, xs.length ≤ j → j < n → findKV (varName j) Q = none) :
    asPtr initNew (initSet F) (obj "specified" Q) =
      .ok (some ⟨r t, (xs.map r).take n ++ List.replicate (n - xs.length) 0⟩) := by
  have hr : (InitState.new : InitState R).resize n = .ok ⟨0, List.replicate n 0⟩ := by
    unfold InitState.resize InitState.new
    by_cases h : n = 0
    · subst h; rfl
    · rw [if_neg (by simpa using h), if_neg (by omega), if_neg (by simp)]
      simp
  have hx : loadVars F Q 0 (List.replicate n 0) = .ok ((xs.map r).take n ++ List.replicate (n - xs.length) 0) := by
    refine loadVars_each Q _ _ 0 (by simp; omega) (fun j hj hy => ?_)
    simp at hy
    rw [Nat.zero_add]
    by_cases hl : j < xs.length
    · rw [maybeLoad, maybeSet, h3 j hl hy]
      simp only [leaf, Tree.text, hF]
      rw [List.getElem_append_left (by simp; omega)]
      simp
    · rw [maybeLoad, maybeSet, h4 j (by omega) hy]
      rw [List.getElem_append_right (by simp; omega)]
      simp
  rw [load_node _ _ _ _ _ (by decide) (by rfl)]
  unfold initSet
  simp only [maybeSet, maybeLoad, h1, h2]
  simp [leaf, Tree.text, C74_int (n : Int) (by omega) (by exact_mod_cast hn), hr, hF, hx]

include hF in
/-- An initial state under a parameter of the configuration -/
theorem Init.change {s s' : Option (InitState R)} (hs : ∀ x ∈ s, x.x.length < 2 ^ 31) {v : Val R} (hv : v.Good)
    {l : List String} {P : Params} {k : String}
    (hk : findKV k P = some (ptr (fun s => obj "specified" (initParams F s)) s))
    (h : InitSets (s.map (initMap r)) l (v.map r) s') :
    ∃ T, P.assign (k :: l) (leaf (v.text F)) = .ok (P.put k T) ∧ asPtr initNew (initSet F) T = .ok s' := by
  have hnew : ∀ {w : Val R}, v.map r = w → l = [] → (w = name "specified" ∧ s' = some ⟨0, []⟩ ∨ w = name "" ∧ s' = none) →
      ∃ T, P.assign (k :: l) (leaf (v.text F)) = .ok (P.put k T) ∧ asPtr initNew (initSet F) T = .ok s' := by
    rintro w hw rfl (⟨rfl, rfl⟩ | ⟨rfl, rfl⟩) <;> obtain rfl := Val.eq_word hw <;> exact ⟨_, assign_single hk _, by rfl⟩
  cases s with
  | none =>
    generalize hw : v.map r = w at h
    simp only [Option.map_none] at h
    cases h
    case new => exact hnew hw rfl (.inl ⟨rfl, rfl⟩)
    case drop => exact hnew hw rfl (.inr ⟨rfl, rfl⟩)
  | some s =>
    have hl := hs s rfl
    obtain ⟨t, xs⟩ := s
    have f1 : findKV "size" (initParams F ⟨t, xs⟩) = some (leaf (ofInt xs.length)) := by
      rw [initParams, find_initVars_other _ _ _ _ (fun j _ _ => varName_ne j _ (by decide))]
      simp [find_put]
    have f2 : findKV "time" (initParams F ⟨t, xs⟩) = some (leaf (F.put t)) := by
      rw [initParams, find_initVars_other _ _ _ _ (fun j _ _ => varName_ne j _ (by decide))]
      simp [find_put]
    have f3 : ∀ j, (hj : j < xs.length) → findKV (varName j) (initParams F ⟨t, xs⟩) = some (leaf (F.put xs[j])) :=
      fun j hj => by
        rw [initParams]
        have := find_initVars (F := F) xs 0
          ((Params.nil.put "size" (leaf (ofInt xs.length))).put "time" (leaf (F.put t))) (by simp at hl ⊢; omega) j hj
        rw [Nat.zero_add] at this
        exact this
    have f4 : ∀ j, xs.length ≤ j → j < 2 ^ 31 → findKV (varName j) (initParams F ⟨t, xs⟩) = none := fun j hj hj' => by
      rw [initParams, find_initVars_other _ _ _ _ (fun i _ hi h => by
        simp at hl hi
        have := varName_inj (by omega) hj' h
        omega), find_put, if_neg (Ne.symm (varName_ne j _ (by decide))), find_put, if_neg (Ne.symm (varName_ne j _ (by decide))),
        find_nil]
    have nx : ∀ {a b : String} {T : Tree} {x : Option Tree}, findKV a (initParams F ⟨t, xs⟩) = x → a ≠ b →
        findKV a ((initParams F ⟨t, xs⟩).put b T) = x := fun h hab => by rw [find_put, if_neg (Ne.symm hab), h]
    rw [ptr_some] at hk
    generalize hw : v.map r = w at h
    simp only [Option.map_some, initMap] at h
    cases h
    case new => exact hnew hw rfl (.inl ⟨rfl, rfl⟩)
    case drop => exact hnew hw rfl (.inr ⟨rfl, rfl⟩)
    case time =>
      obtain ⟨x, rfl, rfl⟩ := Val.eq_num hw
      refine ⟨_, assign_nested hk (assign_single f2 _), ?_⟩
      have := init_read hF (Q := (initParams F ⟨t, xs⟩).put "time" (leaf (F.put x))) (n := xs.length) (t := x) (xs := xs) hl
        (nx f1 (by decide)) (find_self _ _ _) (fun j hj _ => nx (f3 j hj) (varName_ne j _ (by decide)))
        (fun j hj hj' => by omega)
      refine this.trans ?_
      rw [List.take_of_length_le (by simp)]
      simp
    case size n =>
      obtain rfl := Val.eq_int hw
      have hn : n < 2 ^ 31 := by
        have := hv.2
        exact_mod_cast this
      refine ⟨_, assign_nested hk (assign_single f1 _), ?_⟩
      have := init_read hF (Q := (initParams F ⟨t, xs⟩).put "size" (leaf (ofInt n))) (n := n) (t := t) (xs := xs) hn
        (find_self _ _ _) (nx f2 (by decide)) (fun j hj _ => nx (f3 j hj) (varName_ne j _ (by decide)))
        (fun j hj hj' => nx (f4 j hj (by omega)) (varName_ne j _ (by decide)))
      rw [List.length_map]
      exact this
    case var i a hi =>
      obtain ⟨x, rfl, rfl⟩ := Val.eq_num hw
      simp at hi
      refine ⟨_, assign_nested hk (assign_single (f3 i hi) _), ?_⟩
      have := init_read hF (Q := (initParams F ⟨t, xs⟩).put (varName i) (leaf (F.put x))) (n := xs.length) (t := t)
        (xs := xs.set i x) hl (nx f1 (Ne.symm (varName_ne i _ (by decide)))) (nx f2 (Ne.symm (varName_ne i _ (by decide))))
        (fun j hj hj' => by
          by_cases hij : i = j
          · subst hij
            rw [find_self]
            simp
          · simp at hl hj'
            rw [nx (f3 j hj') (fun h => hij (varName_inj (by omega) (by omega) h.symm))]
            simp [hij])
        (fun j hj hj' => by simp at hj; omega)
      simp only [List.map_set] at this
      refine this.trans ?_
      rw [List.take_of_length_le (by simp)]
      simp

end

end Verif.Config
