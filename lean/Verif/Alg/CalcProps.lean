import Verif.Alg.JacModel
import Verif.Alg.FiniteDiff

/-! # Properties of the sparse Jacobian evaluator: grouping and values -/

namespace Verif.Alg

open Verif.Res Verif.Vec

set_option linter.unusedSectionVars false

/-! ### Column layouts -/

theorem rawSet_lt {α : Type} {l : List α} {i : Nat} (h : i < l.length) (v : α) :
    rawSet l i v = .ok (l.set i v) := by
  unfold rawSet
  rw [if_pos h]

theorem raw_lt' {α : Type} {l : List α} {i : Nat} (h : i < l.length) : raw l i = .ok l[i] := by
  unfold raw
  rw [List.getElem?_eq_getElem h]

theorem getD_set' {α : Type} {l : List α} {i j : Nat} {v d : α} (h : i < l.length) :
    (l.set i v).getD j d = if j = i then v else l.getD j d := by
  rw [List.getD_eq_getElem?_getD, List.getElem?_set]
  by_cases hj : j = i
  · subst hj; simp [h]
  · rw [if_neg (fun h => hj h.symm), if_neg hj, List.getD_eq_getElem?_getD]

theorem colRows_ok {K : Type} {J : FMat K} (hin : ∀ e ∈ J.data, e.1.2 < J.size.2) :
    ∃ cr, colRows J = .ok cr ∧ cr.length = J.size.2 ∧
      ∀ c r p, (r, p) ∈ cr.getD c [] ↔ ∃ v, J.data[p]? = some ((r, c), v) := by
  unfold colRows
  have h := loop_post (lo := 0) (hi := J.data.length) (s := List.replicate J.size.2 ([] : List (Nat × Nat)))
    (f := fun p cr => do
      let e ← raw J.data p
      let l ← raw cr e.1.2
      rawSet cr e.1.2 (l ++ [(e.1.1, p)]))
    (fun j cr => cr.length = J.size.2 ∧
      ∀ c r p, (r, p) ∈ cr.getD c [] ↔ p < j ∧ ∃ v, J.data[p]? = some ((r, c), v))
    (E := fun _ => False) (Nat.zero_le _)
    ⟨by simp, fun c r p => by
      constructor
      · intro h
        rw [List.getD_eq_getElem?_getD, List.getElem?_replicate] at h
        split at h <;> simp at h
      · intro h; omega⟩ (by
      intro j cr _ hj ⟨h1, h2⟩
      have hlt := hin _ (List.getElem_mem hj)
      rw [raw_lt' hj, bind_ok, raw_lt' (by omega), bind_ok, rawSet_lt (by omega)]
      refine ⟨by simp [h1], fun c r p => ?_⟩
      rw [getD_set' (by omega)]
      by_cases hc : c = (J.data[j]).1.2
      · rw [if_pos hc, List.mem_append, List.mem_singleton]
        have hcr : cr[(J.data[j]).1.2]'(by omega) = cr.getD c [] := by
          have : cr[(J.data[j]).1.2]? = some (cr[(J.data[j]).1.2]'(by omega)) :=
            List.getElem?_eq_getElem _
          rw [List.getD_eq_getElem?_getD, show cr[c]? = cr[(J.data[j]).1.2]? from congrArg (cr[·]?) hc,
            this]
          rfl
        rw [hcr, h2 c r p]
        constructor
        · rintro (⟨h, v, hv⟩ | h)
          · exact ⟨by omega, v, hv⟩
          · obtain ⟨rfl, rfl⟩ := Prod.mk.inj h
            refine ⟨by omega, (J.data[p]).2, ?_⟩
            rw [List.getElem?_eq_getElem hj, hc]
        · rintro ⟨h, v, hv⟩
          by_cases hpj : p = j
          · right
            subst hpj
            rw [List.getElem?_eq_getElem hj] at hv
            have := Option.some.inj hv
            rw [this]
          · left
            exact ⟨by omega, v, hv⟩
      · rw [if_neg hc, h2 c r p]
        constructor
        · rintro ⟨h, v, hv⟩
          exact ⟨by omega, v, hv⟩
        · rintro ⟨h, v, hv⟩
          refine ⟨?_, v, hv⟩
          by_contra hge
          have hpj : p = j := by omega
          subst hpj
          rw [List.getElem?_eq_getElem hj] at hv
          apply hc
          rw [Option.some.inj hv])
  rw [post_false_iff] at h
  obtain ⟨cr, h0, h1, h2⟩ := h
  refine ⟨cr, h0, h1, fun c r p => ?_⟩
  rw [h2]
  constructor
  · exact fun h => h.2
  · rintro ⟨v, hv⟩
    exact ⟨(List.getElem?_eq_some_iff.1 hv).1, v, hv⟩

theorem addRows_ok (rows : List (Nat × Nat)) (aff : List Bool) (h : ∀ rp ∈ rows, rp.1 < aff.length) :
    ∃ aff', addRows rows aff = .ok aff' ∧ aff'.length = aff.length ∧
      ∀ r, aff'.getD r false = true ↔ (aff.getD r false = true ∨ ∃ p, (r, p) ∈ rows) := by
  induction rows generalizing aff with
  | nil => exact ⟨aff, rfl, rfl, fun r => by simp⟩
  | cons rp rows ih =>
    have hlt := h rp List.mem_cons_self
    obtain ⟨aff', h1, h2, h3⟩ := ih (aff.set rp.1 true) (fun x hx => by
      rw [List.length_set]; exact h x (List.mem_cons_of_mem _ hx))
    refine ⟨aff', ?_, by rw [h2, List.length_set], fun r => ?_⟩
    · unfold addRows at h1 ⊢
      rw [List.foldlM_cons, rawSet_lt hlt]
      exact h1
    · rw [h3, getD_set' hlt]
      by_cases hr : r = rp.1
      · simp only [if_pos hr, true_or, true_iff]
        exact Or.inr ⟨rp.2, by rw [hr]; exact List.mem_cons_self⟩
      · rw [if_neg hr]
        constructor
        · rintro (h | ⟨p, hp⟩)
          · exact Or.inl h
          · exact Or.inr ⟨p, List.mem_cons_of_mem _ hp⟩
        · rintro (h | ⟨p, hp⟩)
          · exact Or.inl h
          · rcases List.mem_cons.1 hp with h | h
            · exact absurd (congrArg Prod.fst h) hr
            · exact Or.inr ⟨p, h⟩

theorem intersects_ok (aff : List Bool) (rows : List (Nat × Nat)) (h : ∀ rp ∈ rows, rp.1 < aff.length) :
    ∃ b, intersects aff rows = .ok b ∧ (b = true ↔ ∃ rp ∈ rows, aff.getD rp.1 false = true) := by
  induction rows with
  | nil => exact ⟨false, rfl, by simp⟩
  | cons rp rows ih =>
    have hlt := h rp List.mem_cons_self
    obtain ⟨b, h1, h2⟩ := ih (fun x hx => h x (List.mem_cons_of_mem _ hx))
    have hget : aff.getD rp.1 false = aff[rp.1] := by
      rw [List.getD_eq_getElem?_getD, List.getElem?_eq_getElem hlt]; rfl
    unfold intersects
    rw [raw_lt' hlt, bind_ok]
    by_cases hb : aff[rp.1] = true
    · rw [if_pos hb]
      exact ⟨true, rfl, by
        simp only [true_iff]
        exact ⟨rp, List.mem_cons_self, by rw [hget, hb]⟩⟩
    · rw [if_neg hb]
      refine ⟨b, h1, h2.trans ?_⟩
      constructor
      · rintro ⟨x, hx, hx'⟩
        exact ⟨x, List.mem_cons_of_mem _ hx, hx'⟩
      · rintro ⟨x, hx, hx'⟩
        rcases List.mem_cons.1 hx with rfl | hx
        · exact absurd (hget ▸ hx') hb
        · exact ⟨x, hx, hx'⟩

/-- No row of one column is a row of the other -/
def RowDisjoint (a b : Col) : Prop := ∀ r p p', (r, p) ∈ a.2 → (r, p') ∉ b.2

theorem rowDisjoint_of_pairwise {g : List Col} (h : g.Pairwise RowDisjoint) {a b : Col} (ha : a ∈ g)
    (hb : b ∈ g) (hne : a ≠ b) : RowDisjoint a b := by
  induction h with
  | nil => cases ha
  | cons hx _ ih =>
    rcases List.mem_cons.1 ha with rfl | ha'
    · rcases List.mem_cons.1 hb with rfl | hb'
      · exact absurd rfl hne
      · exact hx _ hb'
    · rcases List.mem_cons.1 hb with rfl | hb'
      · exact fun r p p' h1 h2 => hx _ ha' r p' p h2 h1
      · exact ih ha' hb'

theorem pick_ok (cr : List (List (Nat × Nat))) (cs : List Nat) (aff : List Bool)
    (hcs : ∀ c ∈ cs, c < cr.length) (hr : ∀ c, ∀ rp ∈ cr.getD c [], rp.1 < aff.length) :
    ∃ g rest, pick cr cs aff = .ok (g, rest) ∧ (g.map Prod.fst ++ rest).Perm cs ∧
      (∀ c ∈ g, c.2 = cr.getD c.1 []) ∧ (∀ c ∈ g, ∀ rp ∈ c.2, aff.getD rp.1 false = false) ∧
      g.Pairwise RowDisjoint := by
  induction cs generalizing aff with
  | nil => exact ⟨[], [], rfl, List.Perm.refl _, by simp, by simp, List.Pairwise.nil⟩
  | cons c cs ih =>
    have hc := hcs c List.mem_cons_self
    have hget : cr[c]'hc = cr.getD c [] := by
      rw [List.getD_eq_getElem?_getD, List.getElem?_eq_getElem hc]; rfl
    obtain ⟨b, hb, hb'⟩ := intersects_ok aff (cr.getD c []) (hr c)
    unfold pick
    rw [raw_lt' hc, bind_ok, hget, hb, bind_ok]
    by_cases hbt : b = true
    · rw [if_pos hbt]
      obtain ⟨g, rest, h1, h2, h3, h4, h5⟩ := ih aff (fun x hx => hcs x (List.mem_cons_of_mem _ hx)) hr
      rw [h1, bind_ok]
      exact ⟨g, c :: rest, rfl, List.perm_middle.trans (h2.cons c), h3, h4, h5⟩
    · rw [if_neg hbt]
      obtain ⟨aff', ha, hl, haff⟩ := addRows_ok (cr.getD c []) aff (hr c)
      rw [ha, bind_ok]
      obtain ⟨g, rest, h1, h2, h3, h4, h5⟩ := ih aff' (fun x hx => hcs x (List.mem_cons_of_mem _ hx))
        (fun c rp h => by rw [hl]; exact hr c rp h)
      rw [h1, bind_ok]
      have hnone : ∀ r, aff'.getD r false = false →
          aff.getD r false = false ∧ ∀ p, (r, p) ∉ cr.getD c [] := by
        intro r h
        constructor
        · by_contra hc
          have := (haff r).2 (Or.inl (by simpa using hc))
          rw [h] at this
          cases this
        · intro p hp
          have := (haff r).2 (Or.inr ⟨p, hp⟩)
          rw [h] at this
          cases this
      refine ⟨(c, cr.getD c []) :: g, rest, rfl, ?_, ?_, ?_, ?_⟩
      · exact h2.cons c
      · intro x hx
        rcases List.mem_cons.1 hx with rfl | hx
        · rfl
        · exact h3 x hx
      · intro x hx rp hrp
        rcases List.mem_cons.1 hx with rfl | hx
        · by_contra hne
          exact hbt (hb'.2 ⟨rp, hrp, by simpa using hne⟩)
        · exact (hnone rp.1 (h4 x hx rp hrp)).1
      · refine List.pairwise_cons.2 ⟨?_, h5⟩
        intro x hx r p p' h6 h7
        exact (hnone r (h4 x hx (r, p') h7)).2 p h6

theorem groups_ok (cr : List (List (Nat × Nat))) (nrows : Nat)
    (hr : ∀ c, ∀ rp ∈ cr.getD c [], rp.1 < nrows) (fuel : Nat) (cs : List Nat)
    (hf : cs.length ≤ fuel) (hcs : ∀ c ∈ cs, c < cr.length) :
    ∃ gs, groups cr nrows fuel cs = .ok gs ∧ (gs.flatten.map Prod.fst).Perm cs ∧
      (∀ g ∈ gs, g ≠ [] ∧ g.Pairwise RowDisjoint ∧ ∀ c ∈ g, c.2 = cr.getD c.1 []) := by
  induction fuel generalizing cs with
  | zero =>
    have : cs = [] := List.length_eq_zero_iff.1 (by omega)
    subst this
    exact ⟨[], rfl, List.Perm.refl _, by simp⟩
  | succ fuel ih =>
    cases cs with
    | nil => exact ⟨[], rfl, List.Perm.refl _, by simp⟩
    | cons c cs =>
      have hc := hcs c List.mem_cons_self
      have hget : cr[c]'hc = cr.getD c [] := by
        rw [List.getD_eq_getElem?_getD, List.getElem?_eq_getElem hc]; rfl
      obtain ⟨aff, ha, hl, haff⟩ := addRows_ok (cr.getD c []) (List.replicate nrows false)
        (fun rp h => by rw [List.length_replicate]; exact hr c rp h)
      rw [List.length_replicate] at hl
      obtain ⟨g, rest, h1, h2, h3, h4, h5⟩ := pick_ok cr cs aff
        (fun x hx => hcs x (List.mem_cons_of_mem _ hx)) (fun c rp h => by rw [hl]; exact hr c rp h)
      have hlen := h2.length_eq
      rw [List.length_append] at hlen
      rw [List.length_cons] at hf
      obtain ⟨gs, k1, k2, k3⟩ := ih rest (by omega) (fun x hx => hcs x (List.mem_cons_of_mem _
        (h2.subset (List.mem_append_right _ hx))))
      unfold groups
      rw [raw_lt' hc, bind_ok, hget, ha, bind_ok, h1, bind_ok]
      dsimp only
      rw [k1, bind_ok]
      refine ⟨_, rfl, ?_, ?_⟩
      · rw [List.flatten_cons, List.map_append, List.map_cons, List.cons_append]
        exact ((k2.append_left _).trans h2).cons c
      · intro g' hg'
        rcases List.mem_cons.1 hg' with rfl | hg'
        · refine ⟨by simp, List.pairwise_cons.2 ⟨?_, h5⟩, ?_⟩
          · intro x hx r p p' h6 h7
            have := h4 x hx (r, p') h7
            have h8 := (haff r).2 (Or.inr ⟨p, h6⟩)
            rw [this] at h8
            cases h8
          · intro x hx
            rcases List.mem_cons.1 hx with rfl | hx
            · rfl
            · exact h3 x hx
        · exact k3 g' hg'

/-- All elements are inside the declared size. -/
def FMat.Inside {K : Type} (J : FMat K) : Prop := ∀ e ∈ J.data, e.1.1 < J.size.1 ∧ e.1.2 < J.size.2

/-- What the constructor builds: besides the partition, every column comes with exactly the positions
of its elements. -/
theorem layout_ok {K : Type} {J : FMat K} (hin : J.Inside) :
    ∃ lay, layout J = .ok lay ∧ (lay.flatten.map Prod.fst).Perm (List.range J.size.2) ∧
      ∀ g ∈ lay, g ≠ [] ∧ g.Pairwise RowDisjoint ∧
        ∀ c ∈ g, ∀ r p, (r, p) ∈ c.2 ↔ ∃ v, J.data[p]? = some ((r, c.1), v) := by
  obtain ⟨cr, h1, h2, h3⟩ := colRows_ok (fun e he => (hin e he).2)
  obtain ⟨gs, k1, k2, k3⟩ := groups_ok cr J.size.1 (fun c rp hrp => by
    obtain ⟨v, hv⟩ := (h3 c rp.1 rp.2).1 hrp
    exact (hin _ (List.mem_of_getElem? hv)).1) J.size.2 (List.range J.size.2) (by simp)
    (fun c hc => by rw [h2]; simpa using hc)
  unfold layout
  rw [h1, bind_ok]
  refine ⟨gs, k1, k2, fun g hg => ?_⟩
  obtain ⟨a1, a2, a3⟩ := k3 g hg
  refine ⟨a1, a2, fun c hc r p => ?_⟩
  rw [a3 c hc, h3]

theorem length_flatten_ge {α : Type} (l : List (List α)) (h : ∀ g ∈ l, g ≠ []) :
    l.length ≤ l.flatten.length := by
  induction l with
  | nil => simp
  | cons g l ih =>
    have h1 := ih (fun x hx => h x (List.mem_cons_of_mem _ hx))
    have h2 := List.length_pos_of_ne_nil (h g List.mem_cons_self)
    rw [List.flatten_cons, List.length_append, List.length_cons]
    omega

/-- C16: every column is in exactly one group (the columns of all groups in a row are the columns of
the matrix, each once), no group is empty, two different columns of a group never share a row of the
stencil, and the number of mapping evaluations announced is at most the number of columns plus one. -/
theorem C16_partition {K : Type} (J : FMat K)
    (hin : ∀ e ∈ J.data, e.1.1 < J.size.1 ∧ e.1.2 < J.size.2) :
    ∃ lay, layout J = .ok lay ∧ (lay.flatten.map Prod.fst).Perm (List.range J.size.2) ∧
      (∀ g ∈ lay, g ≠ []) ∧
      (∀ g ∈ lay, ∀ c ∈ g.map Prod.fst, ∀ c' ∈ g.map Prod.fst, c ≠ c' → ∀ r v v',
        ((r, c), v) ∈ J.data → ((r, c'), v') ∉ J.data) ∧
      evaluationsRequired lay ≤ J.size.2 + 1 := by
  obtain ⟨lay, h1, h2, h3⟩ := layout_ok (J := J) hin
  refine ⟨lay, h1, h2, fun g hg => (h3 g hg).1, ?_, ?_⟩
  · intro g hg c hc c' hc' hne r v v' hm hm'
    obtain ⟨-, hp, hrow⟩ := h3 g hg
    obtain ⟨x, hx, rfl⟩ := List.mem_map.1 hc
    obtain ⟨x', hx', rfl⟩ := List.mem_map.1 hc'
    obtain ⟨p, hpl, hp1⟩ := List.getElem_of_mem hm
    obtain ⟨p', hpl', hp2⟩ := List.getElem_of_mem hm'
    have m1 : (r, p) ∈ x.2 := (hrow x hx r p).2 ⟨v, by rw [List.getElem?_eq_getElem hpl, hp1]⟩
    have m2 : (r, p') ∈ x'.2 := (hrow x' hx' r p').2 ⟨v', by rw [List.getElem?_eq_getElem hpl', hp2]⟩
    exact rowDisjoint_of_pairwise hp hx hx' (fun h => hne (congrArg Prod.fst h)) r p p' m1 m2
  · unfold evaluationsRequired
    have := length_flatten_ge lay (fun g hg => (h3 g hg).1)
    have h4 := h2.length_eq
    rw [List.length_map, List.length_range] at h4
    omega

section
variable {K : Type} [Field K] [DecidableEq K]

/-! ### Values -/

theorem bumps_ok (g : List Col) (x : List K) (delta : K) (hg : ∀ c ∈ g, c.1 < x.length)
    (hnd : (g.map Prod.fst).Nodup) :
    ∃ x', g.foldlM (fun x c => do
        let v ← at' x c.1
        atSet x c.1 (v + delta)) x = (.ok x' : Res (List K)) ∧ x'.length = x.length ∧
      ∀ k, x'.getD k 0 = if k ∈ g.map Prod.fst then x.getD k 0 + delta else x.getD k 0 := by
  induction g generalizing x with
  | nil => exact ⟨x, rfl, rfl, fun k => by simp⟩
  | cons c g ih =>
    have hc := hg c List.mem_cons_self
    rw [List.map_cons, List.nodup_cons] at hnd
    obtain ⟨x', h1, h2, h3⟩ := ih (x.set c.1 (x.getD c.1 0 + delta))
      (fun c hc => by rw [List.length_set]; exact hg c (List.mem_cons_of_mem _ hc)) hnd.2
    refine ⟨x', ?_, by rw [h2, List.length_set], fun k => ?_⟩
    · rw [List.foldlM_cons, at_lt hc, bind_ok]
      unfold atSet
      rw [if_pos hc, bind_ok]
      exact h1
    · rw [h3, getD_set hc, List.map_cons]
      by_cases hk : k = c.1
      · subst hk
        rw [if_neg hnd.1, if_pos rfl, if_pos List.mem_cons_self]
      · rw [if_neg hk]
        by_cases hm : k ∈ g.map Prod.fst
        · rw [if_pos hm, if_pos (List.mem_cons_of_mem _ hm)]
        · rw [if_neg hm, if_neg (by rw [List.mem_cons]; rintro (h | h); exacts [hk h, hm h])]

/-- Output `r` depends on input `c` only if `(r, c)` is stored. -/
def DependsOn (F : Mapping K) (S : Nat → Nat → Prop) : Prop :=
  ∀ x y fx fy, x.length = F.inSize → y.length = F.inSize → F.map x = .ok fx → F.map y = .ok fy →
    ∀ r, (∀ c, c < F.inSize → S r c → x.getD c 0 = y.getD c 0) → fx.getD r 0 = fy.getD r 0

/-- The mapping returns for every vector of the right size, with the right size. -/
def Total (F : Mapping K) : Prop :=
  ∀ x, x.length = F.inSize → ∃ f, F.map x = .ok f ∧ f.length = F.outSize

/-- Writes through positions that all leave the value wanted there. -/
theorem writes_ok (rows : List (Nat × Nat)) (d : Sparse.Fast K) (f f0 : List K) (delta : K)
    (hdel : delta ≠ 0) (G : Sparse.Index → K) (c : Nat)
    (hr : ∀ rp ∈ rows, rp.1 < f.length ∧ rp.1 < f0.length ∧ (∃ v, d[rp.2]? = some ((rp.1, c), v)) ∧
      (f.getD rp.1 0 - f0.getD rp.1 0) / delta = G (rp.1, c)) :
    ∃ d', rows.foldlM (fun d rp => do
        let a ← at' f rp.1
        let b ← at' f0 rp.1
        let q ← Res.div (a - b) delta
        let e ← raw d rp.2
        rawSet d rp.2 (e.1, q)) d = (.ok d' : Res (Sparse.Fast K)) ∧
      d'.map Prod.fst = d.map Prod.fst ∧
      ∀ (p : Nat) i v, d'[p]? = some (i, v) →
        (v = G i ∨ (d[p]? = some (i, v) ∧ p ∉ rows.map Prod.snd)) := by
  induction rows generalizing d with
  | nil => exact ⟨d, rfl, rfl, fun p i v h => Or.inr ⟨h, by simp⟩⟩
  | cons rp rows ih =>
    obtain ⟨h1, h2, ⟨v, hv⟩, h4⟩ := hr rp List.mem_cons_self
    have hlt := (List.getElem?_eq_some_iff.1 hv).1
    have hel : d[rp.2] = ((rp.1, c), v) := (List.getElem?_eq_some_iff.1 hv).2
    have hkeys : (List.set d rp.2 ((rp.1, c), G (rp.1, c))).map Prod.fst = d.map Prod.fst := by
      rw [List.map_set]
      apply List.ext_getElem? 
      intro k
      rw [List.getElem?_set]
      by_cases hk : rp.2 = k
      · subst hk
        rw [if_pos rfl, if_pos (by simpa using hlt), List.getElem?_map, hv]
        rfl
      · rw [if_neg hk]
    obtain ⟨d', k1, k2, k3⟩ := ih (List.set d rp.2 ((rp.1, c), G (rp.1, c))) (by
      intro rp' hrp'
      obtain ⟨a1, a2, ⟨v', a3⟩, a4⟩ := hr rp' (List.mem_cons_of_mem _ hrp')
      refine ⟨a1, a2, ?_, a4⟩
      rw [List.getElem?_set]
      by_cases hk : rp.2 = rp'.2
      · rw [if_pos hk, if_pos hlt]
        rw [← hk, hv] at a3
        have : (rp.1, c) = (rp'.1, c) := congrArg Prod.fst (Option.some.inj a3)
        exact ⟨_, by rw [this]⟩
      · rw [if_neg hk]
        exact ⟨v', a3⟩)
    refine ⟨d', ?_, k2.trans hkeys, ?_⟩
    · rw [List.foldlM_cons, at_lt h1, bind_ok, at_lt h2, bind_ok]
      unfold Res.div
      rw [if_neg hdel, bind_ok, raw_lt' hlt, bind_ok, rawSet_lt hlt, bind_ok, hel, h4]
      unfold Res.div at k1
      exact k1
    · intro p i w hw
      rcases k3 p i w hw with h | ⟨h, hn⟩
      · exact Or.inl h
      · rw [List.getElem?_set] at h
        by_cases hk : rp.2 = p
        · left
          rw [if_pos hk, if_pos hlt] at h
          have := Option.some.inj h
          obtain ⟨e1, e2⟩ := Prod.mk.inj this
          rw [← e2, ← e1]
        · rw [if_neg hk] at h
          right
          refine ⟨h, ?_⟩
          rw [List.map_cons, List.mem_cons]
          rintro (rfl | h)
          · exact hk rfl
          · exact hn h

theorem group_writes_ok (g : List Col) (d : Sparse.Fast K) (f f0 : List K) (delta : K)
    (hdel : delta ≠ 0) (G : Sparse.Index → K)
    (hr : ∀ c ∈ g, ∀ rp ∈ c.2, rp.1 < f.length ∧ rp.1 < f0.length ∧
      (∃ v, d[rp.2]? = some ((rp.1, c.1), v)) ∧ (f.getD rp.1 0 - f0.getD rp.1 0) / delta = G (rp.1, c.1)) :
    ∃ d', g.foldlM (fun d c => c.2.foldlM (fun d rp => do
        let a ← at' f rp.1
        let b ← at' f0 rp.1
        let q ← Res.div (a - b) delta
        let e ← raw d rp.2
        rawSet d rp.2 (e.1, q)) d) d = (.ok d' : Res (Sparse.Fast K)) ∧
      d'.map Prod.fst = d.map Prod.fst ∧
      ∀ (p : Nat) i v, d'[p]? = some (i, v) →
        (v = G i ∨ (d[p]? = some (i, v) ∧ ∀ c ∈ g, p ∉ c.2.map Prod.snd)) := by
  induction g generalizing d with
  | nil => exact ⟨d, rfl, rfl, fun p i v h => Or.inr ⟨h, by simp⟩⟩
  | cons c g ih =>
    obtain ⟨d1, k1, k2, k3⟩ := writes_ok c.2 d f f0 delta hdel G c.1 (hr c List.mem_cons_self)
    have hkey : ∀ (p : Nat) i v, d[p]? = some (i, v) → ∃ v', d1[p]? = some (i, v') := by
      intro p i v h
      have h1 : (d1.map Prod.fst)[p]? = some i := by
        rw [k2, List.getElem?_map, h]; rfl
      rw [List.getElem?_map] at h1
      cases hd : d1[p]? with
      | none => rw [hd] at h1; cases h1
      | some e =>
        rw [hd] at h1
        refine ⟨e.2, ?_⟩
        rw [← (Option.some.inj h1 : e.1 = i)]
    obtain ⟨d', m1, m2, m3⟩ := ih d1 (by
      intro c' hc' rp hrp
      obtain ⟨a1, a2, ⟨v, a3⟩, a4⟩ := hr c' (List.mem_cons_of_mem _ hc') rp hrp
      exact ⟨a1, a2, hkey _ _ _ a3, a4⟩)
    refine ⟨d', ?_, m2.trans k2, ?_⟩
    · rw [List.foldlM_cons, k1, bind_ok]
      exact m1
    · intro p i v h
      rcases m3 p i v h with h | ⟨h, hn⟩
      · exact Or.inl h
      · rcases k3 p i v h with h | ⟨h, hn'⟩
        · exact Or.inl h
        · refine Or.inr ⟨h, fun c' hc' => ?_⟩
          rcases List.mem_cons.1 hc' with rfl | hc'
          · exact hn'
          · exact hn c' hc'

/-- C15: evaluated with the layout of its stencil, the matrix keeps its positions and holds at each of
them the finite difference of the mapping, as if its columns had been evaluated one by one: for every
mapping whose outputs depend on the inputs only as the stencil says. -/
theorem C15_values {J : FMat K} {F : Mapping K} {x0 : List K} {delta : K} {f0 : List K}
    {f : Nat → List K} (hin : ∀ e ∈ J.data, e.1.1 < J.size.1 ∧ e.1.2 < J.size.2)
    (hsz : J.size = (F.outSize, F.inSize)) (hT : Total F)
    (hdep : DependsOn F (fun r c => ∃ v, ((r, c), v) ∈ J.data)) (hx : x0.length = F.inSize)
    (hdel : delta ≠ 0) (hf0 : F.map x0 = .ok f0)
    (hf : ∀ c, c < F.inSize → F.map (x0.set c (x0.getD c 0 + delta)) = .ok (f c)) :
    computeSparseJacobian J F x0 delta = .ok ⟨J.size, J.data.map (fun e =>
      (e.1, ((f e.1.2).getD e.1.1 0 - f0.getD e.1.1 0) / delta))⟩ := by
  obtain ⟨lay, h1, h2, h3⟩ := layout_ok (J := J) hin
  unfold computeSparseJacobian calculate
  rw [h1, bind_ok, hf0, bind_ok]
  obtain ⟨G, hG⟩ : ∃ G : Sparse.Index → K, G = fun i => ((f i.2).getD i.1 0 - f0.getD i.1 0) / delta :=
    ⟨_, rfl⟩
  have hl0 : f0.length = F.outSize := by
    obtain ⟨y, e1, e2⟩ := hT x0 hx
    rw [hf0] at e1
    rw [Except.ok.inj e1, e2]
  have hcols : ∀ g ∈ lay, ∀ c ∈ g, c.1 < F.inSize := by
    intro g hg c hc
    have : c.1 ∈ lay.flatten.map Prod.fst :=
      List.mem_map_of_mem (List.mem_flatten_of_mem hg hc)
    have := h2.subset this
    rw [hsz] at this
    simpa using this
  have hnodup : ∀ g ∈ lay, (g.map Prod.fst).Nodup := by
    intro g hg
    have h : (lay.flatten.map Prod.fst).Nodup := h2.nodup_iff.2 List.nodup_range
    rw [List.map_flatten] at h
    exact (List.nodup_flatten.1 h).1 _ (List.mem_map_of_mem hg)
  -- one group
  have hgroup : ∀ g ∈ lay, ∀ d : Sparse.Fast K, d.map Prod.fst = J.data.map Prod.fst →
      ∃ d', evalGroup F x0 f0 delta g d = .ok d' ∧ d'.map Prod.fst = J.data.map Prod.fst ∧
        ∀ (p : Nat) i v, d'[p]? = some (i, v) → (v = G i ∨ (d[p]? = some (i, v) ∧ i.2 ∉ g.map Prod.fst)) := by
    intro g hg d hd
    obtain ⟨-, hpw, hrow⟩ := h3 g hg
    obtain ⟨x, b1, b2, b3⟩ := bumps_ok g x0 delta (fun c hc => by rw [hx]; exact hcols g hg c hc)
      (hnodup g hg)
    obtain ⟨fx, e1, e2⟩ := hT x (by omega)
    unfold evalGroup
    rw [b1, bind_ok, e1, bind_ok]
    have hkey : ∀ (p : Nat) i v, J.data[p]? = some (i, v) → ∃ v', d[p]? = some (i, v') := by
      intro p i v h
      have h1 : (d.map Prod.fst)[p]? = some i := by
        rw [hd, List.getElem?_map, h]; rfl
      rw [List.getElem?_map] at h1
      cases hd : d[p]? with
      | none => rw [hd] at h1; cases h1
      | some e =>
        rw [hd] at h1
        refine ⟨e.2, ?_⟩
        rw [← (Option.some.inj h1 : e.1 = i)]
    obtain ⟨d', k1, k2, k3⟩ := group_writes_ok g d fx f0 delta hdel G (by
      intro c hc rp hrp
      obtain ⟨v, hv⟩ := (hrow c hc rp.1 rp.2).1 hrp
      have hmem := List.mem_of_getElem? hv
      have hlt := (hin _ hmem).1
      rw [hsz] at hlt
      dsimp only at hlt
      refine ⟨by omega, by omega, hkey _ _ _ hv, ?_⟩
      rw [hG]
      dsimp only
      congr 2
      have hcc := hcols g hg c hc
      refine hdep x (bump x0 c.1 delta) fx (f c.1) (by omega) (by simp [bump, hx]) e1
        (hf c.1 hcc) rp.1 ?_
      intro c' hc' ⟨v', hv'⟩
      rw [b3, getD_bump (by omega)]
      by_cases heq : c' = c.1
      · subst heq
        rw [if_pos (List.mem_map_of_mem hc), if_pos rfl]
      · rw [if_neg heq]
        split
        · next hmem' =>
          exfalso
          obtain ⟨x', hx', rfl⟩ := List.mem_map.1 hmem'
          obtain ⟨p', hpl', hp'⟩ := List.getElem_of_mem hv'
          have m2 : (rp.1, p') ∈ x'.2 :=
            (hrow x' hx' rp.1 p').2 ⟨v', by rw [List.getElem?_eq_getElem hpl', hp']⟩
          exact rowDisjoint_of_pairwise hpw hx' hc (fun h => heq (congrArg Prod.fst h)) rp.1 p' rp.2 m2 hrp
        · rfl)
    refine ⟨d', k1, k2.trans hd, ?_⟩
    intro p i v h
    rcases k3 p i v h with h | ⟨h, hn⟩
    · exact Or.inl h
    · refine Or.inr ⟨h, fun hm => ?_⟩
      obtain ⟨c, hc, hci⟩ := List.mem_map.1 hm
      apply hn c hc
      have hj : (J.data.map Prod.fst)[p]? = some i := by
        rw [← hd, List.getElem?_map, h]; rfl
      rw [List.getElem?_map] at hj
      cases hjd : J.data[p]? with
      | none => rw [hjd] at hj; cases hj
      | some e =>
        rw [hjd] at hj
        have he : e.1 = i := Option.some.inj hj
        have : (i.1, p) ∈ c.2 := (hrow c hc i.1 p).2 ⟨e.2, by
          rw [hjd, hci, ← he]⟩
        exact List.mem_map_of_mem (f := Prod.snd) this
  -- all groups
  have hall : ∀ (l : List (List Col)), (∀ g ∈ l, g ∈ lay) → ∀ d : Sparse.Fast K,
      d.map Prod.fst = J.data.map Prod.fst →
      ∃ d', l.foldlM (fun d g => evalGroup F x0 f0 delta g d) d = (.ok d' : Res (Sparse.Fast K)) ∧
        d'.map Prod.fst = J.data.map Prod.fst ∧
        ∀ (p : Nat) i v, d'[p]? = some (i, v) →
          (v = G i ∨ (d[p]? = some (i, v) ∧ i.2 ∉ l.flatten.map Prod.fst)) := by
    intro l
    induction l with
    | nil => exact fun _ d hd => ⟨d, rfl, hd, fun p i v h => Or.inr ⟨h, by simp⟩⟩
    | cons g l ih =>
      intro hl d hd
      obtain ⟨d1, k1, k2, k3⟩ := hgroup g (hl g List.mem_cons_self) d hd
      obtain ⟨d', m1, m2, m3⟩ := ih (fun x hx => hl x (List.mem_cons_of_mem _ hx)) d1 k2
      refine ⟨d', ?_, m2, ?_⟩
      · rw [List.foldlM_cons, k1, bind_ok]
        exact m1
      · intro p i v h
        rcases m3 p i v h with h | ⟨h, hn⟩
        · exact Or.inl h
        · rcases k3 p i v h with h | ⟨h, hn'⟩
          · exact Or.inl h
          · refine Or.inr ⟨h, ?_⟩
            rw [List.flatten_cons, List.map_append, List.mem_append]
            rintro (h | h)
            · exact hn' h
            · exact hn h
  obtain ⟨d', k1, k2, k3⟩ := hall lay (fun _ h => h) J.data rfl
  rw [k1, bind_ok]
  congr 2
  apply List.ext_getElem?
  intro p
  rw [List.getElem?_map]
  have hk : (d'.map Prod.fst)[p]? = (J.data.map Prod.fst)[p]? := by rw [k2]
  rw [List.getElem?_map, List.getElem?_map] at hk
  cases hd : d'[p]? with
  | none =>
    rw [hd] at hk
    cases hj : J.data[p]? with
    | none => rfl
    | some e => rw [hj] at hk; cases hk
  | some e =>
    rw [hd] at hk
    cases hj : J.data[p]? with
    | none => rw [hj] at hk; cases hk
    | some e' =>
      rw [hj] at hk
      have he : e.1 = e'.1 := Option.some.inj hk
      have hcol : e.1.2 ∈ lay.flatten.map Prod.fst := by
        apply h2.symm.subset
        rw [List.mem_range, he]
        exact (hin _ (List.mem_of_getElem? hj)).2
      rcases k3 p e.1 e.2 hd with h | ⟨-, hn⟩
      · rw [Option.map_some]
        congr 1
        refine Prod.ext he ?_
        dsimp only
        rw [h, hG, he]
      · exact absurd hcol hn

/-- C16: a calculation looks at the mapping in as many points as announced: any other mapping with the
same values at those points gives the same result. -/
theorem C16_evaluations (J : FMat K) (F : Mapping K) (x0 : List K) (delta : K)
    (hin : ∀ e ∈ J.data, e.1.1 < J.size.1 ∧ e.1.2 < J.size.2) (hx : x0.length = J.size.2)
    {lay : List (List Col)} (hl : layout J = .ok lay) :
    ∃ pts : List (List K), pts.length = evaluationsRequired lay ∧
      ∀ F' : Mapping K, (∀ x ∈ pts, F'.map x = F.map x) →
        calculate lay F' x0 delta J = calculate lay F x0 delta J := by
  obtain ⟨lay', h1, h2, h3⟩ := layout_ok (J := J) hin
  rw [hl] at h1
  cases h1
  have hcols : ∀ g ∈ lay, (∀ c ∈ g, c.1 < x0.length) ∧ (g.map Prod.fst).Nodup := by
    intro g hg
    constructor
    · intro c hc
      have : c.1 ∈ lay.flatten.map Prod.fst := List.mem_map_of_mem (List.mem_flatten_of_mem hg hc)
      have := h2.subset this
      rw [hx]
      simpa using this
    · have h : (lay.flatten.map Prod.fst).Nodup := h2.nodup_iff.2 List.nodup_range
      rw [List.map_flatten] at h
      exact (List.nodup_flatten.1 h).1 _ (List.mem_map_of_mem hg)
  have hpt : ∀ l : List (List Col), (∀ g ∈ l, g ∈ lay) → ∃ pts : List (List K), pts.length = l.length ∧
      ∀ F' : Mapping K, (∀ x ∈ pts, F'.map x = F.map x) → ∀ (f0 : List K) (d : Sparse.Fast K),
        l.foldlM (fun d g => evalGroup F' x0 f0 delta g d) d
          = l.foldlM (fun d g => evalGroup F x0 f0 delta g d) d := by
    intro l
    induction l with
    | nil => exact fun _ => ⟨[], rfl, fun _ _ _ _ => rfl⟩
    | cons g l ih =>
      intro hsub
      obtain ⟨pts, hlen, hpts⟩ := ih (fun x hx => hsub x (List.mem_cons_of_mem _ hx))
      have hg := hsub g List.mem_cons_self
      obtain ⟨x, b1, -, -⟩ := bumps_ok g x0 delta (hcols g hg).1 (hcols g hg).2
      refine ⟨x :: pts, by simp [hlen], fun F' hF' f0 d => ?_⟩
      rw [List.foldlM_cons, List.foldlM_cons]
      have : evalGroup F' x0 f0 delta g d = evalGroup F x0 f0 delta g d := by
        unfold evalGroup
        rw [b1, bind_ok, bind_ok, hF' x List.mem_cons_self]
      rw [this]
      congr 1
      funext d'
      exact hpts F' (fun y hy => hF' y (List.mem_cons_of_mem _ hy)) f0 d'
  obtain ⟨pts, hlen, hpts⟩ := hpt lay (fun _ h => h)
  refine ⟨x0 :: pts, by simp [hlen, evaluationsRequired], fun F' hF' => ?_⟩
  unfold calculate
  rw [hF' x0 List.mem_cons_self]
  congr 1
  funext f0
  rw [hpts F' (fun y hy => hF' y (List.mem_cons_of_mem _ hy)) f0 J.data]

end

/-- A tridiagonal stencil of five columns needs three groups: four evaluations instead of six. -/
example : (match layout (⟨(5, 5), [((0, 0), 0), ((0, 1), 0), ((1, 0), 0), ((1, 1), 0), ((1, 2), 0),
      ((2, 1), 0), ((2, 2), 0), ((2, 3), 0), ((3, 2), 0), ((3, 3), 0), ((3, 4), 0), ((4, 3), 0),
      ((4, 4), 0)]⟩ : FMat ℚ) with
    | .ok l => decide (l.map (fun g => g.map Prod.fst) = [[0, 3], [1, 4], [2]] ∧
        evaluationsRequired l = 4)
    | .error _ => false) = true := by decide +kernel

/-- The squares of both inputs, each output depending on its own input. -/
def squares : Mapping ℚ :=
  ⟨2, 2, fun x => .ok [x.getD 0 0 * x.getD 0 0, x.getD 1 0 * x.getD 1 0]⟩

/-- The diagonal stencil, where both columns are evaluated at once: at (3, 5) with step 1/2 the
differences 13/2 and 21/2. -/
example : computeSparseJacobian ⟨(2, 2), [((0, 0), 0), ((1, 1), 0)]⟩ squares [3, 5] (1 / 2)
    = .ok ⟨(2, 2), [((0, 0), 13 / 2), ((1, 1), 21 / 2)]⟩ := by
  rw [C15_values (f0 := [9, 25]) (f := fun c => if c = 0 then [49 / 4, 25] else [9, 121 / 4])]
  · decide +kernel
  · decide
  · rfl
  · exact fun x _ => ⟨_, rfl, rfl⟩
  · intro x y fx fy hx hy h1 h2 r h
    cases h1; cases h2
    have e0 := h 0 (by decide)
    have e1 := h 1 (by decide)
    match r with
    | 0 =>
      rw [List.getD_cons_zero, List.getD_cons_zero, e0 ⟨0, by simp⟩]
    | 1 =>
      rw [List.getD_cons_succ, List.getD_cons_zero, List.getD_cons_succ, List.getD_cons_zero, e1 ⟨0, by simp⟩]
    | r + 2 => rfl
  · rfl
  · norm_num
  · norm_num [squares]
  · intro c hc
    have : c = 0 ∨ c = 1 := by simp only [squares] at hc; omega
    rcases this with rfl | rfl <;> norm_num [squares]

end Verif.Alg
