import Verif.Alg.DirProps

/-! # Jacobian providers, resets, and the system a direction solves -/

namespace Verif.Alg

open Verif.Res Verif.Vec Verif.Sparse

set_option linter.unusedSectionVars false

section
variable {K : Type} [Field K] [DecidableEq K]

/-! ### C84: which Jacobian a provider leaves -/

/-- Providers after any sequence of resets and computations on `F` without a trimmer -/
inductive ProvUsed (kind : ProvKind) (F : Mapping K) (dx : K) : Prov K → Prop
  | new : ProvUsed kind F dx (Prov.new kind)
  | reset {p : Prov K} : ProvUsed kind F dx p → ProvUsed kind F dx p.hardReset
  | compute {p p' : Prov K} {x0 : List K} : ProvUsed kind F dx p → x0.length = F.inSize →
      p.compute F dx none x0 = .ok p' → ProvUsed kind F dx p'

/-- What the sparse provider holds between calls -/
def ProvOk (n : Nat) (p : Prov K) : Prop :=
  p.J.data = [] ∨ (p.J.size = (n, n) ∧ Increasing p.J.data ∧ p.J.Inside ∧
    ∃ lay, p.lay = some lay ∧ layout p.J = .ok lay)

theorem kind_used {kind : ProvKind} {F : Mapping K} {dx : K} {p : Prov K}
    (h : ProvUsed kind F dx p) : p.kind = kind := by
  induction h with
  | new => rfl
  | @reset p _ ih =>
    unfold Prov.hardReset
    cases hk : p.kind with
    | default => exact ih
    | sparse => rw [← ih, hk]
  | @compute p p' x0 _ _ hc ih =>
    unfold Prov.compute at hc
    cases hk : p.kind with
    | default =>
      rw [hk] at hc
      dsimp only at hc
      cases h : computeJacobian F dx x0 with
      | error _ => rw [h] at hc; cases hc
      | ok J => rw [h, bind_ok] at hc; cases hc; rw [← ih, hk]
    | sparse =>
      rw [hk] at hc
      dsimp only at hc
      split at hc
      · cases h : computeJacobian F dx x0 with
        | error _ => rw [h] at hc; cases hc
        | ok J =>
          rw [h, bind_ok] at hc
          cases h2 : layout (FMat.ofMat J) with
          | error _ => rw [h2] at hc; cases hc
          | ok l => rw [h2, bind_ok] at hc; cases hc; rw [← ih, hk]
      · split at hc
        · cases hc
        · rename_i lay _
          cases h : calculate lay F x0 dx p.J with
          | error _ => rw [h] at hc; cases hc
          | ok J => rw [h, bind_ok] at hc; cases hc; rw [← ih, hk]

/-- `layout` looks at the positions of the elements only. -/
theorem layout_congr {J J' : FMat K} (hs : J'.size = J.size)
    (hk : J'.data.map Prod.fst = J.data.map Prod.fst) : layout J' = layout J := by
  have hl : J'.data.length = J.data.length := by
    have := congrArg List.length hk
    simpa using this
  unfold layout colRows
  rw [hs, hl]
  congr 2
  funext p cr
  have hp : (J'.data[p]?).map Prod.fst = (J.data[p]?).map Prod.fst := by
    rw [← List.getElem?_map, ← List.getElem?_map, hk]
  unfold raw
  cases h1 : J'.data[p]? with
  | none =>
    cases h2 : J.data[p]? with
    | none => rfl
    | some e => rw [h1, h2] at hp; cases hp
  | some e' =>
    cases h2 : J.data[p]? with
    | none => rw [h1, h2] at hp; cases hp
    | some e =>
      rw [h1, h2] at hp
      have := Option.some.inj hp
      simp only [bind_ok, this]

theorem bind_inv {α β : Type} {x : Res α} {f : α → Res β} {r : β} (h : (x >>= f) = .ok r) :
    ∃ v, x = .ok v ∧ f v = .ok r := by
  cases x with
  | error _ => cases h
  | ok v => exact ⟨v, rfl, h⟩

theorem foldlM_inv {α β : Type} {f : β → α → Res β} {P : β → Prop}
    (hs : ∀ b a b', P b → f b a = .ok b' → P b') :
    ∀ (l : List α) (b b' : β), P b → l.foldlM f b = (.ok b' : Res β) → P b'
  | [], b, b', h, e => by cases e; exact h
  | a :: l, b, b', h, e => by
    rw [List.foldlM_cons] at e
    cases h1 : f b a with
    | error _ => rw [h1] at e; cases e
    | ok c =>
      rw [h1, bind_ok] at e
      exact foldlM_inv hs l c b' (hs b a c h h1) e

/-- `calculate` never changes the positions. -/
theorem calculate_keys {lay : List (List Col)} {F : Mapping K} {x0 : List K} {delta : K} {J J' : FMat K}
    (h : calculate lay F x0 delta J = .ok J') :
    J'.size = J.size ∧ J'.data.map Prod.fst = J.data.map Prod.fst := by
  unfold calculate at h
  cases h0 : F.map x0 with
  | error _ => rw [h0] at h; cases h
  | ok f0 =>
    rw [h0, bind_ok] at h
    cases h1 : lay.foldlM (fun d g => evalGroup F x0 f0 delta g d) J.data with
    | error _ => rw [h1] at h; cases h
    | ok d =>
      rw [h1, bind_ok] at h
      cases h
      refine ⟨rfl, ?_⟩
      refine foldlM_inv (P := fun d : Sparse.Fast K => d.map Prod.fst = J.data.map Prod.fst) ?_ _ _ _ rfl h1
      intro d g d' hd hg
      unfold evalGroup at hg
      cases h2 : g.foldlM (fun x (c : Col) => do
          let v ← at' x c.1
          atSet x c.1 (v + delta)) x0 with
      | error _ => rw [h2] at hg; cases hg
      | ok x =>
        rw [h2, bind_ok] at hg
        cases h3 : F.map x with
        | error _ => rw [h3] at hg; cases hg
        | ok f =>
          rw [h3, bind_ok] at hg
          refine foldlM_inv (P := fun d : Sparse.Fast K => d.map Prod.fst = J.data.map Prod.fst)
            ?_ _ _ _ hd hg
          intro d c d' hd hc
          refine foldlM_inv (P := fun d : Sparse.Fast K => d.map Prod.fst = J.data.map Prod.fst)
            ?_ _ _ _ hd hc
          intro d rp d' hd hr
          beta_reduce at hr
          cases h4 : at' f rp.1 with
          | error _ => rw [h4] at hr; cases hr
          | ok a =>
            cases h5 : at' f0 rp.1 with
            | error _ => rw [h4, h5] at hr; cases hr
            | ok b =>
              cases h6 : div (a - b) delta with
              | error _ => rw [h4, h5, bind_ok, bind_ok, h6] at hr; cases hr
              | ok q =>
                cases h7 : raw d rp.2 with
                | error _ => rw [h4, h5, bind_ok, bind_ok, h6, bind_ok, h7] at hr; cases hr
                | ok e =>
                  rw [h4, h5, bind_ok, bind_ok, h6, bind_ok, h7, bind_ok] at hr
                  have he : d[(rp.2 : Nat)]? = some e := by
                    unfold raw at h7
                    cases h8 : d[(rp.2 : Nat)]? with
                    | none => rw [h8] at h7; cases h7
                    | some e' => rw [h8] at h7; cases h7; rfl
                  unfold rawSet at hr
                  split at hr
                  · cases hr
                    rw [← hd]
                    apply List.ext_getElem?
                    intro i
                    rw [List.getElem?_map, List.getElem?_set, List.getElem?_map]
                    by_cases hi : rp.2 = i
                    · subst hi
                      rw [if_pos rfl, he]
                      split <;> rename_i hlt
                      · rfl
                      · rw [List.getElem?_eq_none (by omega)] at he
                        cases he
                    · rw [if_neg hi]
                  · cases hr

theorem inc_of_keys {d d' : Data K} (h : d'.map Prod.fst = d.map Prod.fst) (hi : Increasing d) :
    Increasing d' := by
  unfold Increasing at *
  have h1 : List.Pairwise (fun a b : Index => a.1 < b.1 ∨ a.1 = b.1 ∧ a.2 < b.2) (d.map Prod.fst) := List.pairwise_map.2 hi
  rw [← h] at h1
  exact List.pairwise_map.1 h1

theorem inside_of_keys {J J' : FMat K} (hs : J'.size = J.size)
    (h : J'.data.map Prod.fst = J.data.map Prod.fst) (hi : J.Inside) : J'.Inside := by
  intro e he
  have : e.1 ∈ J.data.map Prod.fst := by
    rw [← h]
    exact List.mem_map_of_mem he
  obtain ⟨e', h1, h2⟩ := List.mem_map.1 this
  rw [hs, ← h2]
  exact hi e' h1

theorem used_ok {F : Mapping K} {dx : K} (hdx : dx ≠ 0) (hT : Total F) (hsq : F.outSize = F.inSize)
    {p : Prov K} (h : ProvUsed .sparse F dx p) : ProvOk F.inSize p := by
  induction h with
  | new => exact Or.inl rfl
  | @reset p hp ih =>
    unfold Prov.hardReset
    rw [kind_used hp]
    exact Or.inl rfl
  | @compute p p' x0 hp hx hc ih =>
    unfold Prov.compute at hc
    rw [kind_used hp] at hc
    dsimp only at hc
    split at hc
    · obtain ⟨f0, h0, hl0⟩ := hT x0 hx
      have hex : ∀ i, ∃ y, i < F.inSize → F.map (x0.set i (x0.getD i 0 + dx)) = .ok y ∧
          y.length = F.inSize := by
        intro i
        obtain ⟨y, h1, h2⟩ := hT (x0.set i (x0.getD i 0 + dx)) (by simp [hx])
        exact ⟨y, fun _ => ⟨h1, by rw [h2, hsq]⟩⟩
      choose f hf using hex
      obtain ⟨J, e1, e2, e3, -⟩ := C82_differences hdx hx h0 (by rw [hl0, hsq]) hf
      obtain ⟨lay, hlay, -, -⟩ := layout_ok (J := FMat.ofMat J) e3.inside
      rw [e1, bind_ok, hlay, bind_ok] at hc
      cases hc
      exact Or.inr ⟨e2, e3.inc, e3.inside, lay, rfl, hlay⟩
    · rename_i hne
      rcases ih with h | ⟨h1, h2, h3, lay, h4, h5⟩
      · exact absurd (by rw [h]; rfl) hne
      · rw [h4] at hc
        dsimp only at hc
        cases h : calculate lay F x0 dx p.J with
        | error _ => rw [h] at hc; cases hc
        | ok J =>
          rw [h, bind_ok] at hc
          cases hc
          obtain ⟨k1, k2⟩ := calculate_keys h
          exact Or.inr ⟨by rw [k1, h1], inc_of_keys k2 h2, inside_of_keys k1 k2 h3, lay, rfl, by
            rw [layout_congr k1 k2, h5]⟩

/-- C84: the default provider always leaves the finite-difference Jacobian of the point given. -/
theorem C84_default {F : Mapping K} {dx : K} (hdx : dx ≠ 0) (hT : Total F) (hsq : F.outSize = F.inSize)
    {p : Prov K} (h : ProvUsed .default F dx p) {x0 f0 : List K} {f : Nat → List K}
    (hx : x0.length = F.inSize) (hf0 : F.map x0 = .ok f0)
    (hf : ∀ c, c < F.inSize → F.map (x0.set c (x0.getD c 0 + dx)) = .ok (f c)) :
    ∃ p', p.compute F dx none x0 = .ok p' ∧ ∀ r c, r < F.inSize → c < F.inSize →
      Data.get p'.J.data (r, c) = ((f c).getD r 0 - f0.getD r 0) / dx := by
  have hlen : ∀ x y, x.length = F.inSize → F.map x = .ok y → y.length = F.inSize := by
    intro x y h1 h2
    obtain ⟨z, h3, h4⟩ := hT x h1
    rw [h2] at h3
    cases h3
    rw [h4, hsq]
  obtain ⟨J, e1, e2, e3, e4⟩ := C82_differences hdx hx hf0 (hlen _ _ hx hf0)
    (fun i hi => ⟨hf i hi, hlen _ _ (by simp [hx]) (hf i hi)⟩)
  unfold Prov.compute
  rw [kind_used h]
  dsimp only
  rw [e1, bind_ok]
  refine ⟨_, rfl, fun r c hr hc => ?_⟩
  show Data.get J.data (r, c) = _
  rw [Data.get_eq, e4]
  split
  · rfl
  · rename_i hno
    have h0 : (f c).getD r 0 - f0.getD r 0 = 0 := by
      by_contra hne
      exact hno ⟨hr, hc, hne⟩
    rw [h0, zero_div]
    rfl

/-- C84 (`_partial`: the stored positions have to cover the dependencies of the mapping, which a stencil
found at an earlier point need not do, see `C84_false`): the sparse provider leaves the finite-difference
Jacobian of the point given. -/
theorem C84_sparse_partial {F : Mapping K} {dx : K} (hdx : dx ≠ 0) (hT : Total F)
    (hsq : F.outSize = F.inSize) {p : Prov K} (h : ProvUsed .sparse F dx p) {x0 f0 : List K}
    {f : Nat → List K} (hx : x0.length = F.inSize) (hf0 : F.map x0 = .ok f0)
    (hf : ∀ c, c < F.inSize → F.map (x0.set c (x0.getD c 0 + dx)) = .ok (f c))
    (hdep : p.J.data = [] ∨ DependsOn F (fun r c => ∃ v, ((r, c), v) ∈ p.J.data)) :
    ∃ p', p.compute F dx none x0 = .ok p' ∧ ∀ r c, r < F.inSize → c < F.inSize →
      Data.get p'.J.data (r, c) = ((f c).getD r 0 - f0.getD r 0) / dx := by
  have hlen : ∀ x y, x.length = F.inSize → F.map x = .ok y → y.length = F.inSize := by
    intro x y h1 h2
    obtain ⟨z, h3, h4⟩ := hT x h1
    rw [h2] at h3
    cases h3
    rw [h4, hsq]
  unfold Prov.compute
  rw [kind_used h]
  dsimp only
  by_cases hE : p.J.data = []
  · rw [if_pos (by rw [hE]; rfl)]
    obtain ⟨J, e1, e2, e3, e4⟩ := C82_differences hdx hx hf0 (hlen _ _ hx hf0)
      (fun i hi => ⟨hf i hi, hlen _ _ (by simp [hx]) (hf i hi)⟩)
    obtain ⟨lay, hlay, -, -⟩ := layout_ok (J := FMat.ofMat J) e3.inside
    rw [e1, bind_ok, hlay, bind_ok]
    refine ⟨_, rfl, fun r c hr hc => ?_⟩
    show Data.get J.data (r, c) = _
    rw [Data.get_eq, e4]
    split
    · rfl
    · rename_i hno
      have h0 : (f c).getD r 0 - f0.getD r 0 = 0 := by
        by_contra hne
        exact hno ⟨hr, hc, hne⟩
      rw [h0, zero_div]
      rfl
  · rw [if_neg (by simpa using hE)]
    rcases used_ok hdx hT hsq h with h1 | ⟨h1, h2, h3, lay, h4, h5⟩
    · exact absurd h1 hE
    · have hd := hdep.resolve_left hE
      have hc := C15_values h3 (by rw [h1, hsq]) hT hd hx hdx hf0 hf
      unfold computeSparseJacobian at hc
      rw [h5, bind_ok] at hc
      rw [h4]
      dsimp only
      rw [hc, bind_ok]
      refine ⟨_, rfl, fun r c hr hcc => ?_⟩
      dsimp only
      rw [Data.get_eq]
      have hfm : Data.find (p.J.data.map (fun e : Index × K =>
          (e.1, ((f e.1.2).getD e.1.1 0 - f0.getD e.1.1 0) / dx))) (r, c)
          = (Data.find p.J.data (r, c)).map (fun _ => ((f c).getD r 0 - f0.getD r 0) / dx) := by
        rcases hfnd : Data.find p.J.data (r, c) with _ | v
        · have := Data.find_none_iff.1 hfnd
          refine Data.find_none_iff.2 ?_
          intro e he
          obtain ⟨e', he', rfl⟩ := List.mem_map.1 he
          exact this e' he'
        · have hm := (Data.mem_iff h2).2 hfnd
          refine (Data.mem_iff (inc_of_keys (by rw [List.map_map]; rfl) h2)).1 ?_
          exact List.mem_map.2 ⟨((r, c), v), hm, rfl⟩
      rw [hfm]
      rcases hfnd : Data.find p.J.data (r, c) with _ | v
      · have hns : ¬ ∃ v, ((r, c), v) ∈ p.J.data := by
          rintro ⟨v, hv⟩
          rw [(Data.mem_iff h2).1 hv] at hfnd
          cases hfnd
        have := hd (x0.set c (x0.getD c 0 + dx)) x0 (f c) f0 (by simp [hx]) hx (hf c hcc) hf0 r
          (by
            intro c' hc' hs'
            have : c ≠ c' := by
              rintro rfl
              exact hns hs'
            simp [List.getD_eq_getElem?_getD, this])
        rw [this, sub_self, zero_div]
        rfl
      · rfl

/-! ### C85: a hard reset -/

theorem compute_reset (F : Mapping K) (dx : K) (trim : Trimmer K) (x0 : List K) {p q : Prov K}
    (hk : p.kind = q.kind) (h : p.kind = .default ∨ (p.J = FMat.empty ∧ q.J = FMat.empty)) :
    (∃ e, p.compute F dx trim x0 = .error e ∧ q.compute F dx trim x0 = .error e) ∨
    ∃ p' q', p.compute F dx trim x0 = .ok p' ∧ q.compute F dx trim x0 = .ok q' ∧ p'.J = q'.J := by
  unfold Prov.compute
  rw [← hk]
  cases hkd : p.kind with
  | default =>
    cases trim with
    | none =>
      dsimp only
      cases computeJacobian F dx x0 with
      | error e => exact Or.inl ⟨e, rfl, rfl⟩
      | ok J => exact Or.inr ⟨_, _, rfl, rfl, rfl⟩
    | some t =>
      dsimp only
      cases computeJacobian F dx x0 with
      | error e => exact Or.inl ⟨e, rfl, rfl⟩
      | ok J =>
        simp only [bind_ok]
        cases t J with
        | error e => exact Or.inl ⟨e, rfl, rfl⟩
        | ok J => exact Or.inr ⟨_, _, rfl, rfl, rfl⟩
  | sparse =>
    obtain ⟨h1, h2⟩ := h.resolve_left (by rw [hkd]; decide)
    cases trim with
    | none =>
      dsimp only
      rw [h1, h2]
      rw [if_pos (by rfl), if_pos (by rfl)]
      cases computeJacobian F dx x0 with
      | error e => exact Or.inl ⟨e, rfl, rfl⟩
      | ok J =>
        simp only [bind_ok]
        cases layout (FMat.ofMat J) with
        | error e => exact Or.inl ⟨e, rfl, rfl⟩
        | ok l => exact Or.inr ⟨_, _, rfl, rfl, rfl⟩
    | some t =>
      dsimp only
      cases computeJacobian F dx x0 with
      | error e => exact Or.inl ⟨e, rfl, rfl⟩
      | ok J =>
        simp only [bind_ok]
        cases t J with
        | error e => exact Or.inl ⟨e, rfl, rfl⟩
        | ok J => exact Or.inr ⟨_, _, rfl, rfl, rfl⟩

theorem hardReset_kind (p : Prov K) : p.hardReset.kind = p.kind := by
  unfold Prov.hardReset
  cases hk : p.kind with
  | default => exact hk
  | sparse => rfl

theorem hardReset_J (p : Prov K) : p.hardReset.kind = .default ∨
    (p.hardReset.J = FMat.empty ∧ (Prov.new p.kind : Prov K).J = FMat.empty) := by
  unfold Prov.hardReset
  cases hk : p.kind with
  | default => exact Or.inl hk
  | sparse => exact Or.inr ⟨rfl, rfl⟩

/-- C85: a direction that says a hard reset cannot help keeps nothing but the factorization: the direction
it computes next depends on no other part of its past. -/
theorem C85_mayHelp {k : DirKind} (F : Mapping K) (dx : K) (trim : Trimmer K) (x0 f0 : List K) (it : Nat)
    {s s' : Dir K} (h : s.hardResetMayHelp k = false) (h' : s'.hardResetMayHelp k = false)
    (hlu : s.lu = s'.lu) :
    (s.direction k F dx trim x0 f0 it).map Prod.snd = (s'.direction k F dx trim x0 f0 it).map Prod.snd := by
  cases k with
  | simple =>
    obtain ⟨⟨kind, J, lay⟩, lu, _, _, _, _⟩ := s
    obtain ⟨⟨kind', J', lay'⟩, lu', _, _, _, _⟩ := s'
    cases hlu
    cases kind with
    | sparse => cases h
    | default =>
      cases kind' with
      | sparse => cases h'
      | default =>
        unfold Dir.direction Dir.simple Prov.compute
        dsimp only
        cases computeJacobian F dx x0 with
        | error e => cases trim <;> rfl
        | ok J1 =>
          cases trim with
          | none =>
            simp only [bind_ok]
            cases setOrFast lu (FMat.ofMat J1) with
            | error e => rfl
            | ok lu1 =>
              simp only [bind_ok]
              cases solveNeg lu1 f0 <;> rfl
          | some t =>
            simp only [bind_ok]
            cases t J1 with
            | error e => rfl
            | ok J2 =>
              simp only [bind_ok]
              cases setOrFast lu (FMat.ofMat J2) with
              | error e => rfl
              | ok lu1 =>
                simp only [bind_ok]
                cases solveNeg lu1 f0 <;> rfl
  | const => cases h
  | broyden => cases h
  | fakeBroyden => cases h
  | hart => cases h
  | lazy n => cases h

/-- An object with a past and a new one -/
example : ((⟨⟨.default, ⟨(1, 1), [((0, 0), 7)]⟩, none⟩, LU.Fact.empty, some ([1], [2]), FMat.empty, .leave, 5⟩ :
    Dir ℚ).direction .simple ⟨1, 1, fun x => .ok [x.getD 0 0 * 2 - 6]⟩ 1 none [1] [-4] 0).map Prod.snd =
    ((Dir.new (Prov.new .default)).direction .simple ⟨1, 1, fun x => .ok [x.getD 0 0 * 2 - 6]⟩ 1 none [1] [-4] 0).map
      Prod.snd :=
  C85_mayHelp _ _ _ _ _ _ rfl rfl rfl

/-- C85 (`_partial`: false for the two eager Broyden directions with the default provider, see
`C85_false`): after `reset(true)` the next direction is the one a new object would compute, whatever
happened before. -/
theorem C85_reset_partial {k : DirKind} (F : Mapping K) (dx : K) (trim : Trimmer K) (x0 f0 : List K) (it : Nat)
    (s : Dir K) (hk : (k ≠ .broyden ∧ k ≠ .fakeBroyden) ∨ s.prov.kind = .sparse) :
    ((s.reset k true).direction k F dx trim x0 f0 it).map Prod.snd
      = ((Dir.new (Prov.new s.prov.kind)).direction k F dx trim x0 f0 it).map Prod.snd := by
  have hc := compute_reset F dx trim x0 (p := s.prov.hardReset) (q := Prov.new s.prov.kind)
    (hardReset_kind _) (hardReset_J _)
  have hsparse : s.prov.kind = .sparse → s.prov.hardReset.J = FMat.empty := by
    intro h
    unfold Prov.hardReset
    rw [h]
  cases k with
  | simple =>
    unfold Dir.direction Dir.simple Dir.reset Dir.new
    dsimp only
    simp only [if_true]
    rcases hc with ⟨e, h1, h2⟩ | ⟨p', q', h1, h2, h3⟩
    · rw [h1, h2]; rfl
    · rw [h1, h2, bind_ok, bind_ok, h3]
      cases setOrFast LU.Fact.empty q'.J with
      | error e => rfl
      | ok lu =>
        simp only [bind_ok]
        cases solveNeg lu f0 <;> rfl
  | const =>
    unfold Dir.direction Dir.const Dir.reset Dir.new
    dsimp only
    simp only [if_true]
    rw [if_neg (by unfold LU.Fact.empty; simp), if_neg (by unfold LU.Fact.empty; simp)]
    rcases hc with ⟨e, h1, h2⟩ | ⟨p', q', h1, h2, h3⟩
    · rw [h1, h2]; rfl
    · rw [h1, h2, bind_ok, bind_ok, h3]
      cases LU.setMatrix LU.Fact.empty q'.J.data with
      | error e => rfl
      | ok lu =>
        simp only [bind_ok]
        cases solveNeg lu f0 <;> rfl
  | broyden =>
    have hs := hk.resolve_left (fun h => h.1 rfl)
    unfold Dir.direction Dir.broyden Dir.reset Dir.new
    dsimp only
    simp only [if_true]
    rw [if_pos (by rw [hsparse hs]; rfl), if_pos (by rfl)]
    rcases hc with ⟨e, h1, h2⟩ | ⟨p', q', h1, h2, h3⟩
    · rw [h1, h2]; rfl
    · rw [h1, h2, bind_ok, bind_ok, h3]
      cases LU.setMatrix LU.Fact.empty q'.J.data with
      | error e => rfl
      | ok lu =>
        simp only [bind_ok]
        cases solveNeg lu f0 <;> rfl
  | fakeBroyden =>
    have hs := hk.resolve_left (fun h => h.2 rfl)
    unfold Dir.direction Dir.fakeBroyden Dir.reset Dir.new
    dsimp only
    simp only [if_true]
    rw [if_pos (by rw [hsparse hs]; rfl), if_pos (by rfl)]
    rcases hc with ⟨e, h1, h2⟩ | ⟨p', q', h1, h2, h3⟩
    · rw [h1, h2]; rfl
    · rw [h1, h2, bind_ok, bind_ok, h3]
      cases setOrFast LU.Fact.empty q'.J with
      | error e => rfl
      | ok lu =>
        simp only [bind_ok]
        cases solveNeg lu f0 <;> rfl
  | hart =>
    unfold Dir.direction Dir.hart Dir.reset Dir.new
    dsimp only
    simp only [if_true]
    rw [if_neg (by unfold LU.Fact.empty; simp), if_neg (by unfold LU.Fact.empty; simp)]
    rcases hc with ⟨e, h1, h2⟩ | ⟨p', q', h1, h2, h3⟩
    · rw [h1, h2]; rfl
    · rw [h1, h2, bind_ok, bind_ok, h3]
      cases LU.setMatrix LU.Fact.empty q'.J.data with
      | error e => rfl
      | ok lu =>
        simp only [bind_ok]
        cases solveNeg lu f0 <;> rfl
  | lazy m =>
    unfold Dir.direction Dir.lazy Dir.reset Dir.new
    dsimp only
    simp only [if_true]
    by_cases hit : it = 0
    · rw [if_pos ⟨hit, Or.inr trivial⟩, if_pos ⟨hit, Or.inr trivial⟩]
      rcases hc with ⟨e, h1, h2⟩ | ⟨p', q', h1, h2, h3⟩
      · rw [h1, h2]
      · rw [h1, h2, bind_ok, bind_ok, h3]
        cases setOrFast LU.Fact.empty q'.J with
        | error e => rfl
        | ok lu =>
          simp only [bind_ok]
          rw [if_neg (by simp), if_neg (by simp)]
          simp only [bind_ok]
          cases solveNeg lu f0 <;> rfl
    · rw [if_neg (fun h => hit h.1), if_neg (fun h => hit h.1)]
      simp only [bind_ok]
      rw [if_neg (fun h => hit h.1), if_neg (fun h => hit h.1)]
      simp only [bind_ok]
      cases solveNeg LU.Fact.empty f0 <;> rfl

/-! ### C86: the system a direction solves -/

/-- Objects after any sequence of calls, each of which returned and left a Jacobian with exactly the
positions `S` -/
inductive Kept (k : DirKind) (n : Nat) (S : Nat → Nat → Prop) (pk : ProvKind) : Dir K → Prop
  | new : Kept k n S pk (Dir.new (Prov.new pk))
  | reset {s : Dir K} (hard : Bool) : Kept k n S pk s → Kept k n S pk (s.reset k hard)
  | report {s : Dir K} (success : Bool) : Kept k n S pk s → Kept k n S pk (s.reportSuccess k success)
  | call {s s' : Dir K} {F : Mapping K} {dx : K} {trim : Trimmer K} {x0 f0 d : List K} {it : Nat} :
      Kept k n S pk s → n ≤ f0.length → s.direction k F dx trim x0 f0 it = .ok (s', d) →
      LU.Stencil n s'.prov.J.data → LU.Distinct s'.prov.J.data →
      (∀ r c, LU.Key s'.prov.J.data r c ↔ S r c) → Kept k n S pk s'

/-- The factorizer is empty or holds the Jacobian of the provider. -/
def LuOk (n : Nat) (S : Nat → Nat → Prop) (s : Dir K) : Prop :=
  (s.lu.p = [] ∧ s.lu.factorized = false) ∨
  ∃ hS : LU.Stencil n s.prov.J.data, LU.Able hS s.lu ∧ LU.Distinct s.prov.J.data ∧
    ∀ r c, LU.Key s.prov.J.data r c ↔ S r c

theorem setOrFast_able {n : Nat} {S : Nat → Nat → Prop} {s : Dir K} (h : LuOk n S s) {J : FMat K}
    (hS : LU.Stencil n J.data) (hd : LU.Distinct J.data) (hk : ∀ r c, LU.Key J.data r c ↔ S r c)
    {lu : LU.Fact K} (e : setOrFast s.lu J = .ok lu) : LU.Able hS lu := by
  unfold setOrFast at e
  split at e
  · exact LU.able_set hS hd e
  · rename_i hne
    rcases h with h | ⟨hS0, h1, h2, h3⟩
    · exact absurd (by rw [h.1]; rfl) hne
    · rw [LU.able_fast hS0 h1 J.data hd (fun r c => (hk r c).trans (h3 r c).symm)] at e
      exact LU.able_set hS hd e

theorem solveNeg_able {n : Nat} {es : LU.Entries K} (hS : LU.Stencil n es) {lu lu' : LU.Fact K}
    (h : LU.Able hS lu) {f0 d : List K} (hl : n ≤ f0.length) (e : solveNeg lu f0 = .ok (lu', d)) :
    LU.Able hS lu' ∧ (LU.Filled es →
      (LU.matrixOf es n).mulVec (LU.vec d n) = fun i => - LU.vec f0 n i) := by
  unfold solveNeg at e
  cases hs : LU.solve lu f0 with
  | error _ => rw [hs] at e; cases e
  | ok r =>
    rw [hs, bind_ok] at e
    cases e
    obtain ⟨h1, h2, h3⟩ := LU.able_solved hS h hl hs
    refine ⟨h1, fun hf => ?_⟩
    rw [← h3 hf]
    have : LU.vec (r.2.map (· * (-1))) n = - LU.vec r.2 n := by
      funext i
      unfold LU.vec
      rw [Pi.neg_apply, List.getD_eq_getElem?_getD, List.getElem?_map, List.getD_eq_getElem?_getD]
      cases r.2[(i : Nat)]? <;> simp
    rw [this, Matrix.mulVec_neg]
    rfl

/-- What every call with an exact direction does to the factorizer -/
theorem direction_lu {n : Nat} {S : Nat → Nat → Prop} {k : DirKind} (hk : k.Exact) {s s' : Dir K}
    (h : LuOk n S s) {F : Mapping K} {dx : K} {trim : Trimmer K} {x0 f0 d : List K} {it : Nat}
    (hl : n ≤ f0.length) (hdir : s.direction k F dx trim x0 f0 it = .ok (s', d))
    (hS : LU.Stencil n s'.prov.J.data) (hd : LU.Distinct s'.prov.J.data)
    (hkey : ∀ r c, LU.Key s'.prov.J.data r c ↔ S r c) :
    (k ≠ .broyden → LuOk n S s') ∧ (k = .broyden → s'.lu = s.lu) ∧ (LU.Filled s'.prov.J.data →
      (LU.matrixOf s'.prov.J.data n).mulVec (LU.vec d n) = fun i => - LU.vec f0 n i) := by
  cases k with
  | simple =>
    unfold Dir.direction Dir.simple at hdir
    dsimp only at hdir
    cases h1 : s.prov.compute F dx trim x0 with
    | error _ => rw [h1] at hdir; cases hdir
    | ok p =>
      rw [h1, bind_ok] at hdir
      cases h2 : setOrFast s.lu p.J with
      | error _ => rw [h2] at hdir; cases hdir
      | ok lu =>
        rw [h2, bind_ok] at hdir
        cases h3 : solveNeg lu f0 with
        | error _ => rw [h3] at hdir; cases hdir
        | ok r =>
          rw [h3, bind_ok] at hdir
          cases hdir
          obtain ⟨e1, e2⟩ := solveNeg_able hS (setOrFast_able h hS hd hkey h2) hl h3
          exact ⟨fun _ => Or.inr ⟨hS, e1, hd, hkey⟩, (fun h => by cases h), e2⟩
  | const =>
    unfold Dir.direction Dir.const at hdir
    dsimp only at hdir
    by_cases hfz : s.lu.factorized = true
    · rw [if_pos hfz, bind_ok] at hdir
      cases h3 : solveNeg s.lu f0 with
      | error _ => rw [h3] at hdir; cases hdir
      | ok r =>
        rw [h3, bind_ok] at hdir
        cases hdir
        obtain ⟨hS0, h4, -, -⟩ := h.resolve_left (fun h => by rw [h.2] at hfz; cases hfz)
        obtain ⟨e1, e2⟩ := solveNeg_able hS0 h4 hl h3
        exact ⟨fun _ => Or.inr ⟨hS, e1, hd, hkey⟩, (fun h => by cases h), e2⟩
    · rw [if_neg hfz] at hdir
      cases h1 : s.prov.compute F dx trim x0 with
      | error _ => rw [h1] at hdir; cases hdir
      | ok p =>
        rw [h1, bind_ok] at hdir
        cases h2 : LU.setMatrix s.lu p.J.data with
        | error _ => rw [h2] at hdir; cases hdir
        | ok lu =>
          rw [h2, bind_ok, bind_ok] at hdir
          cases h3 : solveNeg lu f0 with
          | error _ => dsimp only at hdir; rw [h3] at hdir; cases hdir
          | ok r =>
            dsimp only at hdir
            rw [h3, bind_ok] at hdir
            cases hdir
            obtain ⟨e1, e2⟩ := solveNeg_able hS (LU.able_set hS hd h2) hl h3
            exact ⟨fun _ => Or.inr ⟨hS, e1, hd, hkey⟩, (fun h => by cases h), e2⟩
  | broyden =>
    unfold Dir.direction Dir.broyden at hdir
    dsimp only at hdir
    obtain ⟨p, -, hdir⟩ := bind_inv hdir
    cases h2 : LU.setMatrix LU.Fact.empty p.J.data with
    | error _ => rw [h2] at hdir; cases hdir
    | ok lu =>
      rw [h2, bind_ok] at hdir
      cases h3 : solveNeg lu f0 with
      | error _ => rw [h3] at hdir; cases hdir
      | ok r =>
        rw [h3, bind_ok] at hdir
        cases hdir
        obtain ⟨e1, e2⟩ := solveNeg_able hS (LU.able_set hS hd h2) hl h3
        exact ⟨fun h => absurd rfl h, fun _ => rfl, e2⟩
  | fakeBroyden =>
    unfold Dir.direction Dir.fakeBroyden at hdir
    dsimp only at hdir
    obtain ⟨p, -, hdir⟩ := bind_inv hdir
    cases h2 : setOrFast s.lu p.J with
    | error _ => rw [h2] at hdir; cases hdir
    | ok lu =>
      rw [h2, bind_ok] at hdir
      cases h3 : solveNeg lu f0 with
      | error _ => rw [h3] at hdir; cases hdir
      | ok r =>
        rw [h3, bind_ok] at hdir
        cases hdir
        obtain ⟨e1, e2⟩ := solveNeg_able hS (setOrFast_able h hS hd hkey h2) hl h3
        exact ⟨fun _ => Or.inr ⟨hS, e1, hd, hkey⟩, (fun h => by cases h), e2⟩
  | hart => exact hk.elim
  | lazy _ => exact hk.elim

theorem kept_lu {n : Nat} {S : Nat → Nat → Prop} {k : DirKind} (hk : k.Exact) {pk : ProvKind} {s : Dir K}
    (h : Kept k n S pk s) : LuOk n S s ∧ (k = .broyden → s.lu = LU.Fact.empty) := by
  induction h with
  | new => exact ⟨Or.inl ⟨rfl, rfl⟩, fun _ => rfl⟩
  | @reset s hard _ ih =>
    have he : ∀ p : Prov K, ∀ pr dJ a l, LuOk n S (⟨p, LU.Fact.empty, pr, dJ, a, l⟩ : Dir K) :=
      fun _ _ _ _ _ => Or.inl ⟨rfl, rfl⟩
    have hb : k = .broyden → ∀ p : Prov K, ∀ pr dJ a l, LuOk n S (⟨p, s.lu, pr, dJ, a, l⟩ : Dir K) := by
      intro h p pr dJ a l
      exact Or.inl (by rw [show (⟨p, s.lu, pr, dJ, a, l⟩ : Dir K).lu = LU.Fact.empty from ih.2 h]; exact ⟨rfl, rfl⟩)
    unfold Dir.reset
    cases hard <;> cases k <;> first
      | exact hk.elim
      | exact ih
      | exact ⟨he _ _ _ _ _, fun h => by cases h⟩
      | exact ⟨hb rfl _ _ _ _ _, fun _ => ih.2 rfl⟩
  | @report s success _ ih =>
    unfold Dir.reportSuccess
    cases k <;> exact ih
  | @call s s' F dx trim x0 f0 d it _ hl hdir hS hd hkey ih =>
    obtain ⟨h1, h2, -⟩ := direction_lu hk ih.1 hl hdir hS hd hkey
    by_cases hkb : k = .broyden
    · have := h2 hkb
      rw [ih.2 hkb] at this
      exact ⟨Or.inl (by rw [this]; exact ⟨rfl, rfl⟩), fun _ => this⟩
    · exact ⟨h1 hkb, fun h => absurd h hkb⟩

/-- C86 (`_partial`: all Jacobians have the same stencil, which satisfies the fill condition; false
otherwise, see `C86_false`): the direction returned solves the linear system with the Jacobian the
provider holds after the call. -/
theorem C86_solves_partial {n : Nat} {S : Nat → Nat → Prop} {k : DirKind}
    (hk : k = .simple ∨ k = .const ∨ k = .broyden ∨ k = .fakeBroyden) {pk : ProvKind} {s s' : Dir K}
    (h : Kept k n S pk s) {F : Mapping K} {dx : K} {trim : Trimmer K} {x0 f0 d : List K} {it : Nat}
    (hl : n ≤ f0.length) (hdir : s.direction k F dx trim x0 f0 it = .ok (s', d))
    (hS : LU.Stencil n s'.prov.J.data) (hd : LU.Distinct s'.prov.J.data)
    (hkey : ∀ r c, LU.Key s'.prov.J.data r c ↔ S r c) (hf : LU.Filled s'.prov.J.data) :
    (LU.matrixOf s'.prov.J.data n).mulVec (LU.vec d n) = fun i => - LU.vec f0 n i := by
  have hk' : k.Exact := by
    rcases hk with rfl | rfl | rfl | rfl <;> trivial
  exact (direction_lu hk' (kept_lu hk' h).1 hl hdir hS hd hkey).2.2 hf

end

/-! ### Concrete cases and counterexamples -/

/-- `(x0, x0 x1 + x1)` -/
def exMap : Mapping ℚ := ⟨2, 2, fun x => do
  let a ← at' x 0
  let b ← at' x 1
  .ok [a, a * b + b]⟩

theorem exMap_total : Total exMap := by
  intro x hx
  have hx : x.length = 2 := hx
  match x, hx with
  | [a, b], _ => exact ⟨_, rfl, rfl⟩

/-- C84 is false: the stencil found at the first point misses an element that is not zero at the second
point, and what is left there is wrong: the difference quotient of output 1 by input 0 at (0, 1) is 1,
the provider holds 0, and the quotient of output 1 by input 1 is 1, the provider holds 3. -/
theorem C84_false : ∃ p p' : Prov ℚ, ProvUsed .sparse exMap 1 p ∧
    p.compute exMap 1 none [0, 1] = .ok p' ∧
    Data.get p'.J.data (1, 0) = 0 ∧ Data.get p'.J.data (1, 1) = 3 ∧
    exMap.map [0, 1] = .ok [0, 1] ∧ exMap.map [1, 1] = .ok [1, 2] ∧ exMap.map [0, 2] = .ok [0, 2] := by
  obtain ⟨p, h1, h2⟩ := Verif.Res.exists_of_test
    (r := (Prov.new .sparse : Prov ℚ).compute exMap 1 none [0, 0])
    (p := fun p => match p.compute exMap 1 none [0, 1] with
      | .ok p' => decide (Data.get p'.J.data (1, 0) = 0 ∧ Data.get p'.J.data (1, 1) = 3)
      | .error _ => false) (by decide +kernel)
  split at h2
  · rename_i p' e
    obtain ⟨h3, h4⟩ := of_decide_eq_true h2
    exact ⟨p, p', .compute .new rfl h1, e, h3, h4, by decide +kernel, by decide +kernel, by decide +kernel⟩
  · cases h2

/-- Setting a trimmer for a call and removing it again leaves the sparse provider with a stale Jacobian:
the calls without the trimmer return it unchanged, whatever the point. -/
theorem C84_trimmer_false : ∃ p p' : Prov ℚ,
    (Prov.new .sparse : Prov ℚ).compute exMap 1 (some .ok) [0, 1] = .ok p ∧
    p.compute exMap 1 none [5, 7] = .ok p' ∧ p'.J = p.J ∧
    Data.get p'.J.data (1, 1) = 1 ∧ exMap.map [5, 7] = .ok [5, 42] ∧ exMap.map [5, 8] = .ok [5, 48] := by
  obtain ⟨p, h1, h2⟩ := Verif.Res.exists_of_test
    (r := (Prov.new .sparse : Prov ℚ).compute exMap 1 (some .ok) [0, 1])
    (p := fun p => match p.compute exMap 1 none [5, 7] with
      | .ok p' => decide (p'.J = p.J ∧ Data.get p'.J.data (1, 1) = 1)
      | .error _ => false) (by decide +kernel)
  split at h2
  · rename_i p' e
    obtain ⟨h3, h4⟩ := of_decide_eq_true h2
    exact ⟨p, p', h1, e, h3, h4, by decide +kernel, by decide +kernel⟩
  · cases h2

/-- If the provider was used before the trimmer was set, the call after its removal writes through
pointers into the old element vector. -/
theorem C84_trimmer_ub : ∃ p p' : Prov ℚ,
    (Prov.new .sparse : Prov ℚ).compute exMap 1 none [0, 1] = .ok p ∧
    p.compute exMap 1 (some .ok) [0, 1] = .ok p' ∧ p'.compute exMap 1 none [5, 7] = .error .ub := by
  obtain ⟨p, h1, h2⟩ := Verif.Res.exists_of_test
    (r := (Prov.new .sparse : Prov ℚ).compute exMap 1 none [0, 1])
    (p := fun p => match p.compute exMap 1 (some .ok) [0, 1] with
      | .ok p' => decide (p'.compute exMap 1 none [5, 7] = .error .ub)
      | .error _ => false) (by decide +kernel)
  split at h2
  · rename_i p' e
    exact ⟨p, p', h1, e, of_decide_eq_true h2⟩
  · cases h2

/-- The hypotheses of `C84_sparse_partial` are met by a provider used at a point where every dependency
shows. -/
example : ∃ p p' : Prov ℚ, ProvUsed .sparse exMap 1 p ∧ p.J.data ≠ [] ∧
    p.compute exMap 1 none [5, 7] = .ok p' ∧ Data.get p'.J.data (1, 0) = 7 := by
  obtain ⟨p, h1, h2⟩ := Verif.Res.exists_of_test
    (r := (Prov.new .sparse : Prov ℚ).compute exMap 1 none [0, 1])
    (p := fun p => decide (p.J.data = [((0, 0), 1), ((1, 0), 1), ((1, 1), 1)])) (by decide +kernel)
  have h2 := of_decide_eq_true h2
  have hu : ProvUsed .sparse exMap 1 p := .compute .new rfl h1
  obtain ⟨p', h3, h4⟩ := C84_sparse_partial (f0 := [5, 42])
    (f := fun c => if c = 0 then [6, 49] else [5, 48]) (by norm_num) exMap_total rfl hu
    (x0 := [5, 7]) rfl (by decide +kernel) (by
      intro c hc
      have hc : c < 2 := hc
      interval_cases c <;> decide +kernel)
    (Or.inr (by
      intro x y fx fy hx hy h1 h2' r hr
      have hx : x.length = 2 := hx
      have hy : y.length = 2 := hy
      rw [h2] at hr
      match x, hx, y, hy with
      | [a, b], _, [a', b'], _ =>
        cases h1; cases h2'
        match r with
        | 0 => exact hr 0 (by decide) ⟨1, by simp⟩
        | 1 =>
          have e1 : a = a' := hr 0 (by decide) ⟨1, by simp⟩
          have e2 : b = b' := hr 1 (by decide) ⟨1, by simp⟩
          rw [e1, e2]
        | r + 2 => rfl))
  refine ⟨p, p', hu, by rw [h2]; simp, h3, ?_⟩
  rw [h4 1 0 (by decide) (by decide)]
  norm_num

/-- `x0²` -/
def exSquare : Mapping ℚ := ⟨1, 1, fun x => do
  let a ← at' x 0
  .ok [a * a]⟩

/-- C85 is false for the Broyden directions with the default provider: the Jacobian of before the reset
is used again. -/
theorem C85_false : ∀ k ∈ [DirKind.broyden, DirKind.fakeBroyden], ∃ s d d' t t',
    (Dir.new (Prov.new .default)).direction k exSquare 1 none [1] [1] 0 = .ok (s, d) ∧
    (s.reset k true).direction k exSquare 1 none [5] [25] 0 = .ok (t, [-25 / 3]) ∧
    (Dir.new (Prov.new .default)).direction k exSquare 1 none [5] [25] 0 = .ok (t', d') ∧
    d' = [-25 / 11] := by
  have key : ∀ k ∈ [DirKind.broyden, DirKind.fakeBroyden],
      (match (Dir.new (Prov.new .default)).direction k exSquare 1 none [1] [1] 0,
        (Dir.new (Prov.new .default)).direction k exSquare 1 none [5] [25] 0 with
      | .ok s, .ok t' => (match (s.1.reset k true).direction k exSquare 1 none [5] [25] 0 with
        | .ok t => decide (t.2 = [-25 / 3] ∧ t'.2 = [-25 / 11])
        | .error _ => false)
      | _, _ => false) = true := by decide +kernel
  intro k hk
  have := key k hk
  split at this
  · rename_i s t' e1 e2
    split at this
    · rename_i t e3
      obtain ⟨h1, h2⟩ := of_decide_eq_true this
      obtain ⟨t, d⟩ := t
      obtain ⟨t', d'⟩ := t'
      dsimp only at h1 h2
      subst h1
      exact ⟨s.1, s.2, d', t, t', e1, e3, e2, h2⟩
    · cases this
  · cases this

/-- `(x0 + x2, x1 + x1 x2, x2)` -/
def exGrow : Mapping ℚ := ⟨3, 3, fun x => do
  let a ← at' x 0
  let b ← at' x 1
  let c ← at' x 2
  .ok [a + c, b + b * c, c]⟩

/-- C86 is false: the second Jacobian has an element more, inside the envelope of the first one; the
direction returned does not solve the system with the Jacobian the provider holds. -/
theorem C86_false : ∃ s s' d0 d,
    (Dir.new (Prov.new .default)).direction .simple exGrow 1 none [0, 0, 0] [0, 0, 0] 0 = .ok (s, d0) ∧
    exGrow.map [0, 1, 1] = .ok [1, 2, 1] ∧
    s.direction .simple exGrow 1 none [0, 1, 1] [1, 2, 1] 1 = .ok (s', d) ∧
    (LU.matrixOf s'.prov.J.data 3).mulVec (LU.vec d 3) ≠ fun i => - LU.vec [1, 2, 1] 3 i := by
  obtain ⟨⟨s, d0⟩, h1, h2⟩ := Verif.Res.exists_of_test
    (r := (Dir.new (Prov.new .default)).direction .simple exGrow 1 none [0, 0, 0] [0, 0, 0] 0)
    (p := fun s => match s.1.direction .simple exGrow 1 none [0, 1, 1] [1, 2, 1] 1 with
      | .ok r => decide (LU.entry r.1.prov.J.data 1 0 * r.2.getD 0 0 + LU.entry r.1.prov.J.data 1 1 * r.2.getD 1 0
        + LU.entry r.1.prov.J.data 1 2 * r.2.getD 2 0 ≠ -2)
      | .error _ => false) (by decide +kernel)
  split at h2
  · rename_i r e
    obtain ⟨s', d⟩ := r
    have h2 := of_decide_eq_true h2
    refine ⟨s, s', d0, d, h1, by decide +kernel, e, ?_⟩
    intro h
    apply h2
    have h3 := congrFun h 1
    simp only [Matrix.mulVec, dotProduct, Fin.sum_univ_three] at h3
    exact h3
  · cases h2

/-- The hypotheses of `C86_solves_partial` are met: two calls, the second with other values. -/
example : ∃ s s' d, Kept .simple 1 (fun r c => r = 0 ∧ c = 0) .default s ∧
    s.direction .simple exSquare 1 none [2] [4] 1 = .ok (s', d) ∧
    (LU.matrixOf s'.prov.J.data 1).mulVec (LU.vec d 1) = fun i => - LU.vec [4] 1 i := by
  have hS : ∀ v : ℚ, LU.Stencil 1 [((0, 0), v)] ∧ LU.Distinct [((0, 0), v)] ∧
      (∀ r c, LU.Key [((0, 0), v)] r c ↔ r = 0 ∧ c = 0) ∧ LU.Filled [((0, 0), v)] := by
    intro v
    have hk : ∀ r c, LU.Key [((0, 0), v)] r c ↔ r = 0 ∧ c = 0 := by
      intro r c
      unfold LU.Key
      simp
    refine ⟨⟨?_, ?_, ?_⟩, by simp [LU.Distinct], hk, ?_⟩
    · intro r c h
      have := (hk r c).1 h
      omega
    · intro i hi
      exact ⟨0, by omega, (hk _ _).2 ⟨by omega, rfl⟩⟩
    · intro i hi
      exact ⟨0, by omega, (hk _ _).2 ⟨rfl, by omega⟩⟩
    · intro r c hrc ⟨r', _, h⟩
      have := (hk r' c).1 h
      omega
  obtain ⟨⟨s, d0⟩, h1, h2⟩ := Verif.Res.exists_of_test
    (r := (Dir.new (Prov.new .default)).direction .simple exSquare 1 none [1] [1] 0)
    (p := fun s => decide (s.1.prov.J.data = [((0, 0), 3)]) &&
      match s.1.direction .simple exSquare 1 none [2] [4] 1 with
      | .ok r => decide (r.1.prov.J.data = [((0, 0), 5)])
      | .error _ => false) (by decide +kernel)
  rw [Bool.and_eq_true] at h2
  obtain ⟨h2, h3⟩ := h2
  have h2 : s.prov.J.data = [((0, 0), 3)] := of_decide_eq_true h2
  split at h3
  · rename_i r e
    obtain ⟨s', d⟩ := r
    have h3 : s'.prov.J.data = [((0, 0), 5)] := of_decide_eq_true h3
    have hK : Kept .simple 1 (fun r c => r = 0 ∧ c = 0) .default s :=
      .call .new (by decide) h1 (by rw [h2]; exact (hS 3).1) (by rw [h2]; exact (hS 3).2.1)
        (by rw [h2]; exact (hS 3).2.2.1)
    exact ⟨s, s', d, hK, e, C86_solves_partial (Or.inl rfl) hK (by decide) e
      (by rw [h3]; exact (hS 5).1) (by rw [h3]; exact (hS 5).2.1) (by rw [h3]; exact (hS 5).2.2.1)
      (by rw [h3]; exact (hS 5).2.2.2)⟩
  · cases h3

end Verif.Alg
