import Verif.OdeWiring.Model
import Mathlib.Tactic.Common

/-
Lemmas on `setOdeRhs`: what it changes, and the invariant of allowed calls.
-/

namespace Verif.OdeWiring

open Verif.Res

/-- The same pointers -/
structure Shape (h h' : Heap) : Prop where
  next : h'.next = h.next
  kind : ∀ u, (h'.solver u).kind = (h.solver u).kind
  ec : ∀ u, (h'.solver u).ec = (h.solver u).ec
  norm : ∀ u, (h'.solver u).norm = (h.solver u).norm
  ref : ∀ u, (h'.solver u).ref = (h.solver u).ref

theorem Shape.refl (h : Heap) : Shape h h := ⟨rfl, fun _ => rfl, fun _ => rfl, fun _ => rfl, fun _ => rfl⟩

theorem Shape.trans {h h' h'' : Heap} (a : Shape h h') (b : Shape h' h'') : Shape h h'' :=
  ⟨b.next.trans a.next, fun u => (b.kind u).trans (a.kind u), fun u => (b.ec u).trans (a.ec u),
    fun u => (b.norm u).trans (a.norm u), fun u => (b.ref u).trans (a.ref u)⟩

theorem Shape.symm {h h' : Heap} (a : Shape h h') : Shape h' h :=
  ⟨a.next.symm, fun u => (a.kind u).symm, fun u => (a.ec u).symm, fun u => (a.norm u).symm, fun u => (a.ref u).symm⟩

theorem Shape.reach {h h' : Heap} (a : Shape h h') {s u : Nat} (r : h.Reach s u) : h'.Reach s u := by
  induction r with
  | self => exact .self
  | step _ hk hr ih => exact .step ih ((a.kind _).trans hk) ((a.ref _).trans hr)

theorem Shape.reach_iff {h h' : Heap} (a : Shape h h') {s u : Nat} : h'.Reach s u ↔ h.Reach s u :=
  ⟨a.symm.reach, a.reach⟩

theorem Shape.ends {h h' : Heap} (a : Shape h h') {s : Nat} (r : h.Ends s) : h'.Ends s := by
  induction r with
  | other hk => exact .other (by rw [a.kind]; exact hk)
  | null hr => exact .null ((a.ref _).trans hr)
  | next hk hr _ ih => exact .next ((a.kind _).trans hk) ((a.ref _).trans hr) ih

/-- Reaching through the first reference solver -/
theorem reach_head {h : Heap} {s u : Nat} (r : h.Reach s u) :
    u = s ∨ ∃ t, (h.solver s).kind = .extrapolator ∧ (h.solver s).ref = some t ∧ h.Reach t u := by
  induction r with
  | self => exact .inl rfl
  | step r hk hr ih =>
    rcases ih with rfl | ⟨t, h1, h2, h3⟩
    · exact .inr ⟨_, hk, hr, .self⟩
    · exact .inr ⟨t, h1, h2, .step h3 hk hr⟩

theorem reach_cons {h : Heap} {s t u : Nat} (hk : (h.solver s).kind = .extrapolator) (hr : (h.solver s).ref = some t)
    (r : h.Reach t u) : h.Reach s u := by
  induction r with
  | self => exact .step .self hk hr
  | step _ a b ih => exact .step ih a b

/-- What `setOdeRhs` of `s` with `r` changes -/
structure Spec (h h' : Heap) (s : Nat) (r : Ref) : Prop where
  shape : Shape h h'
  rhs : ∀ u, h.Reach s u → (h'.solver u).rhs = r
  mapping : ∀ u, h.Reach s u → (h.solver u).kind = .implicit → (h'.solver u).mapping = r
  other : ∀ u, ¬ h.Reach s u → h'.solver u = h.solver u
  ec : ∀ u c, h.Reach s u → (h.solver u).ec = some c → h'.ec c = r
  ecCases : ∀ c, h'.ec c = r ∨ h'.ec c = h.ec c
  ecOther : ∀ c, (∀ u, h.Reach s u → (h.solver u).ec ≠ some c) → h'.ec c = h.ec c
  norm : ∀ u n, h.Reach s u → (h.solver u).kind.hasNorm → (h.solver u).norm = some n → h'.norm n = r
  normCases : ∀ n, h'.norm n = r ∨ h'.norm n = h.norm n
  normOther : ∀ n, (∀ u, h.Reach s u → (h.solver u).kind.hasNorm → (h.solver u).norm ≠ some n) → h'.norm n = h.norm n

/-- The part of `setOdeRhs` before the observer of the class: pointers of other objects -/
def Heap.told (s : Nat) (r : Ref) (h : Heap) : Heap :=
  { h with
    solver := Function.update h.solver s { h.solver s with rhs := r }
    ec := match (h.solver s).ec with
      | some c => Function.update h.ec c r
      | none => h.ec
    norm := if (h.solver s).kind.hasNorm then
        match (h.solver s).norm with
        | some n => Function.update h.norm n r
        | none => h.norm
      else h.norm }

theorem told_shape (s : Nat) (r : Ref) (h : Heap) : Shape h (h.told s r) := by
  refine ⟨rfl, fun u => ?_, fun u => ?_, fun u => ?_, fun u => ?_⟩ <;>
  · by_cases e : u = s
    · subst e; simp [Heap.told]
    · simp [Heap.told, e]

theorem setOdeRhs_succ (fuel s : Nat) (r : Ref) (h : Heap) (hn : (h.solver s).kind.hasNorm → (h.solver s).norm ≠ none) :
    h.setOdeRhs (fuel + 1) s r = match (h.solver s).kind with
      | .extrapolator => match (h.solver s).ref with
        | some t => (h.told s r).setOdeRhs fuel t r
        | none => .ok (h.told s r)
      | .implicit => .ok ((h.told s r).modify s (fun x => { x with mapping := r }))
      | _ => .ok (h.told s r) := by
  rw [Heap.setOdeRhs]
  cases hk : (h.solver s).kind <;> cases hc : (h.solver s).ec <;> cases hm : (h.solver s).norm <;>
    simp [Heap.modify, hk, hc, hm, Kind.hasNorm, Heap.updateOdeRhs, Heap.setControllerRhs, Heap.told] at hn ⊢
  all_goals cases (h.solver s).ref <;> rfl

/-- The call on the solver itself -/
theorem told_spec (s : Nat) (r : Ref) (h : Heap) (hk : (h.solver s).kind ≠ .implicit)
    (he : (h.solver s).kind ≠ .extrapolator ∨ (h.solver s).ref = none) : Spec h (h.told s r) s r := by
  have hR : ∀ u, h.Reach s u → u = s := by
    intro u hu
    rcases reach_head hu with rfl | ⟨t, h1, h2, -⟩
    · rfl
    · rcases he with he | he
      · exact absurd h1 he
      · rw [he] at h2; cases h2
  refine ⟨told_shape s r h, ?_, ?_, ?_, ?_, ?_, ?_, ?_, ?_, ?_⟩
  · intro u hu
    obtain rfl := hR u hu
    simp [Heap.told]
  · intro u hu hi
    obtain rfl := hR u hu
    exact absurd hi hk
  · intro u hu
    have : u ≠ s := fun e => hu (e ▸ .self)
    simp [Heap.told, this]
  · intro u c hu hc
    obtain rfl := hR u hu
    simp [Heap.told, hc]
  · intro c
    cases hc : (h.solver s).ec with
    | none => simp [Heap.told, hc]
    | some d =>
      by_cases e : c = d
      · subst e; simp [Heap.told, hc]
      · simp [Heap.told, hc, e]
  · intro c hc
    have := hc s .self
    cases hd : (h.solver s).ec with
    | none => simp [Heap.told, hd]
    | some d =>
      have : c ≠ d := fun e => this (e ▸ hd)
      simp [Heap.told, hd, this]
  · intro u n hu ht hc
    obtain rfl := hR u hu
    simp [Heap.told, hc, ht]
  · intro n
    by_cases ht : (h.solver s).kind.hasNorm
    · cases hc : (h.solver s).norm with
      | none => simp [Heap.told, hc]
      | some d =>
        by_cases e : n = d
        · subst e; simp [Heap.told, hc, ht]
        · simp [Heap.told, hc, e, ht]
    · simp [Heap.told, ht]
  · intro n hc
    by_cases ht : (h.solver s).kind.hasNorm
    · have := hc s .self ht
      cases hd : (h.solver s).norm with
      | none => simp [Heap.told, hd]
      | some d =>
        have : n ≠ d := fun e => this (e ▸ hd)
        simp [Heap.told, hd, this, ht]
    · simp [Heap.told, ht]

/-- `told` alone, for use before a recursive call -/
theorem told_other (s : Nat) (r : Ref) (h : Heap) (u : Nat) (hu : u ≠ s) : (h.told s r).solver u = h.solver u := by
  simp [Heap.told, hu]

theorem told_rhs (s : Nat) (r : Ref) (h : Heap) : ((h.told s r).solver s).rhs = r := by
  simp [Heap.told]

theorem told_ec (s : Nat) (r : Ref) (h : Heap) (c : Nat) :
    (h.told s r).ec c = if (h.solver s).ec = some c then r else h.ec c := by
  cases hd : (h.solver s).ec with
  | none => simp [Heap.told, hd]
  | some d =>
    by_cases e : c = d
    · subst e; simp [Heap.told, hd]
    · have : d ≠ c := fun e' => e e'.symm
      simp [Heap.told, hd, e, this]

theorem told_norm (s : Nat) (r : Ref) (h : Heap) (n : Nat) :
    (h.told s r).norm n = if (h.solver s).kind.hasNorm ∧ (h.solver s).norm = some n then r else h.norm n := by
  by_cases ht : (h.solver s).kind.hasNorm
  · cases hd : (h.solver s).norm with
    | none => simp [Heap.told, hd]
    | some d =>
      by_cases e : n = d
      · subst e; simp [Heap.told, hd, ht]
      · have : d ≠ n := fun e' => e e'.symm
        simp [Heap.told, hd, e, this, ht]
  · simp [Heap.told, ht]

/-- A call on a solver whose chain of reference solvers ends returns, and changes exactly what it should. -/
theorem setOdeRhs_spec {s : Nat} {r : Ref} {h : Heap} (he : h.Ends s)
    (hn : ∀ u, h.Reach s u → (h.solver u).kind.hasNorm → (h.solver u).norm ≠ none) :
    ∃ N h', (∀ fuel, N ≤ fuel → h.setOdeRhs fuel s r = .ok h') ∧ Spec h h' s r := by
  suffices H : ∀ s, (h.Ends s) → ∀ g, Shape h g → (∀ u, g.Reach s u → (g.solver u).kind.hasNorm → (g.solver u).norm ≠ none) →
      ∃ N h', (∀ fuel, N ≤ fuel → g.setOdeRhs fuel s r = .ok h') ∧ Spec g h' s r from H s he h (.refl h) hn
  intro s he
  -- a solver without a reference solver
  have base : ∀ s g, ((g.solver s).kind ≠ .extrapolator ∨ (g.solver s).ref = none) →
      (∀ u, g.Reach s u → (g.solver u).kind.hasNorm → (g.solver u).norm ≠ none) →
      ∃ N h', (∀ fuel, N ≤ fuel → g.setOdeRhs fuel s r = .ok h') ∧ Spec g h' s r := by
    intro s g hs hn
    by_cases hi : (g.solver s).kind = .implicit
    · refine ⟨1, (g.told s r).modify s (fun x => { x with mapping := r }), fun fuel hf => ?_, ?_⟩
      · obtain ⟨f, rfl⟩ : ∃ f, fuel = f + 1 := ⟨fuel - 1, by omega⟩
        rw [setOdeRhs_succ f s r g (hn s .self), hi]
      · have hR : ∀ u, g.Reach s u → u = s := by
          intro u hu
          rcases reach_head hu with rfl | ⟨t, h1, h2, -⟩
          · rfl
          · rw [hi] at h1; cases h1
        have hu : ∀ u, u ≠ s → ((g.told s r).modify s (fun x => { x with mapping := r })).solver u = g.solver u := by
          intro u hu
          simp [Heap.modify, Heap.told, hu]
        refine ⟨(told_shape s r g).trans ⟨rfl, ?_, ?_, ?_, ?_⟩, ?_, ?_, ?_, ?_, ?_, ?_, ?_, ?_, ?_⟩
        · intro u; by_cases e : u = s <;> simp [Heap.modify, Function.update, e]
        · intro u; by_cases e : u = s <;> simp [Heap.modify, Function.update, e]
        · intro u; by_cases e : u = s <;> simp [Heap.modify, Function.update, e]
        · intro u; by_cases e : u = s <;> simp [Heap.modify, Function.update, e]
        · intro u hu
          obtain rfl := hR u hu
          simp [Heap.modify, Heap.told]
        · intro u hu _
          obtain rfl := hR u hu
          simp [Heap.modify, Heap.told]
        · intro u hv
          exact hu u (fun e => hv (e ▸ .self))
        · intro u c hu hc
          obtain rfl := hR u hu
          change (g.told u r).ec c = r
          rw [told_ec, if_pos hc]
        · intro c
          change (g.told s r).ec c = r ∨ (g.told s r).ec c = g.ec c
          rw [told_ec]; split <;> simp
        · intro c hc
          change (g.told s r).ec c = g.ec c
          rw [told_ec, if_neg (hc s .self)]
        · intro u n hu ht hc
          obtain rfl := hR u hu
          change (g.told u r).norm n = r
          rw [told_norm, if_pos ⟨ht, hc⟩]
        · intro n
          change (g.told s r).norm n = r ∨ (g.told s r).norm n = g.norm n
          rw [told_norm]; split <;> simp
        · intro n hc
          change (g.told s r).norm n = g.norm n
          rw [told_norm, if_neg (fun e => hc s .self e.1 e.2)]
    · refine ⟨1, g.told s r, fun fuel hf => ?_, told_spec s r g hi hs⟩
      obtain ⟨f, rfl⟩ : ∃ f, fuel = f + 1 := ⟨fuel - 1, by omega⟩
      rw [setOdeRhs_succ f s r g (hn s .self)]
      cases hk : (g.solver s).kind with
      | extrapolator =>
        rcases hs with hs | hs
        · exact absurd hk hs
        · simp [hs]
      | implicit => exact absurd hk hi
      | _ => rfl
  induction he with
  | other hk => intro g hg hn; exact base _ g (.inl (by rw [hg.kind]; exact hk)) hn
  | null hr => intro g hg hn; exact base _ g (.inr (by rw [hg.ref]; exact hr)) hn
  | @next s t hk hr _ ih =>
    intro g hg hn
    have hk' : (g.solver s).kind = .extrapolator := (hg.kind s).trans hk
    have hr' : (g.solver s).ref = some t := (hg.ref s).trans hr
    have hsh := told_shape s r g
    obtain ⟨N, h', h1, h2⟩ := ih (g.told s r) (hg.trans hsh) (fun u hu ha hb => by
      rw [hsh.kind] at ha
      rw [hsh.norm] at hb
      exact hn u (reach_cons hk' hr' (hsh.reach_iff.1 hu)) ha hb)
    refine ⟨N + 1, h', fun fuel hf => ?_, ?_⟩
    · obtain ⟨f, rfl⟩ : ∃ f, fuel = f + 1 := ⟨fuel - 1, by omega⟩
      rw [setOdeRhs_succ f s r g (hn s .self), hk', hr']
      exact h1 f (by omega)
    · have hT : ∀ u, g.Reach s u → u = s ∨ g.Reach t u := by
        intro u hu
        rcases reach_head hu with e | ⟨t', a, b, c⟩
        · exact .inl e
        · rw [hr'] at b
          cases b
          exact .inr c
      have hR : ∀ u, (g.told s r).Reach t u ↔ g.Reach t u := fun u => hsh.reach_iff
      refine ⟨hsh.trans h2.shape, ?_, ?_, ?_, ?_, ?_, ?_, ?_, ?_, ?_⟩
      · intro u hu
        by_cases ht : g.Reach t u
        · exact h2.rhs u ((hR u).2 ht)
        · rw [h2.other u (fun e => ht ((hR u).1 e))]
          obtain rfl := (hT u hu).resolve_right ht
          exact told_rhs _ r g
      · intro u hu hi
        rcases hT u hu with rfl | ht
        · rw [hk'] at hi; cases hi
        · exact h2.mapping u ((hR u).2 ht) (by rw [hsh.kind]; exact hi)
      · intro u hu
        have h3 : ¬ g.Reach t u := fun e => hu (reach_cons hk' hr' e)
        rw [h2.other u (fun e => h3 ((hR u).1 e))]
        exact told_other s r g u (fun e => hu (e ▸ .self))
      · intro u c hu hc
        rcases hT u hu with rfl | ht
        · rcases h2.ecCases c with e | e
          · exact e
          · rw [e, told_ec, if_pos hc]
        · exact h2.ec u c ((hR u).2 ht) (by rw [hsh.ec]; exact hc)
      · intro c
        rcases h2.ecCases c with e | e
        · exact .inl e
        · rw [e, told_ec]; split <;> simp
      · intro c hc
        rw [h2.ecOther c (fun u hu => by
          rw [hsh.ec]; exact hc u (reach_cons hk' hr' ((hR u).1 hu))), told_ec, if_neg (hc s .self)]
      · intro u n hu hkn hc
        rcases hT u hu with rfl | ht
        · rcases h2.normCases n with e | e
          · exact e
          · rw [e, told_norm, if_pos ⟨hkn, hc⟩]
        · exact h2.norm u n ((hR u).2 ht) (by rw [hsh.kind]; exact hkn) (by rw [hsh.norm]; exact hc)
      · intro n
        rcases h2.normCases n with e | e
        · exact .inl e
        · rw [e, told_norm]; split <;> simp
      · intro n hc
        rw [h2.normOther n (fun u hu => by
          rw [hsh.norm, hsh.kind]; exact hc u (reach_cons hk' hr' ((hR u).1 hu))), told_norm,
          if_neg (fun e => hc s .self e.1 e.2)]

end Verif.OdeWiring
