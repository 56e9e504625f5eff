import Verif.OdeWiring.Lemmas

/-
The invariant of allowed calls: components have the right-hand side of their solver.
-/

namespace Verif.OdeWiring

open Verif.Res

/-- Pointers are as allowed calls make them -/
structure Tidy (h : Heap) : Prop where
  fresh : ∀ u, h.next ≤ u → h.solver u = {}
  ecLt : ∀ u c, (h.solver u).ec = some c → c < h.next
  normLt : ∀ u n, (h.solver u).norm = some n → n < h.next
  refLt : ∀ u t, (h.solver u).ref = some t → t < h.next
  ecInj : ∀ u v c, (h.solver u).ec = some c → (h.solver v).ec = some c → u = v
  normInj : ∀ u v n, (h.solver u).norm = some n → (h.solver v).norm = some n → u = v
  refInj : ∀ u v t, (h.solver u).kind = .extrapolator → (h.solver v).kind = .extrapolator →
    (h.solver u).ref = some t → (h.solver v).ref = some t → u = v
  ends : ∀ u, h.Ends u
  normSet : ∀ u, (h.solver u).kind.hasNorm → (h.solver u).norm ≠ none

/-- Components have the right-hand side of the solver, reference solvers have that of their user, except for `s`. -/
structure Local (h : Heap) (s : Option Nat) : Prop where
  ec : ∀ u c, (h.solver u).ec = some c → h.ec c = (h.solver u).rhs
  norm : ∀ u n, (h.solver u).kind.hasNorm → (h.solver u).norm = some n → h.norm n = (h.solver u).rhs
  mapping : ∀ u, (h.solver u).kind = .implicit → (h.solver u).mapping = (h.solver u).rhs
  ref : ∀ u t, (h.solver u).kind = .extrapolator → (h.solver u).ref = some t → s ≠ some t →
    (h.solver t).rhs = (h.solver u).rhs

theorem Local.synced {h : Heap} (l : Local h none) (s : Nat) : h.Synced s := by
  have hr : ∀ u, h.Reach s u → (h.solver u).rhs = (h.solver s).rhs := by
    intro u hu
    induction hu with
    | self => rfl
    | step _ hk hr ih => exact (l.ref _ _ hk hr (by simp)).trans ih
  intro u hu
  exact ⟨hr u hu, fun c hc => (l.ec u c hc).trans (hr u hu), fun n hk hn => (l.norm u n hk hn).trans (hr u hu),
    fun hk => (l.mapping u hk).trans (hr u hu)⟩

theorem Tidy.shape {h h' : Heap} (a : Shape h h') (t : Tidy h) (hf : ∀ u, h.next ≤ u → h'.solver u = {}) : Tidy h' := by
  refine ⟨fun u hu => hf u (by rw [← a.next]; exact hu), ?_, ?_, ?_, ?_, ?_, ?_, ?_, ?_⟩
  · intro u c; rw [a.ec, a.next]; exact t.ecLt u c
  · intro u c; rw [a.norm, a.next]; exact t.normLt u c
  · intro u c; rw [a.ref, a.next]; exact t.refLt u c
  · intro u v c; rw [a.ec, a.ec]; exact t.ecInj u v c
  · intro u v c; rw [a.norm, a.norm]; exact t.normInj u v c
  · intro u v c; rw [a.ref, a.ref, a.kind, a.kind]; exact t.refInj u v c
  · intro u; exact a.ends (t.ends u)
  · intro u; rw [a.kind, a.norm]; exact t.normSet u

/-- A solver that is reached, other than the first, is a reference solver of one that is reached -/
theorem reach_last {h : Heap} {s u : Nat} (r : h.Reach s u) :
    u = s ∨ ∃ v, h.Reach s v ∧ (h.solver v).kind = .extrapolator ∧ (h.solver v).ref = some u := by
  cases r with
  | self => exact .inl rfl
  | step r hk hr => exact .inr ⟨_, r, hk, hr⟩

/-- Calling `setOdeRhs` for `s` makes everything right if all users of `s` have that right-hand side. -/
theorem setOdeRhs_inv {h : Heap} {s : Nat} {r : Ref} (t : Tidy h) (hs : s < h.next) (l : Local h (some s))
    (hu : ∀ u, (h.solver u).kind = .extrapolator → (h.solver u).ref = some s → (h.solver u).rhs = r) :
    ∃ N h', (∀ fuel, N ≤ fuel → h.setOdeRhs fuel s r = .ok h') ∧ Tidy h' ∧ Local h' none ∧ Spec h h' s r := by
  obtain ⟨N, h', h1, h2⟩ := setOdeRhs_spec (r := r) (t.ends s) (fun u _ => t.normSet u)
  have a := h2.shape
  have hlt : ∀ u, h.Reach s u → u < h.next := by
    intro u hu
    rcases reach_last hu with rfl | ⟨v, -, -, hr⟩
    · exact hs
    · exact t.refLt v u hr
  refine ⟨N, h', h1, t.shape a (fun u hle => ?_), ⟨?_, ?_, ?_, ?_⟩, h2⟩
  · rw [h2.other u (fun e => absurd (hlt u e) (by omega))]
    exact t.fresh u hle
  · intro u c hc
    rw [a.ec] at hc
    by_cases hr : h.Reach s u
    · rw [h2.ec u c hr hc, h2.rhs u hr]
    · rw [h2.other u hr, h2.ecOther c (fun v hv e => hr (t.ecInj u v c hc e ▸ hv)), l.ec u c hc]
  · intro u n hk hc
    rw [a.norm] at hc
    rw [a.kind] at hk
    by_cases hr : h.Reach s u
    · rw [h2.norm u n hr hk hc, h2.rhs u hr]
    · rw [h2.other u hr, h2.normOther n (fun v hv _ e => hr (t.normInj u v n hc e ▸ hv)), l.norm u n hk hc]
  · intro u hk
    rw [a.kind] at hk
    by_cases hr : h.Reach s u
    · rw [h2.mapping u hr hk, h2.rhs u hr]
    · rw [h2.other u hr, l.mapping u hk]
  · intro u v hk hv _
    rw [a.kind] at hk
    rw [a.ref] at hv
    by_cases hr : h.Reach s u
    · rw [h2.rhs u hr, h2.rhs v (.step hr hk hv)]
    · by_cases e : v = s
      · subst e
        rw [h2.other u hr, h2.rhs v .self, hu u hk hv]
      · have hn : ¬ h.Reach s v := by
          intro hrv
          rcases reach_last hrv with e' | ⟨w, hw, hkw, hrw⟩
          · exact e e'
          · exact hr (t.refInj u w v hk hkw hv hrw ▸ hw)
        rw [h2.other u hr, h2.other v hn]
        exact l.ref u v hk hv (by simp [Ne.symm e])

theorem Local.weaken {h : Heap} (l : Local h none) (s : Option Nat) : Local h s :=
  ⟨l.ec, l.norm, l.mapping, fun u t hk hr _ => l.ref u t hk hr (by simp)⟩

/-- The invariant -/
def Inv (h : Heap) : Prop := Tidy h ∧ Local h none

theorem inv_empty : Inv .empty := by
  refine ⟨⟨fun _ _ => rfl, ?_, ?_, ?_, ?_, ?_, ?_, ?_, ?_⟩, ⟨?_, ?_, ?_, ?_⟩⟩ <;> simp [Heap.empty, Kind.hasNorm]
  intro u
  exact .null rfl

/-- Solvers other than a new one -/
theorem new_old {h : Heap} (k : Kind) {u : Nat} (hu : u ≠ h.next) : (h.new k).2.solver u = h.solver u := by
  simp [Heap.new, hu]

theorem inv_new {h : Heap} (i : Inv h) (k : Kind) : Inv (h.new k).2 := by
  obtain ⟨t, l⟩ := i
  have hn : (h.new k).2.solver h.next = { kind := k, ec := some h.next, norm := if k.hasNorm then some h.next else none } := by
    simp [Heap.new]
  have hx : (h.new k).2.next = h.next + 1 := rfl
  have hec : ∀ c, (h.new k).2.ec c = if c = h.next then none else h.ec c := by
    intro c; by_cases e : c = h.next <;> simp [Heap.new, e]
  have hnorm : ∀ c, (h.new k).2.norm c = if c = h.next then none else h.norm c := by
    intro c; by_cases e : c = h.next <;> simp [Heap.new, e]
  have hrefn : ∀ u, (h.solver u).ref ≠ some h.next := fun u e => absurd (t.refLt u _ e) (by omega)
  refine ⟨⟨?_, ?_, ?_, ?_, ?_, ?_, ?_, ?_, ?_⟩, ⟨?_, ?_, ?_, ?_⟩⟩
  · intro u hu
    rw [hx] at hu
    rw [new_old k (by omega)]
    exact t.fresh u (by omega)
  · intro u c hc
    rw [hx]
    by_cases e : u = h.next
    · subst e; rw [hn] at hc; cases hc; omega
    · rw [new_old k e] at hc
      have := t.ecLt u c hc
      omega
  · intro u c hc
    rw [hx]
    by_cases e : u = h.next
    · subst e; rw [hn] at hc
      have : c = h.next := by
        dsimp only at hc
        split at hc <;> simp at hc
        exact hc.symm
      omega
    · rw [new_old k e] at hc
      have := t.normLt u c hc
      omega
  · intro u c hc
    rw [hx]
    by_cases e : u = h.next
    · subst e; rw [hn] at hc; cases hc
    · rw [new_old k e] at hc
      have := t.refLt u c hc
      omega
  · intro u v c hc hd
    by_cases e : u = h.next <;> by_cases e' : v = h.next
    · rw [e, e']
    · subst e; rw [hn] at hc; rw [new_old k e'] at hd; cases hc
      exact absurd (t.ecLt v _ hd) (by omega)
    · subst e'; rw [hn] at hd; rw [new_old k e] at hc; cases hd
      exact absurd (t.ecLt u _ hc) (by omega)
    · rw [new_old k e] at hc; rw [new_old k e'] at hd
      exact t.ecInj u v c hc hd
  · intro u v c hc hd
    have hself : ∀ c, ((h.new k).2.solver h.next).norm = some c → c = h.next := by
      intro c hc
      rw [hn] at hc
      dsimp only at hc
      split at hc <;> simp at hc
      exact hc.symm
    by_cases e : u = h.next <;> by_cases e' : v = h.next
    · rw [e, e']
    · subst e; have := hself c hc; rw [new_old k e'] at hd
      exact absurd (t.normLt v _ hd) (by omega)
    · subst e'; have := hself c hd; rw [new_old k e] at hc
      exact absurd (t.normLt u _ hc) (by omega)
    · rw [new_old k e] at hc; rw [new_old k e'] at hd
      exact t.normInj u v c hc hd
  · intro u v c hk hk' hc hd
    have e : u ≠ h.next := by rintro rfl; rw [hn] at hc; cases hc
    have e' : v ≠ h.next := by rintro rfl; rw [hn] at hd; cases hd
    rw [new_old k e] at hc hk; rw [new_old k e'] at hd hk'
    exact t.refInj u v c hk hk' hc hd
  · intro u
    by_cases e : u = h.next
    · subst e; exact .null (by rw [hn])
    · have := t.ends u
      induction this with
      | other hk => exact .other (by rw [new_old k e]; exact hk)
      | null hr => exact .null (by rw [new_old k e]; exact hr)
      | @next s t' hk hr _ ih =>
        have et : t' ≠ h.next := fun e' => hrefn s (e' ▸ hr)
        exact .next (by rw [new_old k e]; exact hk) (by rw [new_old k e]; exact hr) (ih et)
  · intro u hk
    by_cases e : u = h.next
    · subst e
      rw [hn] at hk ⊢
      dsimp only at hk ⊢
      rw [if_pos hk]
      simp
    · rw [new_old k e] at hk ⊢
      exact t.normSet u hk
  · intro u c hc
    by_cases e : u = h.next
    · subst e; rw [hn] at hc; cases hc; rw [hec, hn, if_pos rfl]
    · rw [new_old k e] at hc ⊢
      rw [hec, if_neg (by have := t.ecLt u c hc; omega)]
      exact l.ec u c hc
  · intro u c hk hc
    by_cases e : u = h.next
    · subst e
      rw [hn] at hc
      have : c = h.next := by
        dsimp only at hc
        split at hc <;> simp at hc
        exact hc.symm
      rw [hnorm, hn, if_pos this]
    · rw [new_old k e] at hc hk ⊢
      rw [hnorm, if_neg (by have := t.normLt u c hc; omega)]
      exact l.norm u c hk hc
  · intro u hk
    by_cases e : u = h.next
    · subst e; rw [hn]
    · rw [new_old k e] at hk ⊢
      exact l.mapping u hk
  · intro u v hk hr hne
    have e : u ≠ h.next := by rintro rfl; rw [hn] at hr; cases hr
    rw [new_old k e] at hk hr ⊢
    rw [new_old k (fun e' => hrefn u (e' ▸ hr))]
    exact l.ref u v hk hr hne

theorem inv_alloc {h : Heap} (i : Inv h) : Inv h.alloc.2 := by
  obtain ⟨t, l⟩ := i
  have hec : ∀ c, h.alloc.2.ec c = if c = h.next then none else h.ec c := by
    intro c; by_cases e : c = h.next <;> simp [Heap.alloc, e]
  have hnorm : ∀ c, h.alloc.2.norm c = if c = h.next then none else h.norm c := by
    intro c; by_cases e : c = h.next <;> simp [Heap.alloc, e]
  refine ⟨⟨?_, ?_, ?_, ?_, t.ecInj, t.normInj, t.refInj, ?_, t.normSet⟩, ⟨?_, ?_, l.mapping, l.ref⟩⟩
  · intro u hu; exact t.fresh u (Nat.le_trans (Nat.le_succ _) hu)
  · intro u c hc; exact Nat.lt_succ_of_lt (t.ecLt u c hc)
  · intro u c hc; exact Nat.lt_succ_of_lt (t.normLt u c hc)
  · intro u c hc; exact Nat.lt_succ_of_lt (t.refLt u c hc)
  · intro u
    have := t.ends u
    induction this with
    | other hk => exact .other hk
    | null hr => exact .null hr
    | next hk hr _ ih => exact .next hk hr ih
  · intro u c hc
    rw [hec, if_neg (by have := t.ecLt u c hc; omega)]
    exact l.ec u c hc
  · intro u c hk hc
    rw [hnorm, if_neg (by have := t.normLt u c hc; omega)]
    exact l.norm u c hk hc

/-- The same pointers except to components -/
structure Frame (h h' : Heap) : Prop where
  next : h'.next = h.next
  kind : ∀ u, (h'.solver u).kind = (h.solver u).kind
  ref : ∀ u, (h'.solver u).ref = (h.solver u).ref
  rhs : ∀ u, (h'.solver u).rhs = (h.solver u).rhs

theorem Frame.reach {h h' : Heap} (a : Frame h h') {s u : Nat} : h'.Reach s u ↔ h.Reach s u := by
  constructor
  · intro r
    induction r with
    | self => exact .self
    | step _ hk hr ih => exact .step ih ((a.kind _).symm.trans hk) ((a.ref _).symm.trans hr)
  · intro r
    induction r with
    | self => exact .self
    | step _ hk hr ih => exact .step ih ((a.kind _).trans hk) ((a.ref _).trans hr)

theorem Frame.ends {h h' : Heap} (a : Frame h h') {s : Nat} (r : h.Ends s) : h'.Ends s := by
  induction r with
  | other hk => exact .other (by rw [a.kind]; exact hk)
  | null hr => exact .null ((a.ref _).trans hr)
  | next hk hr _ ih => exact .next ((a.kind _).trans hk) ((a.ref _).trans hr) ih

theorem Frame.trans {h h' h'' : Heap} (a : Frame h h') (b : Frame h' h'') : Frame h h'' :=
  ⟨b.next.trans a.next, fun u => (b.kind u).trans (a.kind u), fun u => (b.ref u).trans (a.ref u),
    fun u => (b.rhs u).trans (a.rhs u)⟩

theorem Frame.refl (h : Heap) : Frame h h := ⟨rfl, fun _ => rfl, fun _ => rfl, fun _ => rfl⟩

theorem Frame.refFree {h h' : Heap} (a : Frame h h') {s : Nat} {t : Ref} (f : h.RefFree s t) : h'.RefFree s t := by
  intro t' e
  obtain ⟨h1, h2, h3⟩ := f t' e
  refine ⟨by rw [a.next]; exact h1, fun u hu => ?_, fun r => h3 (a.reach.1 r)⟩
  rw [a.kind, a.ref]
  exact h2 u hu

/-- A new event controller -/
theorem inv_setEc {h : Heap} (i : Inv h) {s : Nat} {c : Ref} (hs : s < h.next) (hc : h.EcFree s c) :
    Inv (h.setEventController s c) ∧ Frame h (h.setEventController s c) := by
  obtain ⟨t, l⟩ := i
  have hu : ∀ u, u ≠ s → (h.setEventController s c).solver u = h.solver u := by
    intro u hu
    cases c <;> simp [Heap.setEventController, Heap.modify, Heap.setControllerRhs, hu]
  have hss : (h.setEventController s c).solver s = { h.solver s with ec := c } := by
    cases c <;> simp [Heap.setEventController, Heap.modify, Heap.setControllerRhs]
  have hx : (h.setEventController s c).next = h.next := by
    cases c <;> simp [Heap.setEventController, Heap.modify, Heap.setControllerRhs]
  have hnm : (h.setEventController s c).norm = h.norm := by
    cases c <;> simp [Heap.setEventController, Heap.modify, Heap.setControllerRhs]
  have hec : ∀ d, (h.setEventController s c).ec d = if c = some d then (h.solver s).rhs else h.ec d := by
    intro d
    cases c with
    | none => simp [Heap.setEventController, Heap.modify, Heap.setControllerRhs]
    | some c =>
      by_cases e : c = d
      · subst e; simp [Heap.setEventController, Heap.modify, Heap.setControllerRhs]
      · have e' : d ≠ c := fun x => e x.symm
        simp [Heap.setEventController, Heap.modify, Heap.setControllerRhs, e, e']
  have hk : ∀ u, ((h.setEventController s c).solver u).kind = (h.solver u).kind := by
    intro u; by_cases e : u = s
    · subst e; rw [hss]
    · rw [hu u e]
  have hn : ∀ u, ((h.setEventController s c).solver u).norm = (h.solver u).norm := by
    intro u; by_cases e : u = s
    · subst e; rw [hss]
    · rw [hu u e]
  have hr : ∀ u, ((h.setEventController s c).solver u).ref = (h.solver u).ref := by
    intro u; by_cases e : u = s
    · subst e; rw [hss]
    · rw [hu u e]
  have hh : ∀ u, ((h.setEventController s c).solver u).rhs = (h.solver u).rhs := by
    intro u; by_cases e : u = s
    · subst e; rw [hss]
    · rw [hu u e]
  have hm : ∀ u, ((h.setEventController s c).solver u).mapping = (h.solver u).mapping := by
    intro u; by_cases e : u = s
    · subst e; rw [hss]
    · rw [hu u e]
  have F : Frame h (h.setEventController s c) := ⟨hx, hk, hr, hh⟩
  refine ⟨⟨⟨?_, ?_, ?_, ?_, ?_, ?_, ?_, fun u => F.ends (t.ends u), ?_⟩, ⟨?_, ?_, ?_, ?_⟩⟩, F⟩
  · intro u hle
    rw [hx] at hle
    rw [hu u (by omega)]
    exact t.fresh u hle
  · intro u d hd
    rw [hx]
    by_cases e : u = s
    · subst e; rw [hss] at hd; exact (hc d hd).1
    · rw [hu u e] at hd; exact t.ecLt u d hd
  · intro u d; rw [hn, hx]; exact t.normLt u d
  · intro u d; rw [hr, hx]; exact t.refLt u d
  · intro u v d hd he
    by_cases e : u = s <;> by_cases e' : v = s
    · rw [e, e']
    · subst e; rw [hss] at hd; rw [hu v e'] at he
      exact absurd he ((hc d hd).2 v e')
    · subst e'; rw [hss] at he; rw [hu u e] at hd
      exact absurd hd ((hc d he).2 u e)
    · rw [hu u e] at hd; rw [hu v e'] at he
      exact t.ecInj u v d hd he
  · intro u v d; rw [hn, hn]; exact t.normInj u v d
  · intro u v d; rw [hr, hr, hk, hk]; exact t.refInj u v d
  · intro u; rw [hk, hn]; exact t.normSet u
  · intro u d hd
    rw [hec, hh]
    by_cases e : u = s
    · subst e; rw [hss] at hd; rw [if_pos hd]
    · rw [hu u e] at hd
      rw [if_neg (fun x => (hc d x).2 u e hd)]
      exact l.ec u d hd
  · intro u d; rw [hk, hn, hnm, hh]; exact l.norm u d
  · intro u; rw [hk, hm, hh]; exact l.mapping u
  · intro u v; rw [hk, hr, hh, hh]; exact l.ref u v

/-- A new error norm calculator -/
theorem inv_setNorm {h : Heap} (i : Inv h) {s : Nat} {c : Ref} (hs : s < h.next) (hc : h.NormFree s c) :
    ∃ h', h.setErrorNormCalculator s c = .ok h' ∧ Inv h' ∧ Frame h h' ∧
      ∀ d, h.EcFree s d → h'.EcFree s d := by
  obtain ⟨t, l⟩ := i
  obtain ⟨hc0, hc⟩ := hc
  cases c with
  | none => exact absurd rfl hc0
  | some c =>
  obtain ⟨hc1, hc2⟩ := hc c rfl
  set h' : Heap := { h with
    solver := Function.update h.solver s { h.solver s with norm := some c }
    norm := Function.update h.norm c (h.solver s).rhs } with hdef
  have hok : h.setErrorNormCalculator s (some c) = .ok h' := by
    simp [Heap.setErrorNormCalculator, Heap.modify, Heap.updateOdeRhs, hdef]
  have hu : ∀ u, u ≠ s → h'.solver u = h.solver u := by
    intro u hu
    simp [hdef, hu]
  have hss : h'.solver s = { h.solver s with norm := some c } := by simp [hdef]
  have hx : h'.next = h.next := rfl
  have hnm : h'.ec = h.ec := rfl
  have hec : ∀ d, h'.norm d = if c = d then (h.solver s).rhs else h.norm d := by
    intro d
    by_cases e : c = d
    · subst e; simp [hdef]
    · have e' : d ≠ c := fun x => e x.symm
      simp [hdef, e, e']
  have hk : ∀ u, (h'.solver u).kind = (h.solver u).kind := by
    intro u; by_cases e : u = s
    · subst e; rw [hss]
    · rw [hu u e]
  have hn : ∀ u, (h'.solver u).ec = (h.solver u).ec := by
    intro u; by_cases e : u = s
    · subst e; rw [hss]
    · rw [hu u e]
  have hr : ∀ u, (h'.solver u).ref = (h.solver u).ref := by
    intro u; by_cases e : u = s
    · subst e; rw [hss]
    · rw [hu u e]
  have hh : ∀ u, (h'.solver u).rhs = (h.solver u).rhs := by
    intro u; by_cases e : u = s
    · subst e; rw [hss]
    · rw [hu u e]
  have hm : ∀ u, (h'.solver u).mapping = (h.solver u).mapping := by
    intro u; by_cases e : u = s
    · subst e; rw [hss]
    · rw [hu u e]
  have F : Frame h h' := ⟨hx, hk, hr, hh⟩
  refine ⟨h', hok, ⟨⟨?_, ?_, ?_, ?_, ?_, ?_, ?_, fun u => F.ends (t.ends u), ?_⟩, ⟨?_, ?_, ?_, ?_⟩⟩, F, ?_⟩
  · intro u hle
    rw [hx] at hle
    rw [hu u (by omega)]
    exact t.fresh u hle
  · intro u d; rw [hn, hx]; exact t.ecLt u d
  · intro u d hd
    rw [hx]
    by_cases e : u = s
    · subst e; rw [hss] at hd; cases hd; exact hc1
    · rw [hu u e] at hd; exact t.normLt u d hd
  · intro u d; rw [hr, hx]; exact t.refLt u d
  · intro u v d; rw [hn, hn]; exact t.ecInj u v d
  · intro u v d hd he
    by_cases e : u = s <;> by_cases e' : v = s
    · rw [e, e']
    · subst e; rw [hss] at hd; rw [hu v e'] at he; cases hd
      exact absurd he (hc2 v e')
    · subst e'; rw [hss] at he; rw [hu u e] at hd; cases he
      exact absurd hd (hc2 u e)
    · rw [hu u e] at hd; rw [hu v e'] at he
      exact t.normInj u v d hd he
  · intro u v d; rw [hr, hr, hk, hk]; exact t.refInj u v d
  · intro u hku
    rw [hk] at hku
    by_cases e : u = s
    · subst e; rw [hss]; simp
    · rw [hu u e]; exact t.normSet u hku
  · intro u d; rw [hn, hnm, hh]; exact l.ec u d
  · intro u d hku hd
    rw [hec, hh]
    rw [hk] at hku
    by_cases e : u = s
    · subst e; rw [hss] at hd; cases hd; rw [if_pos rfl]
    · rw [hu u e] at hd
      rw [if_neg (fun x : c = d => hc2 u e (x ▸ hd))]
      exact l.norm u d hku hd
  · intro u; rw [hk, hm, hh]; exact l.mapping u
  · intro u v; rw [hk, hr, hh, hh]; exact l.ref u v
  · intro d hd c' e
    refine ⟨(hd c' e).1, fun u hu' => ?_⟩
    rw [hn]
    exact (hd c' e).2 u hu'

/-- A new reference solver, before it is told the right-hand side -/
theorem tidy_ref {h : Heap} (i : Inv h) {s : Nat} {r : Ref} (hs : s < h.next)
    (hk : (h.solver s).kind = .extrapolator) (hf : h.RefFree s r) :
    Tidy (h.modify s ({ · with ref := r })) ∧ Local (h.modify s ({ · with ref := r })) r := by
  obtain ⟨t, l⟩ := i
  set h' := h.modify s ({ · with ref := r }) with hdef
  have hu : ∀ u, u ≠ s → h'.solver u = h.solver u := by
    intro u hu
    simp [hdef, Heap.modify, hu]
  have hss : h'.solver s = { h.solver s with ref := r } := by simp [hdef, Heap.modify]
  have hkk : ∀ u, (h'.solver u).kind = (h.solver u).kind := by
    intro u; by_cases e : u = s
    · subst e; rw [hss]
    · rw [hu u e]
  have hn : ∀ u, (h'.solver u).norm = (h.solver u).norm := by
    intro u; by_cases e : u = s
    · subst e; rw [hss]
    · rw [hu u e]
  have he : ∀ u, (h'.solver u).ec = (h.solver u).ec := by
    intro u; by_cases e : u = s
    · subst e; rw [hss]
    · rw [hu u e]
  have hh : ∀ u, (h'.solver u).rhs = (h.solver u).rhs := by
    intro u; by_cases e : u = s
    · subst e; rw [hss]
    · rw [hu u e]
  have hm : ∀ u, (h'.solver u).mapping = (h.solver u).mapping := by
    intro u; by_cases e : u = s
    · subst e; rw [hss]
    · rw [hu u e]
  -- chains that do not meet `s`
  have hend1 : ∀ u, h.Ends u → ¬ h.Reach u s → h'.Ends u := by
    intro u hE
    induction hE with
    | other hk => intro _; exact .other (by rw [hkk]; exact hk)
    | @null u hr =>
      intro hne
      have e : u ≠ s := fun x => hne (x ▸ .self)
      exact .null (by rw [hu u e]; exact hr)
    | @next u v hk hr _ ih =>
      intro hne
      have e : u ≠ s := fun x => hne (x ▸ .self)
      exact .next ((hkk u).trans hk) (by rw [hu u e]; exact hr) (ih (fun x => hne (reach_cons hk hr x)))
  have hend2 : h'.Ends s := by
    cases r with
    | none => exact .null (by rw [hss])
    | some r =>
      exact .next ((hkk s).trans hk) (by rw [hss]) (hend1 r (t.ends r) (hf r rfl).2.2)
  have hend : ∀ u, h'.Ends u := by
    intro u
    have := t.ends u
    induction this with
    | other hk => exact .other (by rw [hkk]; exact hk)
    | @null u hr =>
      by_cases e : u = s
      · exact e ▸ hend2
      · exact .null (by rw [hu u e]; exact hr)
    | @next u v hk hr _ ih =>
      by_cases e : u = s
      · exact e ▸ hend2
      · exact .next ((hkk u).trans hk) (by rw [hu u e]; exact hr) ih
  refine ⟨⟨?_, ?_, ?_, ?_, ?_, ?_, ?_, hend, ?_⟩, ⟨?_, ?_, ?_, ?_⟩⟩
  · intro u hle
    have : h'.next = h.next := rfl
    rw [hu u (by omega)]
    exact t.fresh u hle
  · intro u d; rw [he]; exact t.ecLt u d
  · intro u d; rw [hn]; exact t.normLt u d
  · intro u d hd
    by_cases e : u = s
    · subst e; rw [hss] at hd; exact (hf d hd).1
    · rw [hu u e] at hd; exact t.refLt u d hd
  · intro u v d; rw [he, he]; exact t.ecInj u v d
  · intro u v d; rw [hn, hn]; exact t.normInj u v d
  · intro u v d hku hkv hd he
    rw [hkk] at hku hkv
    by_cases e : u = s <;> by_cases e' : v = s
    · rw [e, e']
    · subst e; rw [hss] at hd; rw [hu v e'] at he
      exact absurd he ((hf d hd).2.1 v e' hkv)
    · subst e'; rw [hss] at he; rw [hu u e] at hd
      exact absurd hd ((hf d he).2.1 u e hku)
    · rw [hu u e] at hd; rw [hu v e'] at he
      exact t.refInj u v d hku hkv hd he
  · intro u; rw [hkk, hn]; exact t.normSet u
  · intro u d; rw [he, hh]; exact l.ec u d
  · intro u d; rw [hkk, hn, hh]; exact l.norm u d
  · intro u; rw [hkk, hm, hh]; exact l.mapping u
  · intro u v hku hr hne
    rw [hkk] at hku
    rw [hh, hh]
    by_cases e : u = s
    · subst e; rw [hss] at hr; exact absurd hr hne
    · rw [hu u e] at hr
      exact l.ref u v hku hr (by simp)

/-- The reference solver is told the right-hand side -/
theorem inv_sync {h : Heap} {s : Nat} (t : Tidy h) (hk : (h.solver s).kind = .extrapolator)
    (l : Local h (h.solver s).ref) :
    ∃ N h', (∀ fuel, N ≤ fuel → h.syncOdeRhs fuel s = .ok h') ∧ Inv h' := by
  cases hr : (h.solver s).ref with
  | none =>
    rw [hr] at l
    exact ⟨0, h, fun _ _ => by simp [Heap.syncOdeRhs, hr], t, l⟩
  | some v =>
    rw [hr] at l
    obtain ⟨N, h', h1, h2, h3, -⟩ := setOdeRhs_inv (r := (h.solver s).rhs) t (t.refLt s v hr) l
      (fun u hku hru => by rw [t.refInj u s v hku hk hru hr])
    exact ⟨N, h', fun fuel hf => by simp only [Heap.syncOdeRhs, hr]; exact h1 fuel hf, h2, h3⟩

/-- Predictors -/
theorem inv_predictor {h : Heap} (i : Inv h) {s : Nat} {r : Ref} (hs : s < h.next)
    (hk : (h.solver s).kind = .implicit) (hf : ∀ t, r = some t → t < h.next) :
    Inv (h.modify s ({ · with ref := r })) := by
  obtain ⟨t, l⟩ := i
  set h' := h.modify s ({ · with ref := r }) with hdef
  have hu : ∀ u, u ≠ s → h'.solver u = h.solver u := by
    intro u hu
    simp [hdef, Heap.modify, hu]
  have hss : h'.solver s = { h.solver s with ref := r } := by simp [hdef, Heap.modify]
  have hkk : ∀ u, (h'.solver u).kind = (h.solver u).kind := by
    intro u; by_cases e : u = s
    · subst e; rw [hss]
    · rw [hu u e]
  have hn : ∀ u, (h'.solver u).norm = (h.solver u).norm := by
    intro u; by_cases e : u = s
    · subst e; rw [hss]
    · rw [hu u e]
  have he : ∀ u, (h'.solver u).ec = (h.solver u).ec := by
    intro u; by_cases e : u = s
    · subst e; rw [hss]
    · rw [hu u e]
  have hh : ∀ u, (h'.solver u).rhs = (h.solver u).rhs := by
    intro u; by_cases e : u = s
    · subst e; rw [hss]
    · rw [hu u e]
  have hm : ∀ u, (h'.solver u).mapping = (h.solver u).mapping := by
    intro u; by_cases e : u = s
    · subst e; rw [hss]
    · rw [hu u e]
  have hex : ∀ u, (h.solver u).kind = .extrapolator → u ≠ s := by
    rintro u h1 rfl
    rw [hk] at h1
    cases h1
  refine ⟨⟨?_, ?_, ?_, ?_, ?_, ?_, ?_, ?_, ?_⟩, ⟨?_, ?_, ?_, ?_⟩⟩
  · intro u hle
    have : h'.next = h.next := rfl
    rw [hu u (by omega)]
    exact t.fresh u hle
  · intro u d; rw [he]; exact t.ecLt u d
  · intro u d; rw [hn]; exact t.normLt u d
  · intro u d hd
    by_cases e : u = s
    · subst e; rw [hss] at hd; exact hf d hd
    · rw [hu u e] at hd; exact t.refLt u d hd
  · intro u v d; rw [he, he]; exact t.ecInj u v d
  · intro u v d; rw [hn, hn]; exact t.normInj u v d
  · intro u v d hku hkv hd he
    rw [hkk] at hku hkv
    rw [hu u (hex u hku)] at hd
    rw [hu v (hex v hkv)] at he
    exact t.refInj u v d hku hkv hd he
  · intro u
    have := t.ends u
    induction this with
    | other hk => exact .other (by rw [hkk]; exact hk)
    | @null u hr =>
      by_cases e : u = s
      · refine .other ?_
        rw [hkk, e, hk]
        simp
      · exact .null (by rw [hu u e]; exact hr)
    | @next u v hk' hr _ ih =>
      exact .next ((hkk u).trans hk') (by rw [hu u (hex u hk')]; exact hr) ih
  · intro u; rw [hkk, hn]; exact t.normSet u
  · intro u d; rw [he, hh]; exact l.ec u d
  · intro u d; rw [hkk, hn, hh]; exact l.norm u d
  · intro u; rw [hkk, hm, hh]; exact l.mapping u
  · intro u v hku hr hne
    rw [hkk] at hku
    rw [hh, hh]
    rw [hu u (hex u hku)] at hr
    exact l.ref u v hku hr (by simp)

/-- Setting the right-hand side of a solver that is not a reference solver -/
theorem inv_setRhs {h : Heap} (i : Inv h) {s : Nat} (r : Ref) (hs : s < h.next) (hf : h.Free s) :
    ∃ N h', (∀ fuel, N ≤ fuel → h.setOdeRhs fuel s r = .ok h') ∧ Inv h' ∧ (h'.solver s).rhs = r := by
  obtain ⟨N, h', h1, h2, h3, h4⟩ := setOdeRhs_inv (r := r) i.1 hs (i.2.weaken _) (fun u hk hr => absurd hr (hf u hk))
  exact ⟨N, h', h1, ⟨h2, h3⟩, h4.rhs s .self⟩

/-- Every allowed call returns and keeps the invariant. -/
theorem exec_inv {h : Heap} (i : Inv h) (op : Op) (ha : op.Allowed h) :
    ∃ N h', (∀ fuel, N ≤ fuel → h.exec fuel op = .ok h') ∧ Inv h' := by
  cases op with
  | new k => exact ⟨0, _, fun _ _ => rfl, inv_new i k⟩
  | alloc => exact ⟨0, _, fun _ _ => rfl, inv_alloc i⟩
  | setRhs s r =>
    obtain ⟨N, h', h1, h2, -⟩ := inv_setRhs i r ha.1 ha.2
    exact ⟨N, h', h1, h2⟩
  | setEc s c => exact ⟨0, _, fun _ _ => rfl, (inv_setEc i ha.1 ha.2).1⟩
  | setNorm s n =>
    obtain ⟨h', h1, h2, -⟩ := inv_setNorm i ha.1 ha.2.2
    exact ⟨0, h', fun _ _ => h1, h2⟩
  | setRef s t =>
    obtain ⟨h1, h2⟩ := tidy_ref i ha.1 ha.2.1 ha.2.2
    obtain ⟨N, h', h3, h4⟩ := inv_sync (s := s) h1 (by simp [Heap.modify, ha.2.1]) (by simpa [Heap.modify] using h2)
    exact ⟨N, h', h3, h4⟩
  | setParameters s n c t =>
    obtain ⟨hs, hk, hn, hc, ht⟩ := ha
    obtain ⟨g1, e1, i1, f1, c1⟩ : ∃ g, (match n with
        | some n => h.setErrorNormCalculator s n
        | none => .ok h : Res Heap) = .ok g ∧ Inv g ∧ Frame h g ∧ ∀ d, h.EcFree s d → g.EcFree s d := by
      cases n with
      | none => exact ⟨h, rfl, i, .refl h, fun _ x => x⟩
      | some n => exact inv_setNorm i hs (hn n rfl)
    have hs1 : s < g1.next := by rw [f1.next]; exact hs
    obtain ⟨g2, e2, i2, f2⟩ : ∃ g, (match c with
        | some c => g1.setEventController s c
        | none => g1) = g ∧ Inv g ∧ Frame g1 g := by
      cases c with
      | none => exact ⟨g1, rfl, i1, .refl g1⟩
      | some c => exact ⟨_, rfl, inv_setEc i1 hs1 (c1 c (hc c rfl))⟩
    have f := f1.trans f2
    have hs2 : s < g2.next := by rw [f.next]; exact hs
    have hk2 : (g2.solver s).kind = .extrapolator := (f.kind s).trans hk
    obtain ⟨N, h', h3, h4⟩ : ∃ N h', (∀ fuel, N ≤ fuel → (match t with
        | some t => g2.modify s ({ · with ref := t })
        | none => g2).syncOdeRhs fuel s = .ok h') ∧ Inv h' := by
      cases t with
      | none => exact inv_sync i2.1 hk2 (i2.2.weaken _)
      | some t =>
        obtain ⟨h1, h2⟩ := tidy_ref i2 hs2 hk2 (f.refFree (ht t rfl))
        exact inv_sync (s := s) h1 (by simp [Heap.modify, hk2]) (by simpa [Heap.modify] using h2)
    refine ⟨N, h', fun fuel hf => ?_, h4⟩
    have h5 := h3 fuel hf
    cases n <;> cases c <;> dsimp only at e1 e2 <;> subst e2 <;> simp only [Heap.exec, Heap.setParameters, e1, bind_ok] <;>
      exact h5
  | setPredictor s t => exact ⟨0, _, fun _ _ => rfl, inv_predictor i ha.1 ha.2.1 ha.2.2⟩
  | prepareStep s =>
    obtain ⟨hs, hk, hf⟩ := ha
    cases hr : (h.solver s).ref with
    | none => exact ⟨0, h, fun _ _ => by simp [Heap.exec, Heap.prepareStep, hr], i⟩
    | some t =>
      obtain ⟨N, h', h1, h2, -⟩ := inv_setRhs i (h.solver s).rhs (i.1.refLt s t hr) (hf t hr)
      exact ⟨N, h', fun fuel hle => by simp only [Heap.exec, Heap.prepareStep, hr]; exact h1 fuel hle, h2⟩

theorem runs_inv {h h' : Heap} {ops : List Op} (r : Runs h ops h') (i : Inv h) : Inv h' := by
  induction r with
  | nil => exact i
  | @cons h h1 h2 op ops N ha he _ ih =>
    obtain ⟨N', g, hg, ig⟩ := exec_inv i op ha
    have := (he (max N N') (by omega)).symm.trans (hg (max N N') (by omega))
    cases this
    exact ih ig

end Verif.OdeWiring
