import Verif.Event.Ops
import Verif.Special.Lemmas

/-! # The event controller with infinities and not-a-number -/

set_option linter.unusedSectionVars false

namespace Verif.Special

open Verif.Res Verif.RK Verif.Event Fl

section
variable {K : Type} [Field K] [LinearOrder K] [IsStrictOrderedRing K]

/-- Division of `double` never traps (LinearOdeEventController.h:77). -/
instance : Divides (Fl K) := ⟨fun a b => .ok (a / b)⟩

theorem quot_eq (a b : Fl K) : Divides.quot a b = .ok (a / b) := rfl

theorem lt_trans' {p q r : Fl K} (h1 : p < q) (h2 : q < r) : p < r := by
  rcases p with a | s | _ <;> rcases q with b | s' | _ <;> rcases r with c | s'' | _ <;> simp_all
  exact lt_trans h1 h2

/-- Where on the step the code places the zero of a function with values `z1` and `z2` at its ends -/
def place (z1 z2 : Fl K) : Fl K := z1 / (z1 - z2)

/-- What the search for the earliest crossing returns. -/
theorem earliest_fl {e : Ctl (Fl K)} {n : Nat} (h1 : e.zf1.length = n) (h2 : e.zf2.length = n) (L : List Nat)
    (hL : ∀ i ∈ L, i < n) :
    ∃ t o, e.earliest L = .ok (t, o) ∧ (∀ i ∈ L, ¬ place (e.zf1.getD i 0) (e.zf2.getD i 0) < t) ∧
      ((o = none ∧ t = 1) ∨ ∃ i, o = some i ∧ i ∈ L ∧ t < 1 ∧ t = place (e.zf1.getD i 0) (e.zf2.getD i 0)) := by
  unfold Ctl.earliest
  obtain ⟨g, hg⟩ : ∃ g : (Fl K × Option Nat) → Nat → Res (Fl K × Option Nat), (fun (s : Fl K × Option Nat) i => (do
    let zf1 ← at' e.zf1 i
    let zf2 ← at' e.zf2 i
    let t ← Divides.quot zf1 (zf1 - zf2)
    .ok (if t < s.1 then (t, some i) else s) : Res (Fl K × Option Nat))) = g := ⟨_, rfl⟩
  rw [hg]
  have hstep : ∀ s i, i < n → g s i = .ok (if place (e.zf1.getD i 0) (e.zf2.getD i 0) < s.1 then
      (place (e.zf1.getD i 0) (e.zf2.getD i 0), some i) else s) := by
    intro s i hi
    rw [← hg]
    simp only
    rw [at_getD (by omega) 0, at_getD (by omega) 0]
    rfl
  clear hg
  have H : ∀ (L : List Nat) (s : Fl K × Option Nat), (∀ i ∈ L, i < n) →
      ∃ t o, L.foldlM g s = .ok (t, o) ∧ (∀ i ∈ L, ¬ place (e.zf1.getD i 0) (e.zf2.getD i 0) < t) ∧
        (∀ p, ¬ p < s.1 → ¬ p < t) ∧
        ((o = s.2 ∧ t = s.1) ∨ ∃ i, o = some i ∧ i ∈ L ∧ t < s.1 ∧ t = place (e.zf1.getD i 0) (e.zf2.getD i 0)) := by
    intro L
    induction L with
    | nil =>
      intro s _
      exact ⟨s.1, s.2, rfl, by simp, fun _ h => h, Or.inl ⟨rfl, rfl⟩⟩
    | cons i L ih =>
      intro s hL
      rw [List.foldlM_cons, hstep s i (hL i (by simp))]
      simp only [bind_ok]
      by_cases hlt : place (e.zf1.getD i 0) (e.zf2.getD i 0) < s.1
      · rw [if_pos hlt]
        obtain ⟨t, o, hr, hmin, hle, ho⟩ := ih (place (e.zf1.getD i 0) (e.zf2.getD i 0), some i) (fun j hj => hL j (by simp [hj]))
        refine ⟨t, o, hr, ?_, ?_, ?_⟩
        · intro j hj
          rcases List.mem_cons.1 hj with rfl | hj
          · apply hle
            intro h
            have := h
            simp only at this
            generalize place (e.zf1.getD j 0) (e.zf2.getD j 0) = p at this
            rcases p with a | s | _ <;> simp at this
          · exact hmin j hj
        · intro p hp
          apply hle
          intro h
          exact hp (lt_trans' h hlt)
        · right
          rcases ho with ⟨h1, h2⟩ | ⟨j, h1, h2, h3, h4⟩
          · exact ⟨i, h1, by simp, by rw [h2]; exact hlt, h2⟩
          · exact ⟨j, h1, by simp [h2], lt_trans' h3 hlt, h4⟩
      · rw [if_neg hlt]
        obtain ⟨t, o, hr, hmin, hle, ho⟩ := ih s (fun j hj => hL j (by simp [hj]))
        refine ⟨t, o, hr, ?_, hle, ?_⟩
        · intro j hj
          rcases List.mem_cons.1 hj with rfl | hj
          · exact hle _ hlt
          · exact hmin j hj
        · rcases ho with h | ⟨j, h1, h2, h3⟩
          · exact Or.inl h
          · exact Or.inr ⟨j, h1, by simp [h2], h3⟩
  obtain ⟨t, o, hr, hmin, -, ho⟩ := H L (1, none) hL
  exact ⟨t, o, hr, hmin, ho⟩

variable {V Q : Type} [Add V] [SMul (Fl K) V]

/-- What `atStepEnd` computes. -/
theorem atStepEnd_fl (r : EvRhs (Fl K) V Q) (n : Nat) (hlen : ∀ q t x, (r.zeroFunctions q t x).length = n) (q : Q)
    (e : Ctl (Fl K)) (he : Sized e n) (x1 x2 : V) (t2 : Fl K) :
    let z1 := fun i => e.zf1.getD i 0
    let z2 := fun i => (r.zeroFunctions q t2 x2).getD i 0
    let X := fun i => i < n ∧ xz (e.flags.getD i 0) (e.state.getD i 0) (z2 i) = true
    ((∀ i, ¬ X i) ∧ ∃ e', e.atStepEnd r q x1 x2 t2 = .ok ((e', q), x2, t2, Trunc.none) ∧ Sized e' n ∧
      e'.zf1 = r.zeroFunctions q t2 x2 ∧ e'.flags = e.flags ∧ e'.state = e.state) ∨
    ((∃ i, X i) ∧ (∀ i, X i → ¬ place (z1 i) (z2 i) < 1) ∧ e.atStepEnd r q x1 x2 t2 = .error (.exc "out_of_range")) ∨
    ∃ i e', X i ∧ place (z1 i) (z2 i) < 1 ∧ (∀ j, X j → ¬ place (z1 j) (z2 j) < place (z1 i) (z2 i)) ∧
      let θ := place (z1 i) (z2 i)
      let t := e.t1 + (t2 - e.t1) * θ
      let res := r.switchPhaseState q ((List.replicate n 0).set i (Event.sgn (z2 i))) t (θ • x2 + (1 - θ) • x1)
      e.atStepEnd r q x1 x2 t2 = .ok ((e', res.1), res.2, t, ⟨true, some i, Event.sgn (z2 i)⟩) ∧ Sized e' n ∧
      e'.flags = e.flags ∧
      ∀ j, j < n →
        (e.flags.getD j 0 &&& 4 ≠ 0 → e'.zf1.getD j 0 = (r.zeroFunctions res.1 t res.2).getD j 0 ∧
          e'.state.getD j 0 = sFlag ((r.zeroFunctions res.1 t res.2).getD j 0) (e.flags.getD j 0)) ∧
        (e.flags.getD j 0 &&& 4 = 0 → e'.zf1.getD j 0 = z1 j * (1 - θ) + z2 j * θ ∧
          e'.state.getD j 0 = if j = i then
              (if e.flags.getD j 0 &&& 3 = 3 then Event.sgn (z2 i) else sFlag (z1 j * (1 - θ) + z2 j * θ) (e.flags.getD j 0))
            else e.state.getD j 0) := by
  intro z1 z2 X
  obtain ⟨hclean, hhave, hpos, hzf1, hflags, hstate, hrec⟩ := he
  have hl2 := hlen q t2 x2
  simp only [z2] at X ⊢
  generalize hzf2 : r.zeroFunctions q t2 x2 = zf2 at *
  obtain ⟨e2, he2⟩ : ∃ e2 : Ctl (Fl K), { e with zf2 := zf2 } = e2 := ⟨_, rfl⟩
  have p1 : e2.zf1 = e.zf1 := by rw [← he2]
  have p2 : e2.zf2 = zf2 := by rw [← he2]
  have p3 : e2.state = e.state := by rw [← he2]
  have p4 : e2.flags = e.flags := by rw [← he2]
  have p5 : e2.t1 = e.t1 := by rw [← he2]
  have p6 : e2.haveRec = e.haveRec := by rw [← he2]
  have p7 : e2.clean = e.clean := by rw [← he2]
  have p8 : e2.haveZf = e.haveZf := by rw [← he2]
  have hcr := crossed_eq (e := e2) (n := n) (by rw [p1]; exact hzf1) (by rw [p2]; exact hl2)
    (by rw [p3]; exact hstate) (by rw [p4]; exact hflags)
  rw [p2, p3, p4] at hcr
  generalize hL : (List.range n).filter
    (fun i => xz (e.flags.getD i 0) (e.state.getD i 0) (zf2.getD i 0)) = L at hcr
  have hmem : ∀ i, i ∈ L ↔ X i := by
    intro i
    rw [← hL, List.mem_filter, List.mem_range]
    simp only [X, z2, hzf2]
  unfold Ctl.atStepEnd
  rw [if_neg (by rw [hhave]; decide)]
  simp only [hzf2, he2]
  rw [hcr]
  simp only [bind_ok]
  cases hLe : L with
  | nil =>
    left
    refine ⟨fun i hi => ?_, _, rfl, ⟨hclean, hhave, hpos, hl2, hflags, hstate, hrec⟩, rfl, rfl, rfl⟩
    have := (hmem i).2 hi
    rw [hLe] at this
    simp at this
  | cons i0 L' =>
    right
    rw [← hLe]
    have hne : L.isEmpty = false := by rw [hLe]; rfl
    have hi0 : i0 ∈ L := by rw [hLe]; simp
    simp only [hne, Bool.false_eq_true, if_false]
    have hLn : ∀ i ∈ L, i < n := fun i hi => ((hmem i).1 hi).1
    obtain ⟨t, o, hr, hmin, ho⟩ := earliest_fl (e := e2) (n := n) (by rw [p1]; exact hzf1) (by rw [p2]; exact hl2) L hLn
    rw [p1, p2] at hmin ho
    simp only [hr, bind_ok]
    rcases ho with ⟨rfl, rfl⟩ | ⟨i, rfl, hi, ht1, ht⟩
    · left
      exact ⟨⟨i0, (hmem i0).1 hi0⟩, fun j hj => hmin j ((hmem j).2 hj), rfl⟩
    · right
      have hin := hLn i hi
      have hu := afterSwitch_eq (e := e2) (n := n) r
        (by rw [p1]; exact hzf1) (by rw [p2]; exact hl2) (by rw [p3]; exact hstate)
        (by rw [p4]; exact hflags) (by rw [p6, p4]; exact hrec) hlen
      simp only [p1, p2, p3, p4] at hu ⊢
      rw [at_getD (by omega) 0]
      simp only [bind_ok]
      rw [rawSet_lt (by rw [List.length_replicate, hzf1]; exact hin)]
      simp only [bind_ok]
      rw [hzf1]
      obtain ⟨res, hsw⟩ : ∃ res, r.switchPhaseState q
        ((List.replicate n 0).set i (Event.sgn (zf2.getD i 0))) (e.t1 + (t2 - e.t1) * t) (t • x2 + (1 - t) • x1) = res := ⟨_, rfl⟩
      obtain ⟨e', hup, q1, q2, hl1, hls, hall⟩ := hu res.1 t i (Event.sgn (zf2.getD i 0)) res.2 (e.t1 + (t2 - e.t1) * t)
      refine ⟨i, e', (hmem i).1 hi, by rw [ht] at ht1; exact ht1, fun j hj => ?_, ?_⟩
      · have := hmin j ((hmem j).2 hj)
        rw [ht] at this
        exact this
      · have ht' : place (z1 i) (zf2.getD i 0) = t := ht.symm
        simp only [ht', hsw]
        rw [hup]
        simp only [bind_ok]
        refine ⟨trivial, ⟨by rw [q2.1, p7, hclean], by rw [q2.2.1, p8, hhave], hpos, hl1, by rw [q1, hflags],
          hls, by rw [q2.2.2, q1, p6, hrec]⟩, q1, hall⟩

/-! ### Agreement with exact arithmetic -/

theorem sgn_num (a : K) : Event.sgn (num a) = Event.sgn a := by
  unfold Event.sgn
  simp only [zero_def, num_lt]

theorem sFlag_num (a : K) (f : Nat) : sFlag (num a) f = sFlag a f := by
  unfold sFlag
  simp only [zero_def, num_le]
  rw [sgn_num]

theorem xz_num (f : Nat) (st : Int) (a : K) : xz f st (num a) = xz f st a := by
  unfold xz
  simp only [zero_def, num_le, num_lt]
  rw [sgn_num]

/-- The same controller with the values as `double`s -/
def liftCtl (e : Ctl K) : Ctl (Fl K) where
  clean := e.clean
  haveZf := e.haveZf
  haveRec := e.haveRec
  zf1 := e.zf1.map num
  zf2 := e.zf2.map num
  zfbuf := e.zfbuf.map num
  flags := e.flags
  state := e.state
  t1 := num e.t1

theorem at_map {α β : Type} (f : α → β) (l : List α) (i : Nat) : at' (l.map f) i = (at' l i).map f := by
  unfold at'
  rw [List.getElem?_map]
  cases l[i]? <;> rfl

theorem atSet_map {α β : Type} (f : α → β) (l : List α) (i : Nat) (a : α) :
    atSet (l.map f) i (f a) = (atSet l i a).map (List.map f) := by
  unfold atSet
  rw [List.length_map]
  split
  · simp [Except.map, List.map_set]
  · rfl

theorem loop_map {σ τ : Type} (φ : σ → τ) (f : Nat → σ → Res σ) (g : Nat → τ → Res τ)
    (h : ∀ i s, g i (φ s) = (f i s).map φ) (lo hi : Nat) (s : σ) : loop lo hi g (φ s) = (loop lo hi f s).map φ := by
  unfold loop
  generalize hi - lo = n
  induction n generalizing lo s with
  | zero => rfl
  | succ n ih =>
    unfold loopFrom
    rw [h]
    cases hf : f lo s with
    | error e => rfl
    | ok a => exact ih (lo + 1) a

theorem crossed_num (e : Ctl K) : (liftCtl e).crossed = e.crossed := by
  unfold Ctl.crossed liftCtl
  simp only [List.length_map]
  congr 1
  funext i l
  rw [at_map]
  cases at' e.zf2 i with
  | error => rfl
  | ok a =>
    simp only [Except.map, bind_ok, xz_num]

theorem earliest_num (e : Ctl K) (L : List Nat) (s : K × Option Nat) (t : K) (o : Option Nat) :
    L.foldlM (fun (s : K × Option Nat) i => (do
      let zf1 ← at' e.zf1 i
      let zf2 ← at' e.zf2 i
      let t ← Divides.quot zf1 (zf1 - zf2)
      .ok (if t < s.1 then (t, some i) else s) : Res (K × Option Nat))) s = .ok (t, o) →
    L.foldlM (fun (s : Fl K × Option Nat) i => (do
      let zf1 ← at' (e.zf1.map num) i
      let zf2 ← at' (e.zf2.map num) i
      let t ← Divides.quot zf1 (zf1 - zf2)
      .ok (if t < s.1 then (t, some i) else s) : Res (Fl K × Option Nat))) (num s.1, s.2) = .ok (num t, o) := by
  induction L generalizing s with
  | nil =>
    intro h
    have := Except.ok.inj h
    subst this
    rfl
  | cons i L ih =>
    rw [List.foldlM_cons, List.foldlM_cons, at_map, at_map]
    cases at' e.zf1 i with
    | error => intro h; cases h
    | ok z1 =>
      cases at' e.zf2 i with
      | error => intro h; cases h
      | ok z2 =>
        simp only [Except.map, bind_ok, num_sub]
        by_cases hz : z1 - z2 = 0
        · intro h
          rw [show (Divides.quot z1 (z1 - z2) : Res K) = .error .divZero from if_pos hz] at h
          cases h
        · rw [show (Divides.quot z1 (z1 - z2) : Res K) = .ok (z1 / (z1 - z2)) from if_neg hz, quot_eq, num_div hz]
          simp only [bind_ok, num_lt]
          intro h
          have := ih _ h
          rw [← this]
          congr 1
          split <;> rfl

theorem updateOne_num (e : Ctl K) (tmin : K) (itmin : Nat) (cur : Int) (i : Nat) (s : List K × List Int) :
    (liftCtl e).updateOne (num tmin) itmin cur i (s.1.map num, s.2) =
      (e.updateOne tmin itmin cur i s).map (fun s => (s.1.map num, s.2)) := by
  unfold Ctl.updateOne liftCtl
  simp only
  rw [at_map]
  cases at' s.1 i with
  | error => rfl
  | ok z1 =>
    simp only [Except.map, bind_ok]
    cases raw e.flags i with
    | error => rfl
    | ok f =>
      simp only [bind_ok]
      have fin : ∀ z : K, (do
          let zf1 ← atSet (s.1.map num) i (num z)
          let st ← (if (f &&& 4 != 0) = true then rawSet s.2 i (sFlag (num z) f)
            else if i = itmin then (if f &&& 3 = 3 then rawSet s.2 i cur else rawSet s.2 i (sFlag (num z) f))
            else .ok s.2 : Res (List Int))
          (.ok (zf1, st) : Res (List (Fl K) × List Int))) = (do
          let zf1 ← atSet s.1 i z
          let st ← (if (f &&& 4 != 0) = true then rawSet s.2 i (sFlag z f)
            else if i = itmin then (if f &&& 3 = 3 then rawSet s.2 i cur else rawSet s.2 i (sFlag z f))
            else .ok s.2 : Res (List Int))
          (.ok (zf1, st) : Res (List K × List Int))).map (fun s : List K × List Int => (s.1.map num, s.2)) := by
        intro z
        rw [atSet_map, sFlag_num]
        cases atSet s.1 i z with
        | error => rfl
        | ok l =>
          simp only [Except.map, bind_ok]
          generalize (if (f &&& 4 != 0) = true then rawSet s.2 i (sFlag z f)
            else if i = itmin then (if f &&& 3 = 3 then rawSet s.2 i cur else rawSet s.2 i (sFlag z f))
            else .ok s.2 : Res (List Int)) = w
          cases w <;> rfl
      by_cases hr : (f &&& 4 != 0) = true
      · simp only [hr, if_true] at fin ⊢
        rw [at_map]
        cases at' e.zfbuf i with
        | error => rfl
        | ok z => exact fin z
      · simp only [hr, Bool.false_eq_true, if_false] at fin ⊢
        rw [at_map]
        cases at' e.zf2 i with
        | error => rfl
        | ok z2 =>
          simp only [Except.map, bind_ok, one_def, num_sub, num_mul, num_add]
          exact fin _

end

end Verif.Special
