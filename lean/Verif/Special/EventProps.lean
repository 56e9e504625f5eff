import Verif.Special.EventLemmas
import Mathlib.Algebra.Order.Field.Rat

/-! # C139: event functions that are not numbers -/

set_option linter.unusedSectionVars false

namespace Verif.Special

open Verif.Res Verif.RK Verif.Event Fl

section
variable {K : Type} [Field K] [LinearOrder K] [IsStrictOrderedRing K]

/-- A step that ends with the value `z` leaves the side a function with these flags is watched on; `st` is the remembered
sign. Not-a-number is neither less than zero nor greater. -/
def Leaves (f : Nat) (st : Int) (z : Fl K) : Prop :=
  (f &&& 3 = 1 ∧ ((st = 1 ∧ z ≤ 0) ∨ (st = 0 ∧ z < 0))) ∨
  (f &&& 3 = 2 ∧ ((st = -1 ∧ 0 ≤ z) ∨ (st = 0 ∧ 0 < z))) ∨
  (f &&& 3 = 3 ∧ ¬ ((z < 0 ∧ st = -1) ∨ (¬ z < 0 ∧ ¬ 0 < z ∧ st = 0) ∨ (0 < z ∧ st = 1)))

theorem xz_leaves (f : Nat) (st : Int) (z : Fl K) : xz f st z = true ↔ Leaves f st z := by
  unfold xz Leaves
  have h3 : f &&& 3 ≤ 3 := Nat.and_le_right
  have h4 : f &&& 3 = 0 ∨ f &&& 3 = 1 ∨ f &&& 3 = 2 ∨ f &&& 3 = 3 := by omega
  rcases h4 with h4 | h4 | h4 | h4 <;> simp [h4]
  unfold Event.sgn
  have hno : ¬ (z < 0 ∧ 0 < z) := by
    rintro ⟨h1, h2⟩
    rcases z with a | s | _
    · simp only [zero_def, num_lt] at h1 h2
      exact absurd h1 (not_lt.2 h2.le)
    · simp only [zero_def, inf_lt_num, num_lt_inf] at h1 h2
      rw [h1] at h2
      exact absurd h2 (by decide)
    · simp at h1
  by_cases h1 : z < 0
  · have h2 : ¬ 0 < z := fun h => hno ⟨h1, h⟩
    simp [h1, h2]
    exact not_congr eq_comm
  · by_cases h2 : 0 < z
    · simp [h1, h2]
      exact not_congr eq_comm
    · simp [h1, h2]
      exact not_congr eq_comm

/-- Not-a-number leaves no side of a function watched in one direction. -/
theorem not_leaves_nan {f : Nat} {st : Int} (h : f &&& 3 ≠ 3) : ¬ Leaves f st (nan : Fl K) := by
  unfold Leaves
  simp [h]

theorem leaves_num {f : Nat} {st : Int} {v : K} : Leaves f st (num v) ↔ Crosses f st v := by
  rw [← xz_leaves, xz_num, xz_iff]

/-- Where the zero of a watched function is placed. -/
theorem place_num {f : Nat} {st : Int} {u : K} (hs : Side f st u) {z : Fl K} (hx : Leaves f st z) :
    (z = nan ∧ place (num u) z = nan) ∨ (∃ s, z = inf s ∧ place (num u) z = num 0) ∨
    (∃ v, z = num v ∧ u = v ∧ v = 0 ∧ place (num u) z = nan) ∨
    ∃ v, z = num v ∧ u ≠ v ∧ place (num u) z = num (u / (u - v)) ∧ 0 ≤ u / (u - v) ∧ u / (u - v) ≤ 1 ∧
      (u / (u - v) = 1 → v = 0) := by
  unfold place
  rcases z with v | s | _
  · right; right
    have hx' : xz f st v = true := by rw [← xz_num, xz_leaves]; exact hx
    have hc := hs.cross hx'
    by_cases huv : u = v
    · left
      refine ⟨v, rfl, huv, ?_, ?_⟩
      · subst huv
        rcases hc with ⟨h1, h2⟩ | ⟨h1, h2⟩ <;> exact le_antisymm (by assumption) (by assumption)
      · subst huv
        have h0 : u = 0 := by rcases hc with ⟨h1, h2⟩ | ⟨h1, h2⟩ <;> exact le_antisymm (by assumption) (by assumption)
        subst h0
        simp only [num_sub, sub_self]
        change Fl.div _ _ = _
        simp [Fl.div]
    · right
      have hd : u - v ≠ 0 := sub_ne_zero.2 huv
      refine ⟨v, rfl, huv, by rw [num_sub, num_div hd], ?_, ?_, ?_⟩
      · rcases hc with ⟨h1, h2⟩ | ⟨h1, h2⟩
        · exact div_nonneg h1 (by linarith)
        · exact div_nonneg_of_nonpos h1 (by linarith)
      · rcases hc with ⟨h1, h2⟩ | ⟨h1, h2⟩
        · rw [div_le_one (lt_of_le_of_ne (by linarith) (Ne.symm hd))]; linarith
        · rw [div_le_one_of_neg (lt_of_le_of_ne (by linarith) hd)]; linarith
      · intro h
        rw [div_eq_one_iff_eq hd] at h
        linarith
  · right; left
    refine ⟨s, rfl, ?_⟩
    change num u / (num u + inf (!s)) = _
    simp
  · left
    exact ⟨rfl, by simp⟩

/-- A function remembered with no number is placed nowhere. -/
theorem place_none {y : Fl K} (hy : ∀ a, y ≠ num a) (z : Fl K) : place y z = nan := by
  unfold place
  rcases y with a | s | _
  · exact absurd rfl (hy a)
  · rcases z with b | s' | _
    · change (inf s : Fl K) / (inf s + num (-b)) = _
      simp
    · change (inf s : Fl K) / (inf s + inf (!s')) = _
      rcases s <;> rcases s' <;> rfl
    · simp
  · simp

/-- The controller watches `n` functions. What it remembers of each is no number, or a number on the side it is watched on. -/
structure Remembers (e : Ctl (Fl K)) (n : Nat) : Prop extends Sized e n where
  side : ∀ i, i < n → (∀ a, e.zf1.getD i 0 ≠ num a) ∨
    ∃ u, e.zf1.getD i 0 = num u ∧ Side (e.flags.getD i 0) (e.state.getD i 0) u

variable {V Q : Type} [Add V] [SMul (Fl K) V]

theorem atStepStart_fl (r : EvRhs (Fl K) V Q) {n : Nat} (q : Q) (e : Ctl (Fl K)) (x : V) (t : Fl K)
    (hc : e.clean = true) (hpos : 0 < n) (hcount : r.zeroFuncCount q = n)
    (hflags : (r.zeroFuncFlags q).length = n) (hlen : (r.zeroFunctions q t x).length = n) :
    ∃ e', e.atStepStart r q x t = .ok e' ∧ e'.clean = false ∧ e'.haveZf = true ∧
      e'.zf1 = r.zeroFunctions q t x ∧ e'.flags = r.zeroFuncFlags q ∧ e'.state.length = n ∧
      e'.haveRec = (r.zeroFuncFlags q).any (fun f => f &&& 4 != 0) ∧ e'.t1 = t ∧
      ∀ i, i < n → e'.state.getD i 0
        = sFlag ((r.zeroFunctions q t x).getD i 0) ((r.zeroFuncFlags q).getD i 0) := by
  unfold Ctl.atStepStart
  rw [if_pos hc]
  have hz : (Ctl.initClean r q { e with t1 := t }).haveZf = true := by
    simp [Ctl.initClean, hcount, hpos]
  simp only
  rw [if_pos hz]
  have hf : (Ctl.initClean r q { e with t1 := t }).flags = r.zeroFuncFlags q := rfl
  have hs : (Ctl.initClean r q { e with t1 := t }).state = List.replicate n 0 := by
    simp [Ctl.initClean, hcount]
  have := loop_post (lo := 0) (hi := (r.zeroFunctions q t x).length)
    (s := List.replicate n (0 : Int))
    (f := fun i (st : List Int) => do
        let z ← at' (r.zeroFunctions q t x) i
        let f ← raw (r.zeroFuncFlags q) i
        rawSet st i (sFlag z f))
    (fun k st => st.length = n ∧ ∀ i, i < k → st.getD i 0
        = sFlag ((r.zeroFunctions q t x).getD i 0) ((r.zeroFuncFlags q).getD i 0))
    (E := fun _ => False) (Nat.zero_le _) ⟨by simp, fun i hi => absurd hi (Nat.not_lt_zero i)⟩ (by
      rintro j st - hj ⟨hl, hst⟩
      rw [at_getD hj 0, raw_getD (by omega) 0]
      simp only [bind_ok]
      rw [rawSet_lt (by omega), post_ok]
      refine ⟨by simpa using hl, ?_⟩
      intro i hi
      rw [getD_set (by omega)]
      by_cases hij : i = j
      · rw [if_pos hij, hij]
      · rw [if_neg hij]; exact hst i (by omega))
  rw [post_false_iff] at this
  obtain ⟨st, h1, h2, h3⟩ := this
  rw [hf, hs, h1]
  simp only [bind_ok]
  exact ⟨_, rfl, rfl, hz, rfl, rfl, h2, rfl, rfl, fun i hi => h3 i (by omega)⟩

/-- C139: what is remembered at the start of a run. A function watched in one direction whose value is not a number counts as
being on the side it is watched on; one watched in both directions counts as zero. -/
theorem C139_start (r : EvRhs (Fl K) V Q) {n : Nat} (q : Q) (e : Ctl (Fl K)) (x : V) (t : Fl K)
    (hc : e.clean = true) (hpos : 0 < n) (hcount : r.zeroFuncCount q = n)
    (hflags : (r.zeroFuncFlags q).length = n) (hlen : (r.zeroFunctions q t x).length = n) :
    let z := fun i => (r.zeroFunctions q t x).getD i 0
    let f := fun i => (r.zeroFuncFlags q).getD i 0
    ∃ e', e.atStepStart r q x t = .ok e' ∧ Sized e' n ∧ e'.zf1 = r.zeroFunctions q t x ∧ e'.flags = r.zeroFuncFlags q ∧ e'.t1 = t ∧
      (∀ i, i < n →
        (f i &&& 3 = 1 → (z i ≤ 0 → e'.state.getD i 0 = 0) ∧ (0 < z i ∨ z i = nan → e'.state.getD i 0 = 1)) ∧
        (f i &&& 3 = 2 → (0 ≤ z i → e'.state.getD i 0 = 0) ∧ (z i < 0 ∨ z i = nan → e'.state.getD i 0 = -1)) ∧
        (f i &&& 3 = 3 → (z i < 0 → e'.state.getD i 0 = -1) ∧ (0 < z i → e'.state.getD i 0 = 1) ∧
          (z i = 0 ∨ z i = nan → e'.state.getD i 0 = 0))) ∧
      ((∀ i, i < n → f i &&& 3 ≠ 0 ∧ ∀ u, z i = num u → (f i &&& 3 = 1 → 0 ≤ u) ∧ (f i &&& 3 = 2 → u ≤ 0)) → Remembers e' n) := by
  intro z f
  obtain ⟨e', h1, h2, h3, h4, h5, h6, h7, h8, h9⟩ := atStepStart_fl r q e x t hc hpos hcount hflags hlen
  have hs : Sized e' n := ⟨h2, h3, hpos, by rw [h4]; exact hlen, by rw [h5]; exact hflags, h6, by rw [h7, h5]⟩
  refine ⟨e', h1, hs, h4, h5, h8, fun i hi => ?_, fun hside => ⟨hs, fun i hi => ?_⟩⟩
  · rw [h9 i hi]
    have h9 : sFlag ((r.zeroFunctions q t x).getD i 0) ((r.zeroFuncFlags q).getD i 0) = sFlag (z i) (f i) := rfl
    rw [h9]
    generalize z i = z
    generalize f i = f
    unfold sFlag Event.sgn
    refine ⟨fun h => ?_, fun h => ?_, fun h => ?_⟩ <;> rw [h] <;> rcases z with a | s | _ <;> simp [zero_def]
    · exact ⟨fun h h' => absurd h (not_lt.2 h'), fun h => by rw [if_neg (not_lt.2 h.le), if_pos h], fun h => by simp [h]⟩
    · cases s <;> simp
  · obtain ⟨a, b⟩ := hside i hi
    rw [h4, h5, h9 i hi]
    by_cases hz : ∃ u, z i = num u
    · obtain ⟨u, hu⟩ := hz
      refine Or.inr ⟨u, hu, ?_⟩
      have hu' : (r.zeroFunctions q t x).getD i 0 = num u := hu
      rw [hu', sFlag_num]
      exact Side.sFlag a (b u hu).1 (b u hu).2
    · exact Or.inl fun u hu => hz ⟨u, hu⟩

/-- C139: what comes of a step, whatever the values of the event functions at its end are. It is accepted if no function
leaves its side. Otherwise it is cut at a number between its ends, at the zero of a function with a number or an infinity at
the end; at its start if there is an infinity; or an exception is thrown, if all functions that leave their sides are not a
number at the end, or zero there, or no number is remembered of them. -/
theorem C139_outcome (r : EvRhs (Fl K) V Q) (n : Nat) (hlen : ∀ q t x, (r.zeroFunctions q t x).length = n) (q : Q)
    (e : Ctl (Fl K)) (he : Remembers e n) (x1 x2 : V) (a b : K) (hab : a ≤ b) (ht : e.t1 = num a) :
    let y := fun i => e.zf1.getD i 0
    let z := fun i => (r.zeroFunctions q (num b) x2).getD i 0
    let X := fun i => i < n ∧ Leaves (e.flags.getD i 0) (e.state.getD i 0) (z i)
    ((∀ i, ¬ X i) ∧ ∃ e', e.atStepEnd r q x1 x2 (num b) = .ok ((e', q), x2, num b, Trunc.none) ∧ Sized e' n ∧
      e'.zf1 = r.zeroFunctions q (num b) x2 ∧ e'.flags = e.flags ∧ e'.state = e.state) ∨
    ((∃ i, X i) ∧ (∀ i, X i → z i = nan ∨ z i = 0 ∨ ∀ u, y i ≠ num u) ∧
      e.atStepEnd r q x1 x2 (num b) = .error (.exc "out_of_range")) ∨
    ∃ i e' u θ, X i ∧ y i = num u ∧ z i ≠ nan ∧ 0 ≤ θ ∧ θ < 1 ∧ (a ≤ a + (b - a) * θ ∧ a + (b - a) * θ ≤ b) ∧
      (∀ v, z i = num v → (1 - θ) * u + θ * v = 0) ∧
      (∀ j, X j → ∀ w, y j = num w → (∀ s, z j = inf s → θ = 0) ∧ ∀ v, z j = num v → w ≠ v → θ ≤ w / (w - v)) ∧
      let t := num (a + (b - a) * θ)
      let res := r.switchPhaseState q ((List.replicate n 0).set i (if z i < 0 then -1 else if 0 < z i then 1 else 0)) t
        (num θ • x2 + num (1 - θ) • x1)
      e.atStepEnd r q x1 x2 (num b) = .ok ((e', res.1), res.2, t, ⟨true, some i, if z i < 0 then -1 else if 0 < z i then 1 else 0⟩) ∧
      Sized e' n ∧ e'.flags = e.flags ∧
      ∀ j, j < n →
        (e.flags.getD j 0 &&& 4 ≠ 0 → e'.zf1.getD j 0 = (r.zeroFunctions res.1 t res.2).getD j 0) ∧
        (e.flags.getD j 0 &&& 4 = 0 → e'.zf1.getD j 0 = y j * num (1 - θ) + z j * num θ) := by
  intro y z X
  have key := atStepEnd_fl r n hlen q e he.toSized x1 x2 (num b)
  simp only [xz_leaves] at key
  rcases key with h | ⟨h1, h2, h3⟩ | ⟨i, e', hi, hlt, hmin, hrest⟩
  · exact Or.inl h
  · right; left
    refine ⟨h1, fun i hi => ?_, h3⟩
    have hp := h2 i hi
    rcases he.side i hi.1 with hn | ⟨u, hu, hs⟩
    · exact Or.inr (Or.inr hn)
    · rw [hu] at hp
      rcases place_num hs hi.2 with ⟨h, -⟩ | ⟨s, -, h⟩ | ⟨v, hv, -, h0, -⟩ | ⟨v, hv, -, h, -, hle, h1⟩
      · exact Or.inl h
      · rw [h] at hp
        simp [one_def] at hp
      · right; left
        rw [hv, h0]; rfl
      · right; left
        rw [h, one_def, num_lt, not_lt] at hp
        rw [hv, h1 (le_antisymm hle hp)]; rfl
  · right; right
    rcases he.side i hi.1 with hn | ⟨u, hu, hs⟩
    · rw [place_none hn] at hlt
      simp at hlt
    have hval : ∃ θ, place (y i) (z i) = num θ ∧ z i ≠ nan ∧ 0 ≤ θ ∧ θ < 1 ∧ ∀ v, z i = num v → (1 - θ) * u + θ * v = 0 := by
      change place (y i) (z i) < 1 at hlt
      rcases place_num hs hi.2 with ⟨-, h⟩ | ⟨s, hz, h⟩ | ⟨v, hv, -, h0, h⟩ | ⟨v, hv, huv, h, h0, hle, -⟩
      · rw [show y i = num u from hu, h] at hlt
        simp at hlt
      · refine ⟨0, by rw [show y i = num u from hu, h], ?_, le_refl _, one_pos, ?_⟩
        · rw [show z i = inf s from hz]; simp
        · intro v hv
          rw [show z i = inf s from hz] at hv
          cases hv
      · rw [show y i = num u from hu, h] at hlt
        simp at hlt
      · rw [show y i = num u from hu, h, one_def, num_lt] at hlt
        refine ⟨u / (u - v), by rw [show y i = num u from hu, h], ?_, h0, hlt, ?_⟩
        · rw [show z i = num v from hv]; simp
        · intro v' hv'
          rw [show z i = num v from hv] at hv'
          cases hv'
          have : u - v ≠ 0 := sub_ne_zero.2 huv
          field_simp
          ring
    obtain ⟨θ, hp, hz, h0, h1, hzero⟩ := hval
    refine ⟨i, e', u, θ, hi, hu, hz, h0, h1, ⟨?_, ?_⟩, hzero, ?_, ?_⟩
    · have := mul_nonneg (sub_nonneg.2 hab) h0
      linarith
    · have := mul_le_mul_of_nonneg_left h1.le (sub_nonneg.2 hab)
      linarith
    · intro j hj w hw
      have hm := hmin j hj
      change ¬ place (y j) (z j) < place (y i) (z i) at hm
      rw [hp, hw] at hm
      have hsj : Side (e.flags.getD j 0) (e.state.getD j 0) w := by
        rcases he.side j hj.1 with hn | ⟨w', hw', hs'⟩
        · exact absurd hw (hn w)
        · have : num w = num w' := by rw [← hw, ← hw']
          cases this
          exact hs'
      constructor
      · intro s hz'
        rcases place_num hsj hj.2 with ⟨h, -⟩ | ⟨s', -, h⟩ | ⟨v, h, -⟩ | ⟨v, h, -⟩
        · exact absurd ((show z j = nan from h).symm.trans hz') (by simp)
        · rw [show (place (num w) (z j)) = num 0 from h, num_lt, not_lt] at hm
          exact le_antisymm hm h0
        · exact absurd ((show z j = num v from h).symm.trans hz') (by simp)
        · exact absurd ((show z j = num v from h).symm.trans hz') (by simp)
      · intro v hv hne
        rcases place_num hsj hj.2 with ⟨h, -⟩ | ⟨s', h, -⟩ | ⟨v', h, h', -⟩ | ⟨v', h, -, h', -⟩
        · exact absurd ((show z j = nan from h).symm.trans hv) (by simp)
        · exact absurd ((show z j = inf s' from h).symm.trans hv) (by simp)
        · have := (show z j = num v' from h).symm.trans hv
          cases this
          exact absurd h' hne
        · have := (show z j = num v' from h).symm.trans hv
          cases this
          rw [show (place (num w) (z j)) = num (w / (w - v)) from h', num_lt, not_lt] at hm
          exact hm
    · have hp' : place (e.zf1.getD i 0) ((r.zeroFunctions q (num b) x2).getD i 0) = num θ := hp
      simp only [hp', ht, num_sub, num_mul, num_add, one_def] at hrest
      obtain ⟨g1, g2, g3, g4⟩ := hrest
      exact ⟨g1, g2, g3, fun j hj => ⟨fun h => ((g4 j hj).1 h).1, fun h => ((g4 j hj).2 h).1⟩⟩

/-- C139: a function of which no number is remembered is never located, and after an event located by another one there is
again no number remembered of it, unless it is recomputed. -/
theorem C139_never (r : EvRhs (Fl K) V Q) (n : Nat) (hlen : ∀ q t x, (r.zeroFunctions q t x).length = n) (q q' : Q)
    (e e' : Ctl (Fl K)) (he : Remembers e n) (x1 x2 x : V) (a b : K) (hab : a ≤ b) (ht : e.t1 = num a) (t : Fl K) (tr : Trunc)
    (hrun : e.atStepEnd r q x1 x2 (num b) = .ok ((e', q'), x, t, tr)) (k : Nat) (hk : k < n)
    (hy : ∀ u, e.zf1.getD k 0 ≠ num u) :
    tr.izf ≠ some k ∧
    (tr.truncated = true → e.flags.getD k 0 &&& 4 = 0 → ∀ u, e'.zf1.getD k 0 ≠ num u) := by
  rcases C139_outcome r n hlen q e he x1 x2 a b hab ht with ⟨-, e1, h, -⟩ | ⟨-, -, h⟩ | ⟨i, e1, u, θ, -, hu, -, h0, h1, -, -, -, h, -, -, hz⟩
  · rw [h] at hrun
    cases hrun
    exact ⟨by simp [Trunc.none], by simp [Trunc.none]⟩
  · rw [h] at hrun
    cases hrun
  · rw [h] at hrun
    have := Except.ok.inj hrun
    simp only [Prod.mk.injEq] at this
    obtain ⟨⟨rfl, -⟩, -, -, rfl⟩ := this
    refine ⟨?_, fun _ hf u' => ?_⟩
    · simp only [ne_eq, Option.some.injEq]
      rintro rfl
      exact hy u hu
    · rw [(hz k hk).2 hf]
      simp only
      generalize e.zf1.getD k 0 = y at hy
      rcases y with w | s | _
      · exact absurd rfl (hy w)
      · have : (inf s : Fl K) * num (1 - θ) = inf s := by
          change Fl.mul _ _ = _
          have h1' : ¬ (1 - θ < 0) := by linarith
          simp [Fl.mul, Fl.sgn, h1', (by linarith : 1 - θ ≠ 0)]
        rw [this]
        generalize (r.zeroFunctions q (num b) x2).getD k 0 * num θ = p
        rcases p with w | s' | _
        · simp
        · change Fl.add _ _ ≠ _
          unfold Fl.add
          split <;> simp_all
          split <;> simp
        · simp
      · simp

/-- C139: a function that is infinite at the end of a step cut by an event is remembered with no number, unless it is
recomputed. -/
theorem C139_infinite (r : EvRhs (Fl K) V Q) (n : Nat) (hlen : ∀ q t x, (r.zeroFunctions q t x).length = n) (q q' : Q)
    (e e' : Ctl (Fl K)) (he : Remembers e n) (x1 x2 x : V) (a b : K) (hab : a ≤ b) (ht : e.t1 = num a) (t : Fl K) (tr : Trunc)
    (hrun : e.atStepEnd r q x1 x2 (num b) = .ok ((e', q'), x, t, tr)) (htr : tr.truncated = true) (k : Nat) (hk : k < n) (s : Bool)
    (hz : (r.zeroFunctions q (num b) x2).getD k 0 = inf s) (hf : e.flags.getD k 0 &&& 4 = 0) :
    (∀ u, e'.zf1.getD k 0 ≠ num u) ∧ (tr.izf = some k → e'.zf1.getD k 0 = nan ∧ t = num a) := by
  rcases C139_outcome r n hlen q e he x1 x2 a b hab ht with ⟨-, e1, h, -⟩ | ⟨-, -, h⟩ | ⟨i, e1, u, θ, hX, hu, -, h0, h1, -, -, hall, h, -, -, hv⟩
  · rw [h] at hrun
    cases hrun
    simp [Trunc.none] at htr
  · rw [h] at hrun
    cases hrun
  · rw [h] at hrun
    have := Except.ok.inj hrun
    simp only [Prod.mk.injEq] at this
    obtain ⟨⟨rfl, -⟩, -, rfl, rfl⟩ := this
    rw [(hv k hk).2 hf]
    simp only [hz]
    have hm : (inf s : Fl K) * num θ = if θ = 0 then nan else inf (s != Fl.sgn θ) := rfl
    refine ⟨fun u' => ?_, fun hk' => ?_⟩
    · rw [hm]
      generalize e.zf1.getD k 0 * num (1 - θ) = p
      split
      · simp
      · rcases p with w | s' | _
        · simp
        · change Fl.add _ _ ≠ _
          unfold Fl.add
          split <;> simp_all
          split <;> simp
        · simp
    · simp only [Option.some.injEq] at hk'
      subst hk'
      have hθ : θ = 0 := (hall i hX u hu).1 s hz
      subst hθ
      rw [hm, if_pos rfl]
      simp

/-- The part of `atStepEnd` after the functions have been computed at the end of the step -/
private def tail {R S P : Type} [Zero R] [One R] [Add R] [Sub R] [Mul R] [Divides R] [LT R] [LE R] [DecidableLT R]
    [DecidableLE R] [Add S] [SMul R S] (r : EvRhs R S P) (q : P) (e : Ctl R) (x1 x2 : S) (t2 : R) :
    Res ((Ctl R × P) × S × R × Trunc) := do
  let zfi ← e.crossed
  if zfi.isEmpty then
    .ok (({ e with zf1 := e.zf2, zf2 := e.zf1 }, q), x2, t2, Trunc.none)
  else do
    let (tmin, itmin) ← e.earliest zfi
    match itmin with
    | none => .error (.exc "out_of_range")
    | some i => do
      let z2 ← at' e.zf2 i
      let transitions ← rawSet (List.replicate e.zf1.length (0 : Int)) i (Event.sgn z2)
      let p := r.switchPhaseState q transitions (e.t1 + (t2 - e.t1) * tmin) (tmin • x2 + (1 - tmin) • x1)
      let e' ← e.afterSwitch r p.1 tmin i (Event.sgn z2) p.2 (e.t1 + (t2 - e.t1) * tmin)
      .ok ((e', p.1), p.2, e.t1 + (t2 - e.t1) * tmin, ⟨true, some i, Event.sgn z2⟩)

/-- C139: with numbers the controller does what it does in exact arithmetic, whenever that ends without a fault. `lift` turns
states into vectors of `double`. -/
theorem C139_agree {W : Type} [Add W] [SMul K W] (lift : W → V)
    (hlift : ∀ (s t : K) (x y : W), lift (s • x + t • y) = num s • lift x + num t • lift y)
    (r : EvRhs K W Q) (rf : EvRhs (Fl K) V Q)
    (hzf : ∀ q t x, rf.zeroFunctions q (num t) (lift x) = (r.zeroFunctions q t x).map num)
    (hsw : ∀ q l t x, rf.switchPhaseState q l (num t) (lift x) =
      ((r.switchPhaseState q l t x).1, lift (r.switchPhaseState q l t x).2))
    (htr : ∀ q t x, rf.truncateStep q (num t) (lift x) =
      ((r.truncateStep q t x).1, num (r.truncateStep q t x).2.1, lift (r.truncateStep q t x).2.2))
    (q q' : Q) (e e' : Ctl K) (x1 x2 x : W) (t2 t : K) (tr : Trunc)
    (hrun : e.atStepEnd r q x1 x2 t2 = .ok ((e', q'), x, t, tr)) :
    (liftCtl e).atStepEnd rf q (lift x1) (lift x2) (num t2) = .ok ((liftCtl e', q'), lift x, num t, tr) := by
  unfold Ctl.atStepEnd at hrun ⊢
  have hh : (liftCtl e).haveZf = e.haveZf := rfl
  rw [hh]
  by_cases hz : (!e.haveZf) = true
  · rw [if_pos hz] at hrun ⊢
    rw [htr]
    have := Except.ok.inj hrun
    simp only [Prod.mk.injEq] at this
    obtain ⟨⟨rfl, rfl⟩, rfl, rfl, rfl⟩ := this
    rfl
  · rw [if_neg hz] at hrun ⊢
    rw [hzf]
    change tail r q { e with zf2 := r.zeroFunctions q t2 x2 } x1 x2 t2 = _ at hrun
    change tail rf q (liftCtl { e with zf2 := r.zeroFunctions q t2 x2 }) (lift x1) (lift x2) (num t2) = _
    generalize hE : ({ e with zf2 := r.zeroFunctions q t2 x2 } : Ctl K) = E at hrun ⊢
    unfold tail at hrun ⊢
    rw [crossed_num]
    cases hc : E.crossed with
    | error => rw [hc] at hrun; cases hrun
    | ok L =>
      rw [hc] at hrun
      simp only [bind_ok] at hrun ⊢
      by_cases hL : L.isEmpty = true
      · rw [if_pos hL] at hrun ⊢
        have := Except.ok.inj hrun
        simp only [Prod.mk.injEq] at this
        obtain ⟨⟨rfl, rfl⟩, rfl, rfl, rfl⟩ := this
        rfl
      · rw [if_neg hL] at hrun ⊢
        cases hr : E.earliest L with
        | error => rw [hr] at hrun; cases hrun
        | ok s =>
          obtain ⟨tmin, o⟩ := s
          have hr' : (liftCtl E).earliest L = .ok (num tmin, o) := earliest_num E L (1, none) tmin o hr
          rw [hr] at hrun
          rw [hr']
          simp only [bind_ok] at hrun ⊢
          cases o with
          | none => cases hrun
          | some i =>
            simp only at hrun ⊢
            rw [show at' (liftCtl E).zf2 i = (at' E.zf2 i).map num from at_map _ _ _]
            cases ha : at' E.zf2 i with
            | error => rw [ha] at hrun; cases hrun
            | ok z2 =>
              rw [ha] at hrun
              simp only [Except.map, bind_ok] at hrun ⊢
              rw [sgn_num, show (liftCtl E).zf1.length = E.zf1.length from List.length_map _]
              cases hs : rawSet (List.replicate E.zf1.length (0 : Int)) i (Event.sgn z2) with
              | error => rw [hs] at hrun; cases hrun
              | ok l =>
                rw [hs] at hrun
                simp only [bind_ok] at hrun ⊢
                have ht : (liftCtl E).t1 + (num t2 - (liftCtl E).t1) * num tmin = num (E.t1 + (t2 - E.t1) * tmin) := by
                  change num E.t1 + (num t2 - num E.t1) * num tmin = _
                  simp
                have hx : num tmin • lift x2 + (1 - num tmin) • lift x1 = lift (tmin • x2 + (1 - tmin) • x1) := by
                  rw [hlift, one_def, num_sub]
                rw [ht, hx, hsw]
                generalize r.switchPhaseState q l (E.t1 + (t2 - E.t1) * tmin) (tmin • x2 + (1 - tmin) • x1) = res at hrun ⊢
                obtain ⟨q1, x3⟩ := res
                simp only at hrun ⊢
                have haft : ∀ f, E.afterSwitch r q1 tmin i (Event.sgn z2) x3 (E.t1 + (t2 - E.t1) * tmin) = .ok f →
                    (liftCtl E).afterSwitch rf q1 (num tmin) i (Event.sgn z2) (lift x3) (num (E.t1 + (t2 - E.t1) * tmin)) =
                      .ok (liftCtl f) := by
                  intro f hf
                  unfold Ctl.afterSwitch at hf ⊢
                  rw [hzf]
                  have hb : (if (liftCtl E).haveRec = true then (r.zeroFunctions q1 (E.t1 + (t2 - E.t1) * tmin) x3).map num
                      else (liftCtl E).zfbuf) = (if E.haveRec = true then r.zeroFunctions q1 (E.t1 + (t2 - E.t1) * tmin) x3
                      else E.zfbuf).map num := by
                    change (if E.haveRec = true then _ else E.zfbuf.map num) = _
                    split <;> rfl
                  rw [hb]
                  generalize (if E.haveRec = true then r.zeroFunctions q1 (E.t1 + (t2 - E.t1) * tmin) x3 else E.zfbuf) = buf at hf ⊢
                  have hloop := loop_map (fun s : List K × List Int => (s.1.map num, s.2))
                    (({ E with zfbuf := buf } : Ctl K).updateOne tmin i (Event.sgn z2))
                    ((liftCtl ({ E with zfbuf := buf } : Ctl K)).updateOne (num tmin) i (Event.sgn z2))
                    (fun k s => updateOne_num _ tmin i _ k s) 0 E.zf1.length (E.zf1, E.state)
                  rw [show (liftCtl E).zf1.length = E.zf1.length from List.length_map _]
                  simp only
                  have hl2 : loop 0 E.zf1.length (({ liftCtl E with zfbuf := buf.map num } : Ctl (Fl K)).updateOne (num tmin) i (Event.sgn z2))
                      ((liftCtl E).zf1, (liftCtl E).state) = _ := hloop
                  simp only at hl2
                  rw [hl2]
                  cases hlp : loop 0 E.zf1.length (({ E with zfbuf := buf } : Ctl K).updateOne tmin i (Event.sgn z2)) (E.zf1, E.state) with
                  | error => simp only [hlp, bind_error] at hf; cases hf
                  | ok p =>
                    simp only [hlp, bind_ok] at hf
                    have := Except.ok.inj hf
                    subst this
                    rfl
                cases hf : E.afterSwitch r q1 tmin i (Event.sgn z2) x3 (E.t1 + (t2 - E.t1) * tmin) with
                | error => rw [hf] at hrun; cases hrun
                | ok f =>
                  rw [hf] at hrun
                  rw [haft f hf]
                  simp only [bind_ok] at hrun ⊢
                  have := Except.ok.inj hrun
                  simp only [Prod.mk.injEq] at this
                  obtain ⟨⟨rfl, rfl⟩, rfl, rfl, rfl⟩ := this
                  rfl

end

/-! ### Where the property fails, and a case of the theorems -/

/-- One function, the state itself, watched with the flags `f` -/
def watchState (f : Nat) : EvRhs (Fl ℚ) (Fl ℚ) Unit where
  zeroFuncCount _ := 1
  zeroFuncFlags _ := [f]
  zeroFunctions _ _ x := [x]
  switchPhaseState _ _ _ x := ((), x)
  truncateStep _ t x := (false, t, x)

/-- A controller that remembers the value 1 of a function, positive -/
def atOne (f : Nat) : Ctl (Fl ℚ) := ⟨false, true, false, [1], [0], [0], [f], [1], 0⟩

theorem atOne_ready (f : Nat) (h : f = 1 ∨ f = 3) : Remembers (atOne f) 1 := by
  refine ⟨⟨rfl, rfl, one_pos, rfl, rfl, rfl, by rcases h with rfl | rfl <;> rfl⟩, fun i hi => Or.inr ⟨1, ?_, ?_⟩⟩
  · obtain rfl : i = 0 := by omega
    rfl
  · obtain rfl : i = 0 := by omega
    rcases h with rfl | rfl
    · exact Or.inl ⟨rfl, by norm_num, Or.inr rfl⟩
    · exact Or.inr (Or.inr ⟨rfl, Or.inl ⟨rfl, by norm_num⟩⟩)

/-- A step from 1 to -1 is cut in the middle; a step to minus infinity is cut at its start; a step to not-a-number throws, if
both directions are watched. -/
example :
    (match (atOne 1).atStepEnd (watchState 1) () (num 1) (num (-1)) (num 2) with
      | .ok ((e', _), x, t, tr) => decide (e'.zf1 = [num 0] ∧ x = num 0 ∧ t = num 1 ∧ tr.izf = some 0 ∧ tr.transition = -1)
      | .error _ => false) = true ∧
    (match (atOne 1).atStepEnd (watchState 1) () (num 1) (inf true) (num 2) with
      | .ok ((e', _), x, t, tr) => decide (e'.zf1 = [nan] ∧ x = nan ∧ t = num 0 ∧ tr.izf = some 0 ∧ tr.transition = -1)
      | .error _ => false) = true ∧
    (atOne 3).atStepEnd (watchState 3) () (num 1) nan (num 2) = .error (.exc "out_of_range") := by
  refine ⟨by decide +kernel, by decide +kernel, rfl⟩

/-- The same function with exact numbers -/
def watchExact : EvRhs ℚ ℚ Unit where
  zeroFuncCount _ := 1
  zeroFuncFlags _ := [1]
  zeroFunctions _ _ x := [x]
  switchPhaseState _ _ _ x := ((), x)
  truncateStep _ t x := (false, t, x)

/-- The hypotheses of the agreement hold, and the exact controller cuts a step from 1 to -1. -/
example :
    (∀ (s t x y : ℚ), num (s • x + t • y) = num s • num x + num t • num y) ∧
    (∀ q t x, (watchState 1).zeroFunctions q (num t) (num x) = (watchExact.zeroFunctions q t x).map num) ∧
    (∀ q l t x, (watchState 1).switchPhaseState q l (num t) (num x) =
      ((watchExact.switchPhaseState q l t x).1, num (watchExact.switchPhaseState q l t x).2)) ∧
    (match (⟨false, true, false, [1], [0], [0], [1], [1], 0⟩ : Ctl ℚ).atStepEnd watchExact () 1 (-1) 2 with
      | .ok (_, x, t, tr) => decide (x = 0 ∧ t = 1 ∧ tr.izf = some 0)
      | .error _ => false) = true := by
  refine ⟨fun s t x y => ?_, fun _ _ _ => rfl, fun _ _ _ _ => rfl, by decide +kernel⟩
  change _ = num s * num x + num t * num y
  simp

/-- C139 is false of the code: a step that ends with a watched function not a number is accepted, if one direction is watched
only; then the value is remembered, and the next change of sign throws. -/
theorem C139_passed_false : ¬ ∀ (e : Ctl (Fl ℚ)) (q : Unit) (x1 x2 : Fl ℚ) (b : ℚ), Remembers e 1 → e.t1 = num 0 → 0 ≤ b → e.flags = [1] →
    ((watchState 1).zeroFunctions q (num b) x2).getD 0 0 = nan →
    ∀ e' q' x t tr, e.atStepEnd (watchState 1) q x1 x2 (num b) = .ok ((e', q'), x, t, tr) → tr.truncated = true := by
  intro h
  have := h (atOne 1) () (num 1) nan 1 (atOne_ready 1 (Or.inl rfl)) rfl (by norm_num) rfl rfl _ _ _ _ _ rfl
  cases this

/-- C139 is false of the code: after a step that ended with not-a-number the change of sign from 1 to -1 is not located. -/
theorem C139_later_false : ¬ ∀ (e e' : Ctl (Fl ℚ)) (x1 x2 x3 : Fl ℚ) (a b c : ℚ), Remembers e 1 → e.t1 = num a → a ≤ b → b ≤ c → e.flags = [1] →
    e.atStepEnd (watchState 1) () x1 x2 (num b) = .ok ((e', ()), x2, num b, Trunc.none) → Leaves 1 1 x3 → e.state = [1] →
    ∃ e'' x t tr, ({ e' with t1 := num b } : Ctl (Fl ℚ)).atStepEnd (watchState 1) () x2 x3 (num c) = .ok ((e'', ()), x, t, tr) := by
  intro h
  obtain ⟨e'', x, t, tr, hr⟩ := h (atOne 1) _ (num 1) nan (num (-1)) 0 1 2 (atOne_ready 1 (Or.inl rfl)) rfl (by norm_num) (by norm_num)
    rfl rfl (Or.inl ⟨rfl, Or.inl ⟨rfl, by simp [zero_def]⟩⟩) rfl
  cases hr

/-- C139 is false of the code: after an event located by an infinite value no number is remembered, and the step that follows
throws if the function keeps its sign. -/
theorem C139_infinite_false : ¬ ∀ (e e' : Ctl (Fl ℚ)) (x1 x2 x3 x : Fl ℚ) (a b c : ℚ) (t : Fl ℚ) (tr : Trunc), Remembers e 1 → e.t1 = num a → a ≤ b →
    e.flags = [3] → e.atStepEnd (watchState 3) () x1 x2 (num b) = .ok ((e', ()), x, t, tr) → x2 = inf true →
    ∃ e'' x t tr, ({ e' with t1 := num a } : Ctl (Fl ℚ)).atStepEnd (watchState 3) () x x3 (num c) = .ok ((e'', ()), x, t, tr) := by
  intro h
  obtain ⟨e'', x, t, tr, hr⟩ := h (atOne 3) _ (num 1) (inf true) (num 1) _ 0 1 2 _ _ (atOne_ready 3 (Or.inr rfl)) rfl (by norm_num)
    rfl rfl rfl
  cases hr

end Verif.Special
