import Verif.Basic

/-! # Reasoning rules for `Res.loop` and `Res.Post` -/

namespace Verif.Res

variable {α β σ : Type _}

@[simp] theorem post_ok {a : α} {P : α → Prop} {E : Fault → Prop} :
    Post (.ok a) P E ↔ P a := Iff.rfl

@[simp] theorem post_pure {a : α} {P : α → Prop} {E : Fault → Prop} :
    Post (pure a : Res α) P E ↔ P a := Iff.rfl

@[simp] theorem post_error {e : Fault} {P : α → Prop} {E : Fault → Prop} :
    Post (.error e : Res α) P E ↔ E e := Iff.rfl

theorem Post.bind {r : Res α} {f : α → Res β} {Q : α → Prop} {P : β → Prop}
    {E : Fault → Prop} (hr : Post r Q E) (hf : ∀ a, Q a → Post (f a) P E) :
    Post (r >>= f) P E := by
  cases r with
  | ok a => exact hf a hr
  | error e => exact hr

theorem Post.mono {r : Res α} {P Q : α → Prop} {E F : Fault → Prop} (h : Post r P E)
    (hP : ∀ a, P a → Q a) (hE : ∀ e, E e → F e) : Post r Q F := by
  cases r with
  | ok a => exact hP a h
  | error e => exact hE e h

theorem post_false_iff {r : Res α} {P : α → Prop} :
    Post r P (fun _ => False) ↔ ∃ a, r = .ok a ∧ P a := by
  cases r with
  | ok a => simp [Post]
  | error e => simp [Post]

theorem Post.of_ok {r : Res α} {a : α} {P : α → Prop} {E : Fault → Prop} (h : r = .ok a)
    (hP : P a) : Post r P E := by subst h; exact hP

@[simp] theorem bind_ok {a : α} {f : α → Res β} : ((.ok a : Res α) >>= f) = f a := rfl

@[simp] theorem bind_error {e : Fault} {f : α → Res β} :
    ((.error e : Res α) >>= f) = .error e := rfl

theorem loopFrom_post {f : Nat → σ → Res σ} {P : Nat → σ → Prop} {E : Fault → Prop}
    (n i : Nat) (s : σ) (h0 : P i s)
    (hs : ∀ j s, i ≤ j → j < i + n → P j s → Post (f j s) (P (j + 1)) E) :
    Post (loopFrom f n i s) (P (i + n)) E := by
  induction n generalizing i s with
  | zero => exact h0
  | succ n ih =>
    unfold loopFrom
    refine Post.bind (hs i s (Nat.le_refl _) (by omega) h0) (fun a ha => ?_)
    have := ih (i + 1) a ha (fun j s h1 h2 h3 => hs j s (by omega) (by omega) h3)
    rw [show i + (n + 1) = i + 1 + n by omega]
    exact this

/-- Loop invariant rule. -/
theorem loop_post {lo hi : Nat} {f : Nat → σ → Res σ} {s : σ} (P : Nat → σ → Prop)
    {E : Fault → Prop} (hle : lo ≤ hi) (h0 : P lo s)
    (hs : ∀ j s, lo ≤ j → j < hi → P j s → Post (f j s) (P (j + 1)) E) :
    Post (loop lo hi f s) (P hi) E := by
  have := loopFrom_post (f := f) (P := P) (E := E) (hi - lo) lo s h0
    (fun j s h1 h2 h3 => hs j s h1 (by omega) h3)
  rw [show lo + (hi - lo) = hi by omega] at this
  exact this

theorem loop_of_ge {lo hi : Nat} {f : Nat → σ → Res σ} {s : σ} (h : hi ≤ lo) :
    loop lo hi f s = .ok s := by
  unfold loop
  rw [Nat.sub_eq_zero_of_le h]; rfl

theorem raw_of_getElem? {l : List α} {i : Nat} {a : α} (h : l[i]? = some a) :
    raw l i = .ok a := by simp [raw, h]

theorem raw_eq_ok_iff {l : List α} {i : Nat} {a : α} : raw l i = .ok a ↔ l[i]? = some a := by
  unfold raw
  cases h : l[i]? <;> simp

theorem raw_map_range {f : Nat → α} {n i : Nat} (h : i < n) :
    raw ((List.range n).map f) i = .ok (f i) := by
  simp [raw, h]

end Verif.Res
