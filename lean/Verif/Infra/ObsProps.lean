import Verif.Infra.ObsModel
import Verif.Loop
import Mathlib.Data.List.Sort
import Mathlib.Tactic.Linarith

/-
C49, C50, C51, C69 (callbacks changing the list), C70 (scoped elements), C71 (forwarding).
-/

namespace Verif.Infra

open Verif.Res

variable {T : Type}

/-! ## Specification -/

/-- What a user does to a sequence, with the identifiers handed out -/
inductive Ev (T : Type) where
  | added (id : Int) (x : T)
  | removed (id : Int)
  | cleared

/-- Elements registered after a history, in order of registration -/
def registered : List (Ev T) → List (Int × T)
  | [] => []
  | .added id x :: h => registered h ++ [(id, x)]
  | .removed id :: h => (registered h).filter (fun e => e.1 ≠ id)
  | .cleared :: _ => []

/-- Number of registrations in a history -/
def adds : List (Ev T) → Nat
  | [] => 0
  | .added _ _ :: h => adds h + 1
  | .removed _ :: h => adds h
  | .cleared :: h => adds h

/-- `m` is the contents of the sequence after history `h` (latest event first). -/
inductive Reach : List (Ev T) → Elems T → Prop
  | nil : Reach [] []
  | add {h m x m' id} : Reach h m → m.add x = .ok (m', id) → Reach (.added id x :: h) m'
  | remove {h m} (id) : Reach h m → Reach (.removed id :: h) (m.remove id)
  | clear {h m} : Reach h m → Reach (.cleared :: h) m.clear

/-! ## Lemmas -/

/-- Keys are increasing and within 1 … `n` -/
def Ok (m : Elems T) (n : Int) : Prop :=
  m.Pairwise (fun a b => a.1 < b.1) ∧ ∀ e ∈ m, 1 ≤ e.1 ∧ e.1 ≤ n

theorem put_last (m : Elems T) (id : Int) (x : T) (h : ∀ e ∈ m, e.1 < id) :
    m.put id x = m ++ [(id, x)] := by
  induction m with
  | nil => rfl
  | cons e l ih =>
    obtain ⟨k, y⟩ := e
    have hk : k < id := h (k, y) (by simp)
    simp only [Elems.put]
    rw [if_neg (by omega), if_neg (by omega), ih (fun e he => h e (by simp [he]))]
    rfl

theorem remove_eq (m : Elems T) (id : Int) (h : m.Pairwise (fun a b => a.1 < b.1)) :
    m.remove id = m.filter (fun e => e.1 ≠ id) := by
  induction m with
  | nil => rfl
  | cons e l ih =>
    obtain ⟨k, y⟩ := e
    rw [List.pairwise_cons] at h
    simp only [Elems.remove]
    by_cases hk : k = id
    · rw [if_pos hk, List.filter_cons_of_neg (by simpa using hk), eq_comm, List.filter_eq_self]
      intro e he
      have := h.1 e he
      simp only at this
      have hne : e.1 ≠ id := by omega
      simpa using hne
    · rw [if_neg hk, List.filter_cons_of_pos (by simpa using hk), ih h.2]

theorem le_last (m : Elems T) (h : m.Pairwise (fun a b => a.1 < b.1)) (l : Int × T)
    (hl : m.getLast? = some l) : ∀ e ∈ m, e.1 ≤ l.1 := by
  obtain ⟨q, rfl⟩ : ∃ q, m = q ++ [l] := by
    refine ⟨m.dropLast, ?_⟩
    have hne : m ≠ [] := by rintro rfl; simp at hl
    rw [List.getLast?_eq_some_getLast hne] at hl
    have : m.getLast hne = l := Option.some.inj hl
    rw [← this, List.dropLast_append_getLast]
  rw [List.pairwise_append] at h
  intro e he
  rw [List.mem_append, List.mem_singleton] at he
  rcases he with he | rfl
  · exact le_of_lt (h.2.2 e he l (by simp))
  · exact le_refl _

/-- What `add` does to an increasing sequence -/
theorem add_spec {m : Elems T} {n : Int} (hm : Ok m n) (hn : 0 ≤ n) (x : T) {m' id}
    (h : m.add x = .ok (m', id)) :
    m' = m ++ [(id, x)] ∧ 1 ≤ id ∧ id ≤ n + 1 ∧ (∀ e ∈ m, e.1 < id) := by
  simp only [Elems.add, Elems.newId] at h
  cases hl : m.getLast? with
  | none =>
    rw [hl] at h
    simp only [bind_ok, Except.ok.injEq, Prod.mk.injEq] at h
    obtain ⟨h1, h2⟩ := h
    rw [List.getLast?_eq_none_iff] at hl
    subst hl h2
    refine ⟨h1.symm, by omega, by omega, by simp⟩
  | some l =>
    rw [hl] at h
    simp only at h
    have hle := le_last m hm.1 l hl
    have hmem : l ∈ m := List.mem_of_getLast? hl
    split at h
    · cases h
    · simp only [bind_ok, Except.ok.injEq, Prod.mk.injEq] at h
      obtain ⟨h1, h2⟩ := h
      have hlt : ∀ e ∈ m, e.1 < id := fun e he => by have := hle e he; omega
      rw [h2, put_last _ _ _ hlt] at h1
      have := hm.2 l hmem
      exact ⟨h1.symm, by omega, by omega, hlt⟩

theorem add_ok {m : Elems T} {n : Int} (hm : Ok m n) (hn : n < 2147483647) (x : T) :
    ∃ m' id, m.add x = .ok (m', id) := by
  simp only [Elems.add, Elems.newId]
  cases hl : m.getLast? with
  | none => exact ⟨_, _, rfl⟩
  | some l =>
    have hmem : l ∈ m := List.mem_of_getLast? hl
    have := hm.2 l hmem
    simp only
    rw [if_neg (by omega)]
    exact ⟨_, _, rfl⟩

theorem Ok.append {m : Elems T} {n : Int} (hm : Ok m n) {id : Int} {x : T} (h1 : 1 ≤ id)
    (h2 : id ≤ n + 1) (h3 : ∀ e ∈ m, e.1 < id) : Ok (m ++ [(id, x)]) (n + 1) := by
  refine ⟨?_, ?_⟩
  · rw [List.pairwise_append]
    refine ⟨hm.1, by simp, ?_⟩
    intro a ha b hb
    rw [List.mem_singleton] at hb
    subst hb
    exact h3 a ha
  · intro e he
    rw [List.mem_append, List.mem_singleton] at he
    rcases he with he | rfl
    · have := hm.2 e he; omega
    · exact ⟨h1, h2⟩

theorem Ok.remove {m : Elems T} {n : Int} (hm : Ok m n) (id : Int) : Ok (m.remove id) n := by
  rw [remove_eq _ _ hm.1]
  exact ⟨hm.1.filter _, fun e he => hm.2 e (List.mem_filter.mp he).1⟩

theorem Ok.nil {n : Int} : Ok ([] : Elems T) n := ⟨by simp, by simp⟩

theorem Reach.ok {h : List (Ev T)} {m : Elems T} (hr : Reach h m) :
    Ok m (adds h) ∧ m = registered h := by
  induction hr with
  | nil => exact ⟨Ok.nil, rfl⟩
  | add hr ha ih =>
    obtain ⟨rfl, h1, h2, h3⟩ := add_spec ih.1 (by omega) _ ha
    refine ⟨?_, by simp only [registered]; rw [← ih.2]⟩
    simpa [adds] using ih.1.append h1 h2 h3
  | remove id hr ih =>
    refine ⟨ih.1.remove id, ?_⟩
    rw [remove_eq _ _ ih.1.1, ih.2]
    rfl
  | clear hr ih => exact ⟨Ok.nil, rfl⟩

/-! ## C49 -/

/-- After every history the sequence holds what is registered, in order of registration, under
distinct identifiers. -/
theorem C49_order {h : List (Ev T)} {m : Elems T} (hr : Reach h m) :
    m = registered h ∧ (m.map Prod.fst).Nodup := by
  refine ⟨hr.ok.2, ?_⟩
  rw [List.Nodup, List.pairwise_map]
  exact hr.ok.1.1.imp (fun h => ne_of_lt h)

/-- `add` returns an identifier that is not in use and differs from the ‑1 of an empty scope; it
puts the element last. It is defined unless 2³¹ ‑ 1 elements have been added. -/
theorem C49_add {h : List (Ev T)} {m : Elems T} (hr : Reach h m) (x : T) :
    (∀ m' id, m.add x = .ok (m', id) →
      m' = m ++ [(id, x)] ∧ id ∉ m.map Prod.fst ∧ 0 < id) ∧
    (adds h < 2147483647 → ∃ m' id, m.add x = .ok (m', id)) := by
  refine ⟨fun m' id ha => ?_, fun hn => add_ok hr.ok.1 (by omega) x⟩
  obtain ⟨h0, h1, h2, h3⟩ := add_spec hr.ok.1 (by omega) x ha
  refine ⟨h0, ?_, by omega⟩
  intro hmem
  rw [List.mem_map] at hmem
  obtain ⟨e, he, rfl⟩ := hmem
  exact absurd (h3 e he) (by omega)

/-- `remove` takes out the element with the identifier and nothing else; with an absent identifier
it changes nothing. -/
theorem C49_remove {h : List (Ev T)} {m : Elems T} (hr : Reach h m) (id : Int) :
    (∀ e, e ∈ m.remove id ↔ e ∈ m ∧ e.1 ≠ id) ∧ (m.remove id).Sublist m ∧
    (id ∉ m.map Prod.fst → m.remove id = m) := by
  rw [remove_eq _ _ hr.ok.1.1]
  refine ⟨fun e => by simp, List.filter_sublist, fun hn => ?_⟩
  rw [List.filter_eq_self]
  intro e he
  have : e.1 ≠ id := by
    rintro rfl
    exact hn (List.mem_map.mpr ⟨e, he, rfl⟩)
  simpa using this

/-- A call runs every registered callback once, in order of registration; an exception ends it. -/
theorem C49_call {A σ : Type} {h : List (Ev (A → σ → Res σ))} {m : Elems (A → σ → Res σ)}
    (hr : Reach h m) (a : A) (s : σ) :
    m.call a s = (registered h).foldlM (fun s e => e.2 a s) s := by
  rw [← hr.ok.2]
  rfl

/-- A user registers 1, 2 and 3, removes 2 and registers 4. -/
example : ∃ m : Elems Nat, Reach
    [.added 4 40, .removed 2, .added 3 30, .added 2 20, .added 1 10] m ∧
    m = [(1, 10), (3, 30), (4, 40)] :=
  ⟨_, .add (.remove 2 (.add (.add (.add .nil (x := 10) rfl) (x := 20) rfl) (x := 30) rfl))
    (x := 40) rfl, rfl⟩

/-! ## C50 -/

/-- False: remove the element registered last, register another, remove the first again: the
other is gone. -/
theorem C50_false : ∃ (h : List (Ev Nat)) (m : Elems Nat), Reach h m ∧
    h = [.added 1 20, .removed 1, .added 1 10] ∧
    (1, 20) ∈ m ∧ (1, 20) ∉ m.remove 1 :=
  ⟨_, _, .add (.remove 1 (.add .nil (x := 10) rfl)) (x := 20) rfl, rfl, by decide, by decide⟩

/-- Later part of a history during which identifier `k` stays registered -/
inductive Keeps (k : Int) : List (Ev T) → List (Ev T) → Prop
  | refl {h} : k ∈ (registered h).map Prod.fst → Keeps k h h
  | step {h h'} (e) : Keeps k h h' → k ∈ (registered (e :: h')).map Prod.fst → Keeps k h (e :: h')

/-- What holds: if some element registered after the removed one stays registered, removing again
(any number of events later) changes nothing. What is missing: the identifier is handed out again
when every element registered after it has been removed too. -/
theorem C50_partial {h h' : List (Ev T)} {m : Elems T} {id k : Int} (hk : id < k)
    (hkeep : Keeps k (.removed id :: h) h') (hr : Reach h' m) : m.remove id = m := by
  have key : ∀ {h'}, Keeps k (.removed id :: h) h' → ∀ {m : Elems T}, Reach h' m →
      id ∉ m.map Prod.fst := by
    intro h' hkeep
    induction hkeep with
    | refl hmem =>
      intro m hr
      rw [hr.ok.2]
      simp [registered]
    | @step h1 e hkeep hmem ih =>
      intro m hr
      cases hr with
      | @add _ m0 x _ i hr ha =>
        obtain ⟨rfl, h1, h2, h3⟩ := add_spec hr.ok.1 (by omega) x ha
        have hk0 : k ∈ m0.map Prod.fst := by
          rw [hr.ok.2]
          cases hkeep with
          | refl h => exact h
          | step _ _ h => exact h
        rw [List.mem_map] at hk0
        obtain ⟨e, he, rfl⟩ := hk0
        have := h3 e he
        rw [List.map_append, List.mem_append]
        rintro (h | h)
        · exact ih hr h
        · simp at h; omega
      | remove i hr =>
        intro h
        apply ih hr
        rw [remove_eq _ _ hr.ok.1.1, List.mem_map] at h
        obtain ⟨e, he, rfl⟩ := h
        exact List.mem_map.mpr ⟨e, (List.mem_filter.mp he).1, rfl⟩
      | clear hr => simp [Elems.clear]
  exact (C49_remove hr id).2.2 (key hkeep hr)

/-- 2 stays registered while 1 is removed and 3 is added. -/
example : Keeps (T := Nat) 2 [.removed 1, .added 2 20, .added 1 10]
    [.added 3 30, .removed 1, .added 2 20, .added 1 10] :=
  .step _ (.refl (by decide)) (by decide)

/-! ## C51 -/

/-- Outcome of running callbacks one after another: their results and the last state -/
inductive Runs {A σ : Type} (a : A) : List (A → σ → Res (Bool × σ)) → σ → List Bool → σ → Prop
  | nil {s} : Runs a [] s [] s
  | cons {f l s b s' bs s''} : f a s = .ok (b, s') → Runs a l s' bs s'' →
      Runs a (f :: l) s (b :: bs) s''

theorem callTerm_from {A σ : Type} (m : Elems (A → σ → Res (Bool × σ))) (a : A) (s : σ)
    (b0 b : Bool) (s' : σ) :
    m.foldlM (fun (r : Bool × σ) e => do
      let (b, s) ← e.2 a r.2
      Except.ok (b || r.1, s)) (b0, s) = (.ok (b, s') : Res (Bool × σ)) ↔
    ∃ bs, Runs a (m.map Prod.snd) s bs s' ∧ (b = true ↔ b0 = true ∨ true ∈ bs) := by
  induction m generalizing s b0 with
  | nil =>
    simp only [List.foldlM_nil, List.map_nil]
    constructor
    · intro h
      cases h
      exact ⟨[], .nil, by simp⟩
    · rintro ⟨bs, hr, hb⟩
      cases hr
      simp only [List.not_mem_nil, or_false] at hb
      rw [Bool.eq_iff_iff.mpr hb]
      rfl
  | cons e m ih =>
    simp only [List.foldlM_cons, List.map_cons]
    cases he : e.2 a s with
    | error f =>
      simp only [bind_error]
      constructor
      · intro h; cases h
      · rintro ⟨bs, hr, -⟩
        cases hr with
        | cons h _ => rw [he] at h; cases h
    | ok r =>
      obtain ⟨b1, s1⟩ := r
      simp only [bind_ok]
      rw [ih]
      constructor
      · rintro ⟨bs, hr, hb⟩
        refine ⟨b1 :: bs, .cons he hr, ?_⟩
        rw [hb]
        cases b1 <;> simp
      · rintro ⟨bs, hr, hb⟩
        cases hr with
        | cons h hr =>
          rw [he] at h
          cases h
          refine ⟨_, hr, ?_⟩
          rw [hb]
          cases b1 <;> simp

/-- After every history, a call invokes every registered callback once, in order of registration,
whatever the callbacks before it returned; the result is true exactly if some callback returned
true. The call fails only if a callback does. -/
theorem C51_or {A σ : Type} {h : List (Ev (A → σ → Res (Bool × σ)))}
    {m : Elems (A → σ → Res (Bool × σ))} (hr : Reach h m) (a : A) (s : σ) (b : Bool) (s' : σ) :
    m.callTerm a s = .ok (b, s') ↔
      ∃ bs, Runs a ((registered h).map Prod.snd) s bs s' ∧ (b = true ↔ true ∈ bs) := by
  rw [← hr.ok.2]
  have := callTerm_from m a s false b s'
  simp only [Bool.false_eq_true, false_or] at this
  exact this

/-- Without failing callbacks the call succeeds. -/
theorem C51_total {A σ : Type} (m : Elems (A → σ → Res (Bool × σ))) (a : A)
    (hf : ∀ e ∈ m, ∀ s, ∃ r, e.2 a s = .ok r) (s : σ) : ∃ r, m.callTerm a s = .ok r := by
  have : ∀ (m : Elems (A → σ → Res (Bool × σ))), (∀ e ∈ m, ∀ s, ∃ r, e.2 a s = .ok r) →
      ∀ s, ∃ bs s', Runs a (m.map Prod.snd) s bs s' := by
    intro m hf
    induction m with
    | nil => exact fun s => ⟨_, _, .nil⟩
    | cons e m ih =>
      intro s
      obtain ⟨⟨b, s1⟩, h1⟩ := hf e (by simp) s
      obtain ⟨bs, s', h2⟩ := ih (fun e he => hf e (by simp [he])) s1
      exact ⟨_, _, .cons h1 h2⟩
  obtain ⟨bs, s', h⟩ := this m hf s
  exact ⟨(decide (true ∈ bs), s'), (callTerm_from m a s false _ s').mpr ⟨bs, h, by simp⟩⟩

/-- Three callbacks that count; the first and the last return false -/
example : Elems.callTerm (A := Unit) (σ := Nat) [(1, fun _ n => .ok (false, n + 1)),
    (2, fun _ n => .ok (true, n + 1)), (4, fun _ n => .ok (false, n + 1))] () 0 =
    .ok (true, 3) := rfl

end Verif.Infra
