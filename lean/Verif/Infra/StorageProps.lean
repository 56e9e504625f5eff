import Verif.Infra.StorageModel
import Verif.Loop
import Mathlib.Data.List.Basic
import Mathlib.Data.List.Nodup
import Mathlib.Data.List.Perm.Basic

/-! # C140: storage cells of types and the factories in them -/

namespace Verif.Infra.Storage

open Verif.Infra Verif.Res

theorem find_insert {A B : Type} [DecidableEq A] (k k' : A) (v : B) (l : List (A × B)) :
    findKV k (insertKV k' v l) = if k' = k then some v else findKV k l := by
  induction l with
  | nil => simp [insertKV, findKV]
  | cons a l ih =>
    obtain ⟨a, b⟩ := a
    unfold insertKV
    by_cases h : a = k'
    · subst h
      simp only [if_true, findKV]
      split <;> rfl
    · simp only [if_neg h, findKV, ih]
      by_cases h' : a = k
      · subst h'
        simp [Ne.symm h]
      · simp [h']

section
variable {p : Types}

/-- Different types have different names, and no name has a slash in it. -/
structure Named (p : Types) : Prop where
  inj : ∀ s t, p.name s = p.name t → s = t
  slash : ∀ t, '/' ∉ p.name t

theorem append_sep {c : Char} {a a' b b' : Text} (h : c ∉ a) (h' : c ∉ a') (he : a ++ c :: b = a' ++ c :: b') :
    a = a' ∧ b = b' := by
  induction a generalizing a' with
  | nil =>
    cases a' with
    | nil => exact ⟨rfl, by simpa using he⟩
    | cons x a' =>
      simp only [List.nil_append, List.cons_append, List.cons.injEq] at he
      exact absurd (he.1 ▸ List.mem_cons_self) h'
  | cons x a ih =>
    cases a' with
    | nil =>
      simp only [List.nil_append, List.cons_append, List.cons.injEq] at he
      exact absurd (he.1 ▸ List.mem_cons_self) h
    | cons y a' =>
      simp only [List.cons_append, List.cons.injEq] at he
      obtain ⟨rfl, he⟩ := he
      obtain ⟨rfl, rfl⟩ := ih (fun hm => h (List.mem_cons_of_mem _ hm)) (fun hm => h' (List.mem_cons_of_mem _ hm)) he
      exact ⟨rfl, rfl⟩

theorem key_inj (hp : Named p) {c t c' t' : p.Ty} (h : key p c t = key p c' t') : c = c' ∧ t = t' := by
  unfold key at h
  have e : " / ".toList = [' ', '/', ' '] := rfl
  rw [e] at h
  have h2 : (p.name c ++ [' ']) ++ '/' :: (' ' :: p.name t) = (p.name c' ++ [' ']) ++ '/' :: (' ' :: p.name t') := by
    simpa using h
  obtain ⟨h3, h4⟩ := append_sep (by simp [hp.slash]) (by simp [hp.slash]) h2
  exact ⟨hp.inj _ _ (List.append_cancel_right h3), hp.inj _ _ (by simpa using h4)⟩

/-- The storage holds the values `g` in its cells. -/
def Holds (s : State p) (g : ∀ _ t : p.Ty, p.Val t) : Prop :=
  ∀ c t, findKV (key p c t) (data s) = some ⟨t, g c t⟩ ∨ (findKV (key p c t) (data s) = none ∧ g c t = p.init t)

/-- `g` with another value in a cell -/
def upd (g : ∀ _ t : p.Ty, p.Val t) (c t : p.Ty) (x : p.Val t) : ∀ _ t : p.Ty, p.Val t :=
  fun c' t' => if h : c = c' ∧ t = t' then h.2 ▸ x else g c' t'

theorem upd_self (g : ∀ _ t : p.Ty, p.Val t) (c t : p.Ty) (x : p.Val t) : upd g c t x c t = x := by
  unfold upd
  rw [dif_pos ⟨rfl, rfl⟩]

theorem upd_ne (g : ∀ _ t : p.Ty, p.Val t) {c t c' t' : p.Ty} (x : p.Val t) (h : ¬ (c = c' ∧ t = t')) :
    upd g c t x c' t' = g c' t' := by
  unfold upd
  rw [dif_neg h]

theorem holds_none : Holds (none : State p) (fun _ t => p.init t) := fun _ _ => Or.inr ⟨rfl, rfl⟩

theorem holds_insert (hp : Named p) {s : State p} {g : ∀ _ t : p.Ty, p.Val t} (h : Holds s g) (c t : p.Ty) (x : p.Val t) :
    Holds (some (insertKV (key p c t) ⟨t, x⟩ (data s))) (upd g c t x) := by
  intro c' t'
  change findKV _ (insertKV _ _ _) = _ ∨ (findKV _ (insertKV _ _ _) = _ ∧ _)
  rw [find_insert]
  by_cases hk : key p c t = key p c' t'
  · obtain ⟨rfl, rfl⟩ := key_inj hp hk
    left
    rw [if_pos rfl, upd_self]
  · have hne : ¬ (c = c' ∧ t = t') := fun hh => hk (by rw [hh.1, hh.2])
    rw [if_neg hk, upd_ne g x hne]
    exact h c' t'

theorem value_spec (hp : Named p) {s : State p} {g : ∀ _ t : p.Ty, p.Val t} (h : Holds s g) (c t : p.Ty) :
    ∃ s', value s c t = .ok (s', g c t) ∧ Holds s' g := by
  unfold value
  rcases h c t with hf | ⟨hf, hg⟩
  · rw [hf]
    simp only [dif_pos]
    exact ⟨_, rfl, h⟩
  · rw [hf]
    refine ⟨_, by rw [hg], ?_⟩
    have := holds_insert hp h c t (p.init t)
    have he : upd g c t (p.init t) = g := by
      funext c' t'
      by_cases hh : c = c' ∧ t = t'
      · obtain ⟨rfl, rfl⟩ := hh
        rw [upd_self, hg]
      · rw [upd_ne g _ hh]
    rwa [he] at this

theorem assign_spec (hp : Named p) {s : State p} {g : ∀ _ t : p.Ty, p.Val t} (h : Holds s g) (c t : p.Ty) (x : p.Val t) :
    ∃ s', assign s c t x = .ok s' ∧ Holds s' (upd g c t x) := by
  obtain ⟨s1, h1, h2⟩ := value_spec hp h c t
  unfold assign
  rw [h1]
  exact ⟨_, rfl, holds_insert hp h2 c t x⟩

/-- The value last written to a cell; that of a default-constructed object if there was none -/
def lastWritten (l : List (Op p)) (c t : p.Ty) : p.Val t :=
  l.foldl (fun y o => match o with
    | .read _ _ => y
    | .write c' t' x => if h : c' = c ∧ t' = t then h.2 ▸ x else y) (p.init t)

/-- C140: a cell is a variable of its own. Whatever a program did with the storage, from the state before any initialisation, a
cell holds the value last assigned to it, or a default-constructed one. -/
theorem C140_cells (hp : Named p) (l : List (Op p)) :
    ∃ s, run l = .ok s ∧ ∀ c t, ∃ s', value s c t = .ok (s', lastWritten l c t) := by
  suffices h : ∀ (l : List (Op p)) (s : State p) (g : ∀ _ t : p.Ty, p.Val t), Holds s g → ∃ s', l.foldlM step s = .ok s' ∧
      Holds s' (fun c t => l.foldl (fun y o => match o with
        | .read _ _ => y
        | .write c' t' x => if h : c' = c ∧ t' = t then h.2 ▸ x else y) (g c t)) by
    obtain ⟨s, h1, h2⟩ := h l none _ holds_none
    refine ⟨s, h1, fun c t => ?_⟩
    obtain ⟨s', h3, -⟩ := value_spec hp h2 c t
    exact ⟨s', h3⟩
  intro l
  induction l with
  | nil => intro s g h; exact ⟨s, rfl, h⟩
  | cons o l ih =>
    intro s g h
    rw [List.foldlM_cons]
    cases o with
    | read c t =>
      obtain ⟨s1, h1, h2⟩ := value_spec hp h c t
      obtain ⟨s2, h3, h4⟩ := ih s1 g h2
      refine ⟨s2, ?_, h4⟩
      change ((do let (s, _) ← value s c t; (.ok s : Res (State p))) >>= _) = _
      rw [h1]
      exact h3
    | write c t x =>
      obtain ⟨s1, h1, h2⟩ := assign_spec hp h c t x
      obtain ⟨s2, h3, h4⟩ := ih s1 _ h2
      refine ⟨s2, ?_, h4⟩
      change (assign s c t x >>= _) = _
      rw [h1]
      exact h3

end

/-! ### Factories -/

section
variable {name : FTy → Text}

/-- The last registration of an identifier with an interface -/
def lastWith (l : List (Nat × Nat × Text)) (i : Nat) (id : Text) : Option Nat :=
  (l.reverse.find? (fun a => a.2.1 == i && a.2.2 == id)).map Prod.fst

/-- The identifier a type was last registered with -/
def lastId (l : List (Nat × Nat × Text)) (ty i : Nat) : Text :=
  ((l.reverse.find? (fun a => a.1 == ty && a.2.1 == i)).map (fun a => a.2.2)).getD []

/-- What the storage holds after registrations -/
private structure Reflects (l : List (Nat × Nat × Text)) (g : ∀ _ t : FTy, t.Val) : Prop where
  gens : ∀ i id, findKV id (g (.factory i) (.registry i) : List (Text × Nat)) = lastWith l i id
  keys : ∀ i, ((g (.factory i) (.registry i) : List (Text × Nat)).map Prod.fst).Nodup
  ids : ∀ ty i, (g (.mixin ty i) .string : Text) = lastId l ty i

theorem insert_keys (k : Text) (v : Nat) (l : List (Text × Nat)) (h : (l.map Prod.fst).Nodup) :
    ((insertKV k v l).map Prod.fst).Nodup ∧ ∀ a, a ∈ (insertKV k v l).map Prod.fst ↔ a = k ∨ a ∈ l.map Prod.fst := by
  induction l with
  | nil => simp [insertKV]
  | cons x l ih =>
    obtain ⟨a, b⟩ := x
    simp only [List.map_cons, List.nodup_cons] at h
    unfold insertKV
    by_cases ha : a = k
    · subst ha
      simp only [if_true, List.map_cons, List.nodup_cons, List.mem_cons]
      exact ⟨h, fun c => ⟨fun h => Or.inr h, fun h => h.elim Or.inl id⟩⟩
    · simp only [if_neg ha, List.map_cons, List.nodup_cons, List.mem_cons]
      obtain ⟨h1, h2⟩ := ih h.2
      refine ⟨⟨?_, h1⟩, fun c => ?_⟩
      · rw [h2]
        rintro (h3 | h3)
        · exact ha h3
        · exact h.1 h3
      · rw [h2]
        constructor
        · rintro (h | h | h)
          · exact Or.inr (Or.inl h)
          · exact Or.inl h
          · exact Or.inr (Or.inr h)
        · rintro (h | h | h)
          · exact Or.inr (Or.inl h)
          · exact Or.inl h
          · exact Or.inr (Or.inr h)

theorem find_isSome {k : Text} {l : List (Text × Nat)} : (findKV k l).isSome = true ↔ k ∈ l.map Prod.fst := by
  induction l with
  | nil => simp [findKV]
  | cons x l ih =>
    obtain ⟨a, b⟩ := x
    unfold findKV
    by_cases h : a = k
    · simp [h]
    · simp only [if_neg h, ih, List.map_cons, List.mem_cons]
      constructor
      · exact Or.inr
      · rintro (h' | h')
        · exact absurd h'.symm h
        · exact h'

theorem lastWith_append (l : List (Nat × Nat × Text)) (a : Nat × Nat × Text) (i : Nat) (id : Text) :
    lastWith (l ++ [a]) i id = if a.2.1 = i ∧ a.2.2 = id then some a.1 else lastWith l i id := by
  unfold lastWith
  rw [List.reverse_append, List.reverse_singleton, List.singleton_append, List.find?_cons]
  by_cases h : a.2.1 = i ∧ a.2.2 = id
  · simp [h]
  · rw [if_neg h]
    have : (a.2.1 == i && a.2.2 == id) = false := by
      rw [Bool.eq_false_iff]
      simpa using h
    rw [this]

theorem lastId_append (l : List (Nat × Nat × Text)) (a : Nat × Nat × Text) (ty i : Nat) :
    lastId (l ++ [a]) ty i = if a.1 = ty ∧ a.2.1 = i then a.2.2 else lastId l ty i := by
  unfold lastId
  rw [List.reverse_append, List.reverse_singleton, List.singleton_append, List.find?_cons]
  by_cases h : a.1 = ty ∧ a.2.1 = i
  · simp [h]
  · rw [if_neg h]
    have : (a.1 == ty && a.2.1 == i) = false := by
      rw [Bool.eq_false_iff]
      simpa using h
    rw [this]

private theorem registered_spec (hp : Named (factories name)) (l : List (Nat × Nat × Text)) :
    ∃ (s : State (factories name)) (g : ∀ _ t : FTy, t.Val), registered l = .ok s ∧ Holds (p := factories name) s g ∧ Reflects l g := by
  induction l using List.reverseRecOn with
  | nil =>
    refine ⟨none, fun _ t => t.init, rfl, holds_none, ?_, ?_, ?_⟩
    · intro i id; rfl
    · intro i; exact List.nodup_nil
    · intro ty i; rfl
  | append_singleton l a ih =>
    obtain ⟨s, g, h1, h2, h3⟩ := ih
    obtain ⟨ty, i, id⟩ := a
    obtain ⟨s1, e1, k1⟩ := value_spec hp h2 (.factory i) (.registry i)
    obtain ⟨s2, e2, k2⟩ := assign_spec hp k1 (.factory i) (.registry i)
      (insertKV id ty (g (.factory i) (.registry i) : List (Text × Nat)))
    obtain ⟨s3, e3, k3⟩ := assign_spec hp k2 (.mixin ty i) .string id
    refine ⟨s3, _, ?_, k3, ?_, ?_, ?_⟩
    · unfold registered at h1 ⊢
      rw [List.foldlM_append, h1]
      change (register s ty i id >>= fun s => Except.ok s) = _
      unfold register registry
      rw [e1]
      simp only [bind_ok]
      rw [e2]
      simp only [bind_ok]
      rw [e3]
      rfl
    · intro i' id'
      rw [lastWith_append]
      rw [upd_ne (p := factories name) _ (c := FTy.mixin ty i) (t := FTy.string) (c' := FTy.factory i') (t' := FTy.registry i') _ (by
        rintro ⟨h, -⟩; cases h)]
      by_cases hi : i = i'
      · subst hi
        rw [upd_self (p := factories name)]
        rw [find_insert, h3.gens]
        simp
      · rw [upd_ne (p := factories name) _ (c := FTy.factory i) (t := FTy.registry i) (c' := FTy.factory i') (t' := FTy.registry i') _ (by
          rintro ⟨h, -⟩; cases h; exact hi rfl)]
        rw [h3.gens, if_neg (fun h => hi h.1)]
    · intro i'
      rw [upd_ne (p := factories name) _ (c := FTy.mixin ty i) (t := FTy.string) (c' := FTy.factory i') (t' := FTy.registry i') _ (by
        rintro ⟨h, -⟩; cases h)]
      by_cases hi : i = i'
      · subst hi
        rw [upd_self (p := factories name)]
        exact (insert_keys _ _ _ (h3.keys i)).1
      · rw [upd_ne (p := factories name) _ (c := FTy.factory i) (t := FTy.registry i) (c' := FTy.factory i') (t' := FTy.registry i') _ (by
          rintro ⟨h, -⟩; cases h; exact hi rfl)]
        exact h3.keys i'
    · intro ty' i'
      rw [lastId_append]
      by_cases hi : ty = ty' ∧ i = i'
      · obtain ⟨rfl, rfl⟩ := hi
        rw [upd_self (p := factories name)]
        simp
      · rw [upd_ne (p := factories name) _ (c := FTy.mixin ty i) (t := FTy.string) (c' := FTy.mixin ty' i') (t' := FTy.string) _ (by
          rintro ⟨h, -⟩; cases h; exact hi ⟨rfl, rfl⟩)]
        rw [upd_ne (p := factories name) _ (c := FTy.factory i) (t := FTy.registry i) (c' := FTy.mixin ty' i') (t' := FTy.string) _ (by
          rintro ⟨h, -⟩; cases h)]
        rw [h3.ids, if_neg hi]

/-- C140: after any registrations, in any order, a factory makes instances of the type last registered with its interface under
the identifier, whatever was registered with other interfaces; it throws if there is none. A type has the identifier it was
last registered with, or an empty one. The identifiers of an interface are those registered with it, each once. -/
theorem C140_factories (hp : Named (factories name)) (l : List (Nat × Nat × Text)) :
    ∃ s : State (factories name), registered l = .ok s ∧
      (∀ i id, match lastWith l i id with
        | some ty => ∃ s', newInstance s i id = .ok (s', ty)
        | none => newInstance s i id =
            .error (.exc (String.ofList ("Failed to find type '".toList ++ id ++ "' in registry".toList)))) ∧
      (∀ ty i, ∃ s', staticTypeId s ty i = .ok (s', lastId l ty i)) ∧
      ∀ i, ∃ s' L, registeredTypes s i = .ok (s', L) ∧ L.Nodup ∧ ∀ id, id ∈ L ↔ ∃ ty, (ty, i, id) ∈ l := by
  obtain ⟨s, g, h1, h2, h3⟩ := registered_spec hp l
  refine ⟨s, h1, fun i id => ?_, fun ty i => ?_, fun i => ?_⟩
  · obtain ⟨s1, e1, -⟩ := value_spec hp h2 (.factory i) (.registry i)
    rw [← h3.gens i id]
    unfold newInstance registry
    rw [e1]
    simp only [bind_ok]
    cases hf : findKV id (g (.factory i) (.registry i) : List (Text × Nat)) with
    | none => simp only
    | some ty =>
      simp only
      exact ⟨_, rfl⟩
  · obtain ⟨s1, e1, -⟩ := value_spec hp h2 (.mixin ty i) .string
    refine ⟨s1, ?_⟩
    rw [← h3.ids]
    exact e1
  · obtain ⟨s1, e1, -⟩ := value_spec hp h2 (.factory i) (.registry i)
    refine ⟨s1, (g (.factory i) (.registry i) : List (Text × Nat)).map Prod.fst, ?_, h3.keys i, fun id => ?_⟩
    · unfold registeredTypes registry
      rw [e1]
      rfl
    · rw [← find_isSome, h3.gens]
      unfold lastWith
      rw [Option.isSome_map, List.find?_isSome]
      constructor
      · rintro ⟨⟨ty, i', id'⟩, hm, hx⟩
        simp only [Bool.and_eq_true, beq_iff_eq] at hx
        obtain ⟨rfl, rfl⟩ := hx
        exact ⟨ty, List.mem_reverse.1 hm⟩
      · rintro ⟨ty, hm⟩
        exact ⟨(ty, i, id), List.mem_reverse.2 hm, by simp⟩

/-- C140: the order in which the registrators of a program are made does not matter, if no identifier is registered twice with
an interface and no type twice. -/
theorem C140_order (hp : Named (factories name)) (l l' : List (Nat × Nat × Text)) (hl : l.Perm l')
    (h1 : l.Pairwise (fun a b => ¬ (a.2.1 = b.2.1 ∧ a.2.2 = b.2.2))) (h2 : l.Pairwise (fun a b => ¬ (a.1 = b.1 ∧ a.2.1 = b.2.1))) :
    ∃ s s' : State (factories name), registered l = .ok s ∧ registered l' = .ok s' ∧
      (∀ i id, (newInstance s i id).map Prod.snd = (newInstance s' i id).map Prod.snd) ∧
      ∀ ty i, (staticTypeId s ty i).map Prod.snd = (staticTypeId s' ty i).map Prod.snd := by
  obtain ⟨s, e, k1, k2, -⟩ := C140_factories hp l
  obtain ⟨s', e', k1', k2', -⟩ := C140_factories hp l'
  have key : ∀ (P : Nat × Nat × Text → Bool), l.Pairwise (fun a b => ¬ (P a = true ∧ P b = true)) →
      l.reverse.find? P = l'.reverse.find? P := by
    intro P hP
    have hu : ∀ a ∈ l, ∀ b ∈ l, P a = true → P b = true → a = b := by
      clear hl e e' k1 k1' k2 k2' h1 h2
      induction l with
      | nil => intro a ha; simp at ha
      | cons x l ih =>
        rw [List.pairwise_cons] at hP
        intro a ha b hb pa pb
        rcases List.mem_cons.1 ha with rfl | ha'
        · rcases List.mem_cons.1 hb with rfl | hb'
          · rfl
          · exact absurd ⟨pa, pb⟩ (hP.1 b hb')
        · rcases List.mem_cons.1 hb with rfl | hb'
          · exact absurd ⟨pb, pa⟩ (hP.1 a ha')
          · exact ih hP.2 a ha' b hb' pa pb
    cases hf : l.reverse.find? P with
    | none =>
      symm
      rw [List.find?_eq_none] at hf ⊢
      intro x hx
      exact hf x (List.mem_reverse.2 (hl.mem_iff.2 (List.mem_reverse.1 hx)))
    | some a =>
      have pa := List.find?_some hf
      have ma := List.mem_reverse.1 (List.mem_of_find?_eq_some hf)
      cases hf' : l'.reverse.find? P with
      | none =>
        rw [List.find?_eq_none] at hf'
        exact absurd pa (hf' a (List.mem_reverse.2 (hl.mem_iff.1 ma)))
      | some b =>
        have pb := List.find?_some hf'
        have mb := hl.mem_iff.2 (List.mem_reverse.1 (List.mem_of_find?_eq_some hf'))
        rw [hu a ma b mb pa pb]
  have hw : ∀ i id, lastWith l i id = lastWith l' i id := by
    intro i id
    unfold lastWith
    rw [key]
    refine h1.imp (fun {a b} hab => ?_)
    simp only [Bool.and_eq_true, beq_iff_eq]
    rintro ⟨⟨rfl, rfl⟩, h, h'⟩
    exact hab ⟨h.symm, h'.symm⟩
  have hi : ∀ ty i, lastId l ty i = lastId l' ty i := by
    intro ty i
    unfold lastId
    rw [key]
    refine h2.imp (fun {a b} hab => ?_)
    simp only [Bool.and_eq_true, beq_iff_eq]
    rintro ⟨⟨rfl, rfl⟩, h, h'⟩
    exact hab ⟨h.symm, h'.symm⟩
  refine ⟨s, s', e, e', fun i id => ?_, fun ty i => ?_⟩
  · have a1 := k1 i id
    have a2 := k1' i id
    rw [← hw] at a2
    cases hx : lastWith l i id with
    | none =>
      rw [hx] at a1 a2
      simp only at a1 a2
      rw [a1, a2]
    | some ty =>
      rw [hx] at a1 a2
      obtain ⟨u, a1⟩ := a1
      obtain ⟨u', a2⟩ := a2
      rw [a1, a2]
      rfl
  · obtain ⟨u, a1⟩ := k2 ty i
    obtain ⟨u', a2⟩ := k2' ty i
    rw [a1, a2, hi]
    rfl

end

/-! ### Names -/

/-- Names that tell types apart -/
def goodName : FTy → Text
  | .factory i => 'F' :: List.replicate i 'x'
  | .registry i => 'R' :: List.replicate i 'x'
  | .mixin ty i => 'M' :: (List.replicate ty 'x' ++ 'y' :: List.replicate i 'x')
  | .string => ['S']

theorem goodName_named : Named (factories goodName) := by
  have hr : ∀ {i j : Nat}, List.replicate i 'x' = List.replicate j 'x' → i = j := by
    intro i j h
    simpa using congrArg List.length h
  refine ⟨fun s t h => ?_, fun t => ?_⟩
  · change goodName s = goodName t at h
    cases s <;> cases t <;> simp only [goodName, List.cons.injEq, false_and, true_and, Char.reduceEq] at h
    · rw [hr h]
    · rw [hr h]
    · obtain ⟨h1, h2⟩ := append_sep (by simp) (by simp) h
      rw [hr h1, hr h2]
    · rfl
  · cases t <;> simp [goodName]

/-- Two interfaces and four registrations, among them one of the same identifier with the other interface: the identifiers and
types of the interfaces are kept apart. -/
example :
    (match registered (name := goodName) [(0, 0, ['A']), (1, 1, ['A']), (2, 0, ['B']), (3, 1, ['B'])] with
      | .ok s => (match newInstance s 0 ['A'], newInstance s 1 ['A'], newInstance s 1 ['B'], staticTypeId s 2 0 with
        | .ok a, .ok b, .ok c, .ok d => decide (a.2 = 0 ∧ b.2 = 1 ∧ c.2 = 3 ∧ d.2 = ['B'])
        | _, _, _, _ => false)
      | .error _ => false) = true := by decide +kernel

/-- The requirement on slashes is needed: different types with different names, one cell of two pairs of types. -/
example : ∃ p : Types, (∀ s t, p.name s = p.name t → s = t) ∧ ∃ c t c' t', (c, t) ≠ (c', t') ∧ key p c t = key p c' t' := by
  refine ⟨⟨Fin 4, inferInstance, fun i => ["x".toList, "x /".toList, "b".toList, "/ b".toList].getD i [], fun _ => Unit, fun _ => ()⟩,
    ?_, 0, 3, 1, 2, ?_, ?_⟩
  · change ∀ s t : Fin 4, ["x".toList, "x /".toList, "b".toList, "/ b".toList].getD s [] =
      ["x".toList, "x /".toList, "b".toList, "/ b".toList].getD t [] → s = t
    decide +kernel
  · change ((0 : Fin 4), (3 : Fin 4)) ≠ (1, 2)
    decide
  · decide +kernel

/-- C140 is false of the code if names of types need not differ, as those of classes in unnamed namespaces of two source files:
the registry of one interface is used as that of another. -/
theorem C140_names_false : ¬ ∀ (name : FTy → Text) (_ : ∀ t, '/' ∉ name t) (l : List (Nat × Nat × Text)),
    ∃ s : State (factories name), registered l = .ok s := by
  intro h
  obtain ⟨s, hs⟩ := h (fun t => match t with
    | .factory _ => ['F'] | .registry _ => ['R'] | .mixin ty i => goodName (.mixin ty i) | .string => ['S'])
    (fun t => by cases t <;> simp [goodName]) [(0, 0, ['A']), (1, 1, ['B'])]
  have : registered (name := fun t => match t with
    | .factory _ => ['F'] | .registry _ => ['R'] | .mixin ty i => goodName (.mixin ty i) | .string => ['S'])
    [(0, 0, ['A']), (1, 1, ['B'])] = .error .ub := rfl
  rw [this] at hs
  cases hs

/-- C140 is false of the code if names of types need not differ: two implementations have the identifier of the one registered
last. -/
theorem C140_id_false : ¬ ∀ (name : FTy → Text) (_ : ∀ t, '/' ∉ name t) (l : List (Nat × Nat × Text)) (s : State (factories name)) (ty i : Nat),
    registered l = .ok s → (staticTypeId s ty i).map Prod.snd = .ok (lastId l ty i) := by
  intro h
  have := h (fun t => match t with
    | .factory i => goodName (.factory i) | .registry i => goodName (.registry i) | .mixin _ _ => ['M'] | .string => ['S'])
    (fun t => by cases t <;> simp [goodName]) [(0, 0, ['A']), (1, 0, ['B'])] _ 0 0 rfl
  have h2 : (Except.ok ['B'] : Res Text) = .ok ['A'] := this
  cases h2

end Verif.Infra.Storage
