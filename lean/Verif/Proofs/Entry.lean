import Verif.Spec.Entry
/-!
# Entries: lemmas for `Props.Entry`
-/

set_option autoImplicit false

namespace LRU

variable {K V : Type}

/-- References and elements correspond. -/
structure Stands (σ : Refs K V) (τ : Stand K V) : Prop where
  keys : σ.keys = τ.elems.map (Option.map Prod.fst)
  vals : σ.vals = τ.elems.map (Option.map Prod.snd)
  elems : σ.elems = (List.range τ.elems.length).map fun i => (i, i)
  entries : σ.entries = τ.roots.map fun i => (i, i)

/-- Both undefined, or both defined and related. -/
def Both {α β : Type} (R : α → β → Prop) : Option α → Option β → Prop
  | none, none => True
  | some a, some b => R a b
  | _, _ => False

theorem Both.bind {α β γ δ : Type} {R : α → β → Prop} {S : γ → δ → Prop} {a : Option α} {b : Option β} {f : α → Option γ}
    {g : β → Option δ} (h : Both R a b) (hf : ∀ x y, R x y → Both S (f x) (g y)) : Both S (a.bind f) (b.bind g) := by
  cases a <;> cases b <;> first | exact trivial | exact h.elim | exact hf _ _ h

theorem Both.some_left {α β : Type} {R : α → β → Prop} {a : α} {o : Option β} (h : Both R (some a) o) : ∃ b, o = some b ∧ R a b := by
  cases o with
  | none => exact h.elim
  | some b => exact ⟨b, rfl, h⟩

namespace Stands

variable {σ : Refs K V} {τ : Stand K V}

theorem keyAt (h : Stands σ τ) (i : Nat) : (σ.keys[i]?).join = ((τ.elems[i]?).join).map Prod.fst := by
  rw [h.keys, List.getElem?_map]
  cases τ.elems[i]? with
  | none => rfl
  | some x => cases x <;> rfl

theorem valAt (h : Stands σ τ) (i : Nat) : (σ.vals[i]?).join = ((τ.elems[i]?).join).map Prod.snd := by
  rw [h.vals, List.getElem?_map]
  cases τ.elems[i]? with
  | none => rfl
  | some x => cases x <;> rfl

theorem elemAt (h : Stands σ τ) (i : Nat) : σ.elems[i]? = if i < τ.elems.length then some (i, i) else none := by
  rw [h.elems, List.getElem?_map]
  split
  · rename_i hi; rw [List.getElem?_range hi]; rfl
  · rename_i hi; rw [List.getElem?_eq_none (by rw [List.length_range]; omega)]; rfl

theorem entryAt (h : Stands σ τ) (e : Nat) : σ.entries[e]? = (τ.roots[e]?).map fun i => (i, i) := by
  rw [h.entries, List.getElem?_map]

theorem join_lt {α : Type} {l : List (Option α)} {i : Nat} {x : α} (h : (l[i]?).join = some x) : l[i]? = some (some x) ∧ i < l.length := by
  cases hl : l[i]? with
  | none => rw [hl] at h; cases h
  | some y => rw [hl] at h; exact ⟨congrArg some h, (List.getElem?_eq_some_iff.1 hl).1⟩

theorem set_same {α : Type} {l : List α} {i : Nat} {x : α} (h : l[i]? = some x) : l.set i x = l := by
  obtain ⟨h1, h2⟩ := List.getElem?_eq_some_iff.1 h
  subst h2
  exact List.set_getElem_self h1

theorem set_value (h : Stands σ τ) {i : Nat} {x : K × V} (hx : (τ.elems[i]?).join = some x) (v : V) :
    Stands { σ with vals := σ.vals.set i (some v) } { τ with elems := τ.elems.set i (some (x.1, v)) } := by
  obtain ⟨h1, h2⟩ := join_lt hx
  refine ⟨?_, ?_, ?_, h.entries⟩
  · show σ.keys = (τ.elems.set i _).map _
    rw [List.map_set, h.keys]
    refine (set_same ?_).symm
    rw [List.getElem?_map, h1]; rfl
  · show σ.vals.set i _ = (τ.elems.set i _).map _
    rw [List.map_set, h.vals]; rfl
  · show σ.elems = _
    rw [h.elems, List.length_set]

theorem step (h : Stands σ τ) {p : EStep K V} (hp : p.SameTypes) : Both Stands (p.run σ) (τ.step p) := by
  have live : ∀ i, (τ.elems[i]?).join = none ∨ ∃ x, (τ.elems[i]?).join = some x ∧ i < τ.elems.length := by
    intro i
    cases hx : (τ.elems[i]?).join with
    | none => exact .inl rfl
    | some x => exact .inr ⟨x, rfl, (join_lt hx).2⟩
  cases p with
  | element k v =>
    refine ⟨?_, ?_, ?_, h.entries⟩
    · show σ.keys ++ _ = (τ.elems ++ _).map _
      rw [List.map_append, h.keys]; rfl
    · show σ.vals ++ _ = (τ.elems ++ _).map _
      rw [List.map_append, h.vals]; rfl
    · show σ.elems ++ [(σ.keys.length, σ.vals.length)] = _
      rw [h.elems, h.keys, h.vals, List.length_map, List.length_map, List.length_append, List.length_singleton, List.range_succ,
        List.map_append]
      rfl
  | erase i =>
    simp only [EStep.run, Stand.step, Option.bind_eq_bind, h.elemAt]
    rcases live i with hx | ⟨x, hx, hi⟩
    · rw [hx]
      split
      · show Both Stands (((σ.keys[i]?).join).bind _) none
        rw [h.keyAt, hx]; trivial
      · trivial
    · rw [hx, if_pos hi]
      show Both Stands (((σ.keys[i]?).join).bind _) _
      rw [h.keyAt, hx]
      refine ⟨?_, ?_, ?_, h.entries⟩
      · show σ.keys.set i none = (τ.elems.set i none).map _
        rw [List.map_set, h.keys]; rfl
      · show σ.vals.set i none = (τ.elems.set i none).map _
        rw [List.map_set, h.vals]; rfl
      · show σ.elems = _
        rw [h.elems, List.length_set]
  | assign i v =>
    simp only [EStep.run, Stand.step, Option.bind_eq_bind, h.elemAt]
    rcases live i with hx | ⟨x, hx, hi⟩
    · rw [hx]
      split
      · show Both Stands (((σ.vals[i]?).join).bind _) none
        rw [h.valAt, hx]; trivial
      · trivial
    · rw [hx, if_pos hi]
      show Both Stands (((σ.vals[i]?).join).bind _) _
      rw [h.valAt, hx]
      exact h.set_value hx v
  | deref i =>
    simp only [EStep.run, Stand.step, Option.bind_eq_bind, h.elemAt]
    rcases live i with hx | ⟨x, hx, hi⟩
    · rw [hx]
      split
      · show Both Stands (((σ.keys[i]?).join).bind _) none
        rw [h.keyAt, hx]; trivial
      · trivial
    · rw [hx, if_pos hi]
      show Both Stands (((σ.keys[i]?).join).bind _) _
      rw [h.keyAt, hx]
      exact ⟨h.keys, h.vals, h.elems, by show σ.entries ++ [(i, i)] = (τ.roots ++ [i]).map _; rw [h.entries, List.map_append]; rfl⟩
  | convert e f g =>
    obtain ⟨rfl, rfl⟩ := hp
    simp only [EStep.run, Stand.step, Option.bind_eq_bind, h.entryAt, Refs.bind]
    cases τ.roots[e]? with
    | none => trivial
    | some i =>
      exact ⟨h.keys, h.vals, h.elems, by show σ.entries ++ [(i, i)] = (τ.roots ++ [i]).map _; rw [h.entries, List.map_append]; rfl⟩
  | write e v =>
    simp only [EStep.run, Stand.step, Option.bind_eq_bind, h.entryAt]
    cases τ.roots[e]? with
    | none => trivial
    | some i =>
      show Both Stands (((σ.vals[i]?).join).bind _) (((τ.elems[i]?).join).bind _)
      rw [h.valAt]
      cases hx : (τ.elems[i]?).join with
      | none => trivial
      | some x => exact h.set_value hx v

theorem runAll {ps : List (EStep K V)} (hp : ∀ p ∈ ps, p.SameTypes) :
    ∀ {σ : Refs K V} {τ : Stand K V}, Stands σ τ → Both Stands (EStep.runAll ps σ) (Stand.runAll ps τ) := by
  induction ps with
  | nil => intro σ τ h; exact h
  | cons p ps ih =>
    intro σ τ h
    exact (h.step (hp p List.mem_cons_self)).bind fun x y hxy => ih (fun q hq => hp q (List.mem_cons_of_mem _ hq)) hxy

theorem empty : Stands (Refs.empty : Refs K V) Stand.empty := ⟨rfl, rfl, rfl, rfl⟩

theorem key (h : Stands σ τ) (e : Nat) : σ.key e = (τ.entry e).map Prod.fst := by
  unfold Refs.key Stand.entry
  simp only [Option.bind_eq_bind, h.entryAt]
  cases τ.roots[e]? with
  | none => rfl
  | some i => exact h.keyAt i

theorem value (h : Stands σ τ) (e : Nat) : σ.value e = (τ.entry e).map Prod.snd := by
  unfold Refs.value Stand.entry
  simp only [Option.bind_eq_bind, h.entryAt]
  cases τ.roots[e]? with
  | none => rfl
  | some i => exact h.valAt i

end Stands

/-- Addresses of destroyed keys and values, and the references of entries, stay what they are. -/
structure RefsLater (σ σ' : Refs K V) : Prop where
  entries : ∀ (e : Nat) (p : Nat × Nat), σ.entries[e]? = some p → σ'.entries[e]? = some p
  keys : ∀ a : Nat, σ.keys[a]? = some none → σ'.keys[a]? = some none
  vals : ∀ a : Nat, σ.vals[a]? = some none → σ'.vals[a]? = some none

theorem RefsLater.refl (σ : Refs K V) : RefsLater σ σ := ⟨fun _ _ h => h, fun _ h => h, fun _ h => h⟩

theorem RefsLater.trans {σ σ' σ'' : Refs K V} (h : RefsLater σ σ') (h' : RefsLater σ' σ'') : RefsLater σ σ'' :=
  ⟨fun e p hp => h'.entries e p (h.entries e p hp), fun a ha => h'.keys a (h.keys a ha), fun a ha => h'.vals a (h.vals a ha)⟩

theorem append_keeps {α : Type} {l m : List α} {i : Nat} {x : α} (h : l[i]? = some x) : (l ++ m)[i]? = some x := by
  rw [List.getElem?_append_left (List.getElem?_eq_some_iff.1 h).1, h]

theorem set_none_keeps {α : Type} {l : List (Option α)} {i j : Nat} (h : l[i]? = some none) : (l.set j none)[i]? = some none := by
  by_cases hij : j = i
  · subst hij; exact List.getElem?_set_self (List.getElem?_eq_some_iff.1 h).1
  · rw [List.getElem?_set_ne hij, h]

theorem set_live_keeps {α : Type} {l : List (Option α)} {i j : Nat} {x y : α} (hx : (l[j]?).join = some x)
    (h : l[i]? = some none) : (l.set j (some y))[i]? = some none := by
  have hij : j ≠ i := by rintro rfl; rw [h] at hx; cases hx
  rw [List.getElem?_set_ne hij, h]

theorem Refs.bind_keeps {α : Type} {l l' : List (Option α)} {a b : Nat} {f : Option (α → α)} (h : Refs.bind l a f = some (l', b)) :
    (∀ i : Nat, l[i]? = some none → l'[i]? = some none) ∧ (f ≠ none → l'[b]? = some none) := by
  cases f with
  | none =>
    injection h with h
    injection h with h1 h2
    subst h1
    exact ⟨fun _ h => h, fun h => absurd rfl h⟩
  | some f =>
    simp only [Refs.bind, Option.bind_eq_bind] at h
    cases hx : (l[a]?).join with
    | none => rw [hx] at h; cases h
    | some x =>
      rw [hx] at h
      injection h with h
      injection h with h1 h2
      subst h1 h2
      exact ⟨fun i hi => append_keeps hi, fun _ => by rw [List.getElem?_append_right (Nat.le_refl _), Nat.sub_self]; rfl⟩

theorem EStep.later {σ σ' : Refs K V} {p : EStep K V} (h : p.run σ = some σ') : RefsLater σ σ' := by
  cases p with
  | element k v =>
    injection h with h; subst h
    exact ⟨fun _ _ h => h, fun _ h => append_keeps h, fun _ h => append_keeps h⟩
  | erase i =>
    obtain ⟨p, _, h⟩ := Option.bind_eq_some_iff.1 h
    obtain ⟨_, _, h⟩ := Option.bind_eq_some_iff.1 h
    injection h with h; subst h
    exact ⟨fun _ _ h => h, fun _ h => set_none_keeps h, fun _ h => set_none_keeps h⟩
  | assign i v =>
    obtain ⟨p, _, h⟩ := Option.bind_eq_some_iff.1 h
    obtain ⟨_, h1, h⟩ := Option.bind_eq_some_iff.1 h
    injection h with h; subst h
    exact ⟨fun _ _ h => h, fun _ h => h, fun _ h => set_live_keeps h1 h⟩
  | deref i =>
    obtain ⟨p, _, h⟩ := Option.bind_eq_some_iff.1 h
    obtain ⟨_, _, h⟩ := Option.bind_eq_some_iff.1 h
    injection h with h; subst h
    exact ⟨fun _ _ h => append_keeps h, fun _ h => h, fun _ h => h⟩
  | convert e f g =>
    obtain ⟨p, _, h⟩ := Option.bind_eq_some_iff.1 h
    obtain ⟨⟨ks, a⟩, h1, h⟩ := Option.bind_eq_some_iff.1 h
    obtain ⟨⟨vs, b⟩, h2, h⟩ := Option.bind_eq_some_iff.1 h
    injection h with h; subst h
    exact ⟨fun _ _ h => append_keeps h, (Refs.bind_keeps h1).1, (Refs.bind_keeps h2).1⟩
  | write e v =>
    obtain ⟨p, _, h⟩ := Option.bind_eq_some_iff.1 h
    obtain ⟨_, h1, h⟩ := Option.bind_eq_some_iff.1 h
    injection h with h; subst h
    exact ⟨fun _ _ h => h, fun _ h => h, fun _ h => set_live_keeps h1 h⟩

theorem EStep.runAll_later {ps : List (EStep K V)} : ∀ {σ σ' : Refs K V}, EStep.runAll ps σ = some σ' → RefsLater σ σ' := by
  induction ps with
  | nil => intro σ σ' h; injection h with h; subst h; exact .refl _
  | cons p ps ih =>
    intro σ σ' h
    obtain ⟨σ1, h1, h2⟩ := Option.bind_eq_some_iff.1 h
    exact (EStep.later h1).trans (ih h2)

end LRU
