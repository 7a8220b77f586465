/-!
# List lemmas
-/

namespace LRU

theorem find?_of_unique {α : Type} {p : α → Bool} {l : List α} {x : α}
    (hx : x ∈ l) (hp : p x = true) (u : ∀ y ∈ l, p y = true → y = x) : l.find? p = some x := by
  induction l with
  | nil => simp at hx
  | cons a t ih =>
    by_cases ha : p a = true
    · have := u a (by simp) ha
      subst this
      simp [ha]
    · have ha' : p a = false := by simpa using ha
      rw [List.find?_cons_of_neg ha]
      refine ih ?_ (fun y hy h => u y (by simp [hy]) h)
      rcases List.mem_cons.1 hx with rfl | h
      · exact absurd hp ha
      · exact h

/-- Searching two permutations of a list with at most one match gives the same result. -/
theorem find?_perm {α : Type} {p : α → Bool} {l₁ l₂ : List α} (h : l₁.Perm l₂)
    (u : ∀ x ∈ l₂, ∀ y ∈ l₂, p x = true → p y = true → x = y) : l₁.find? p = l₂.find? p := by
  cases h2 : l₂.find? p with
  | none =>
    rw [List.find?_eq_none] at h2 ⊢
    intro x hx
    exact h2 x (h.mem_iff.1 hx)
  | some x =>
    have hx := List.mem_of_find?_eq_some h2
    have hp := List.find?_some h2
    refine find?_of_unique (h.mem_iff.2 hx) hp ?_
    intro y hy hy'
    exact u y (h.mem_iff.1 hy) x hx hy' hp

theorem map_inj_of_nodup {α β : Type} {f : α → β} {l : List α} (h : (l.map f).Nodup) :
    ∀ x ∈ l, ∀ y ∈ l, f x = f y → x = y := by
  induction l with
  | nil => simp
  | cons a t ih =>
    rw [List.map_cons, List.nodup_cons] at h
    intro x hx y hy hxy
    rcases List.mem_cons.1 hx with rfl | hx <;> rcases List.mem_cons.1 hy with rfl | hy
    · rfl
    · exact absurd (List.mem_map.2 ⟨y, hy, hxy.symm⟩ : _ ∈ t.map f) h.1
    · rename_i hx'
      exact absurd (List.mem_map.2 ⟨x, hx', hxy⟩ : _ ∈ t.map f) h.1
    · exact ih h.2 x hx y hy hxy

theorem find?_key {α β : Type} [BEq β] [LawfulBEq β] {f : α → β} {l : List α} (h : (l.map f).Nodup) {x : α} (hx : x ∈ l) :
    l.find? (fun y => f y == f x) = some x :=
  find?_of_unique hx (by simp) (fun y hy hy' => map_inj_of_nodup h y hy x hx (by simpa using hy'))

theorem find?_map_eq {α β : Type} {p : β → Bool} {f : α → β} {l : List α} :
    (l.map f).find? p = (l.find? (fun x => p (f x))).map f := by
  rw [List.find?_map]; rfl

theorem pairwise_filter_append {α : Type} {R : α → α → Prop} {l : List α} {p : α → Bool} {x : α}
    (h : l.Pairwise R) (hx : ∀ y ∈ l, p y = true → R y x) : (l.filter p ++ [x]).Pairwise R := by
  rw [List.pairwise_append]
  refine ⟨h.filter p, by simp, ?_⟩
  intro a ha b hb
  simp at hb
  subst hb
  rw [List.mem_filter] at ha
  exact hx a ha.1 ha.2

/-- Moving the unique match of a predicate to the end is a permutation. -/
theorem filter_append_perm {α : Type} {p : α → Bool} {l : List α} {x : α} (hx : x ∈ l)
    (hp : p x = false) (u : ∀ y ∈ l, p y = false → y = x) (nd : l.Nodup) :
    (l.filter p ++ [x]).Perm l := by
  induction l with
  | nil => simp at hx
  | cons a t ih =>
    rw [List.nodup_cons] at nd
    by_cases ha : p a = true
    · rw [List.filter_cons_of_pos ha, List.cons_append]
      refine (ih ?_ (fun y hy h => u y (by simp [hy]) h) nd.2).cons a
      rcases List.mem_cons.1 hx with rfl | h
      · simp [ha] at hp
      · exact h
    · have : a = x := u a (by simp) (by simpa using ha)
      subst this
      rw [List.filter_cons_of_neg ha]
      have : t.filter p = t := by
        rw [List.filter_eq_self]
        intro y hy
        cases hpy : p y with
        | true => rfl
        | false => exact absurd (u y (by simp [hy]) hpy ▸ hy) nd.1
      rw [this]
      exact List.perm_append_comm

theorem nodup_of_map {α β : Type} {f : α → β} {l : List α} (h : (l.map f).Nodup) : l.Nodup := by
  induction l with
  | nil => exact List.nodup_nil
  | cons a t ih =>
    rw [List.map_cons, List.nodup_cons] at h
    rw [List.nodup_cons]
    exact ⟨fun ha => h.1 (List.mem_map.2 ⟨a, ha, rfl⟩), ih h.2⟩

end LRU
