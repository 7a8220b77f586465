import Verif.Spec.Functors
/-!
# Lemmas about the function objects of caches
-/

set_option autoImplicit false
set_option linter.unusedSectionVars false

namespace LRU

variable {H E : Type} [Inhabited H] [Inhabited E]

/-- A property of caches that all steps keep holds of all caches of a program. -/
def AllF (P : Functors H E → Prop) (w : List (Option (Functors H E))) : Prop := ∀ c, some c ∈ w → P c

theorem AllF.get {P : Functors H E → Prop} {w : List (Option (Functors H E))} (h : AllF P w) {i : Nat} {c : Functors H E}
    (hi : w[i]? = some (some c)) : P c := h c (List.mem_of_getElem? hi)

theorem AllF.set {P : Functors H E → Prop} {w : List (Option (Functors H E))} (h : AllF P w) (i : Nat)
    {c : Functors H E} (hc : P c) : AllF P (w.set i (some c)) := by
  intro d hd
  rcases List.mem_or_eq_of_mem_set hd with hd | hd
  · exact h d hd
  · injection hd with hd; exact hd ▸ hc

theorem AllF.drop {P : Functors H E → Prop} {w : List (Option (Functors H E))} (h : AllF P w) (i : Nat) :
    AllF P (w.set i none) := by
  intro d hd
  rcases List.mem_or_eq_of_mem_set hd with hd | hd
  · exact h d hd
  · cases hd

theorem AllF.add {P : Functors H E → Prop} {w : List (Option (Functors H E))} (h : AllF P w)
    {c : Functors H E} (hc : P c) : AllF P (w ++ [some c]) := by
  intro d hd
  rcases List.mem_append.1 hd with hd | hd
  · exact h d hd
  · rw [List.mem_singleton] at hd
    injection hd with hd; exact hd ▸ hc

/-- A step keeps a property of caches that its constituents keep. -/
theorem FStep.run_keeps {P : Functors H E → Prop} {w w' : List (Option (Functors H E))} {p : FStep H E}
    (h : AllF P w) (hp : p.run w = some w')
    (hcreate : ∀ hash eq n, p = .create hash eq n → P (.create hash eq n))
    (hblank : p.IsMoveCtor → P Functors.blank)
    (huse : ∀ c keep add, P c → P (Functors.use c keep add)) : AllF P w' := by
  cases p with
  | create hash eq n =>
    injection hp with hp; subst hp
    exact h.add (hcreate _ _ _ rfl)
  | destroy i =>
    simp only [FStep.run] at hp
    split at hp
    · injection hp with hp; subst hp; exact h.drop i
    · cases hp
  | use i keep add =>
    simp only [FStep.run] at hp
    split at hp
    · rename_i c hc
      injection hp with hp; subst hp
      exact h.set i (huse _ _ _ (h.get hc))
    · cases hp
  | swap i j =>
    simp only [FStep.run] at hp
    split at hp
    · rename_i a b ha hb
      split at hp <;> injection hp with hp <;> subst hp
      · exact h
      · exact (h.set i (h.get hb)).set j (h.get ha)
    · cases hp
  | moveCtor i =>
    simp only [FStep.run] at hp
    split at hp
    · rename_i b hb
      injection hp with hp; subst hp
      exact (h.set i (hblank trivial)).add (h.get hb)
    · cases hp
  | moveAssign i j =>
    simp only [FStep.run] at hp
    split at hp
    · rename_i a b ha hb
      split at hp <;> injection hp with hp <;> subst hp
      · exact h
      · exact (h.set i (h.get hb)).set j (h.get ha)
    · cases hp
  | copyCtor i =>
    simp only [FStep.run] at hp
    split at hp
    · rename_i b hb
      injection hp with hp; subst hp
      exact h.add (h.get hb)
    · cases hp
  | copyAssign i j =>
    simp only [FStep.run] at hp
    split at hp
    · rename_i a b ha hb
      split at hp <;> injection hp with hp <;> subst hp
      · exact h
      · exact h.set i (h.get hb)
    · cases hp

theorem FStep.runAll_keeps {P : Functors H E → Prop} {ps : List (FStep H E)} :
    ∀ {w w' : List (Option (Functors H E))}, AllF P w → FStep.runAll ps w = some w' →
    (∀ hash eq n, .create hash eq n ∈ ps → P (.create hash eq n)) →
    ((∃ p ∈ ps, p.IsMoveCtor) → P Functors.blank) →
    (∀ c keep add, P c → P (Functors.use c keep add)) → AllF P w' := by
  induction ps with
  | nil => intro w w' h hp _ _ _; injection hp with hp; exact hp ▸ h
  | cons p ps ih =>
    intro w w' h hp hc hb hu
    unfold FStep.runAll at hp
    split at hp
    · cases hp
    · rename_i w1 h1
      refine ih (FStep.run_keeps h h1 ?_ ?_ hu) hp ?_ ?_ hu
      · rintro hash eq n rfl; exact hc _ _ _ List.mem_cons_self
      · intro hm; exact hb ⟨p, List.mem_cons_self, hm⟩
      · intro hash eq n hm; exact hc _ _ _ (List.mem_cons_of_mem _ hm)
      · rintro ⟨q, hq, hm⟩; exact hb ⟨q, List.mem_cons_of_mem _ hq, hm⟩

theorem Functors.create_finds (hash : H) (eq : E) (n : Nat) : (Functors.create hash eq n).Finds := by
  refine ⟨?_, rfl⟩
  intro x hx
  rw [(List.mem_replicate.1 hx).2]
  exact ⟨rfl, rfl, rfl⟩

theorem Functors.use_finds {c : Functors H E} (h : c.Finds) (keep add : Nat) : (c.use keep add).Finds := by
  refine ⟨?_, h.2⟩
  intro x hx
  rcases List.mem_append.1 hx with hx | hx
  · exact h.1 x (List.mem_of_mem_take hx)
  · rw [(List.mem_replicate.1 hx).2]
    exact ⟨rfl, rfl, h.2.symm⟩

theorem FStep.mem_given {ps : List (FStep H E)} {hash : H} {eq : E} {n : Nat} (h : .create hash eq n ∈ ps) :
    (hash, eq) ∈ FStep.given ps := by
  induction ps with
  | nil => cases h
  | cons p ps ih =>
    rcases List.mem_cons.1 h with rfl | h'
    · exact List.mem_cons_self
    · clear h
      cases p <;> first | exact ih h' | exact List.mem_cons_of_mem _ (ih h')

end LRU
