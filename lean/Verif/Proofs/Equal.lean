import Verif.Proofs.SafeCalls
import Verif.Proofs.Copy
import Verif.Spec.Worlds
/-!
# Comparison of caches
-/

set_option linter.unusedSectionVars false
set_option autoImplicit false

namespace LRU

variable {K V : Type} [KeyEqual K] [DecidableEq K] [DecidableEq V]

theorem infoEq_iff {kind : Kind} {x y : MapNode K V} :
    (decide (y.key = x.key) && Impl.infoEq kind x.info y.info) = true ↔ compared kind x = compared kind y := by
  unfold compared Impl.infoEq
  cases kind
  · simp [eq_comm (a := y.key)]
  · simp [eq_comm (a := y.key)]

theorem mapEq_iff {a b : Cache K V} {s t : St (Cache K V) K V} {x y : St (MCache K V) K V} (ha : s.c = a) (hb : t.c = b)
    (hx : Rel s x) (hy : Rel t y) (hk : x.c.ents.map (·.key) = y.c.ents.map (·.key)) :
    Impl.mapEq a b = true ↔ (elements a).map (compared a.kind) = (elements b).map (compared a.kind) := by
  subst ha hb
  have hlen : x.c.ents.length = y.c.ents.length := by simpa using congrArg List.length hk
  unfold Impl.mapEq
  rw [hx.map_length, hy.map_length, hlen, beq_self_eq_true, Bool.true_and, List.all_eq_true, hx.elements, hy.elements]
  have hfind : ∀ e ∈ x.c.ents, ∀ f ∈ y.c.ents, e.key = f.key →
      t.c.map.find? (fun m => keq m.key e.node.key) = some f.node := by
    intro e he f hf hef
    have h1 : y.c.ents.find? (fun z => keq z.key e.key) = some f :=
      find?_of_unique hf (by rw [hef]; exact KeyEqual.refl _) (fun z hz hz' =>
        key_inj_of_pairwise' hy.awf.keys z hz f hf hz' (by rw [hef]; exact KeyEqual.refl _))
    rw [find?_perm hy.rep.map, find?_map_eq]
    · exact congrArg (Option.map _) h1
    · intro u hu v hv h h'
      obtain ⟨u', hu', rfl⟩ := List.mem_map.1 hu
      obtain ⟨v', hv', rfl⟩ := List.mem_map.1 hv
      have : u' = v' := key_inj_of_pairwise' hy.awf.keys u' hu' v' hv' h h'
      rw [this]
  have key : ∀ (l m : List (Ent K V)), (∀ e ∈ l, e ∈ x.c.ents) → (∀ e ∈ m, e ∈ y.c.ents) →
      l.map (·.key) = m.map (·.key) →
      ((∀ e ∈ l, (match t.c.map.find? (fun m => keq m.key e.node.key) with
        | none => false
        | some m => decide (m.key = e.node.key) && Impl.infoEq s.c.kind e.node.info m.info) = true) ↔
       (l.map Ent.node).map (compared s.c.kind) = (m.map Ent.node).map (compared s.c.kind)) := by
    intro l
    induction l with
    | nil =>
      intro m _ _ h
      cases m with
      | nil => simp
      | cons f r => simp at h
    | cons e r ih =>
      intro m hl hm h
      cases m with
      | nil => simp at h
      | cons f r' =>
        simp only [List.map_cons, List.cons.injEq] at h
        have h1 := hfind e (hl e (List.mem_cons_self ..)) f (hm f (List.mem_cons_self ..)) h.1
        simp only [List.forall_mem_cons, List.map_cons, List.cons.injEq, h1, infoEq_iff]
        rw [ih r' (fun z hz => hl z (List.mem_cons_of_mem _ hz)) (fun z hz => hm z (List.mem_cons_of_mem _ hz)) h.2]
  rw [← key _ _ (fun _ h => h) (fun _ h => h) hk]
  constructor
  · intro h e he
    exact h e.node (hx.rep.map.mem_iff.2 (List.mem_map.2 ⟨e, he, rfl⟩))
  · intro h n hn
    obtain ⟨e, he, rfl⟩ := List.mem_map.1 (hx.rep.map.mem_iff.1 hn)
    exact h e he

/-- Two different caches compare equal iff they hold the same in the same order. -/
theorem cacheEq_iff {s t : St (Cache K V) K V} {x y : St (MCache K V) K V} (hx : Rel s x) (hy : Rel t y) :
    ∃ r, Impl.cacheEq s.c t.c = some r ∧
      (r = true ↔ (elements s.c).map (compared s.c.kind) = (elements t.c).map (compared s.c.kind)) := by
  have hkeys : (elements s.c).map (compared s.c.kind) = (elements t.c).map (compared s.c.kind) →
      x.c.ents.map (·.key) = y.c.ents.map (·.key) := by
    intro h
    have h1 := congrArg (List.map (·.1)) h
    rw [hx.elements, hy.elements] at h1
    simp only [List.map_map] at h1
    exact h1
  unfold Impl.cacheEq
  by_cases hk : x.c.ents.map (·.key) = y.c.ents.map (·.key)
  · have h1 := mapEq_iff rfl rfl hx hy hk
    by_cases h2 : Impl.mapEq s.c t.c = true
    · rw [if_pos h2, hx.orderKeys, hy.orderKeys]
      exact ⟨true, by simp [hk], by simp [h1.1 h2]⟩
    · rw [if_neg h2]
      exact ⟨false, rfl, ⟨fun h => (by cases h), fun h => absurd (h1.2 h) h2⟩⟩
  · by_cases h2 : Impl.mapEq s.c t.c = true
    · rw [if_pos h2, hx.orderKeys, hy.orderKeys]
      exact ⟨false, by simp [hk], ⟨fun h => (by cases h), fun h => absurd (hkeys h) hk⟩⟩
    · rw [if_neg h2]
      exact ⟨false, rfl, ⟨fun h => (by cases h), fun h => absurd (hkeys h) hk⟩⟩

end LRU
