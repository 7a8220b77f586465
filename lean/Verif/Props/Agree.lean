import Verif.Props.Insert
import Verif.Spec.Reorder
/-!
# `insert` and `emplace` agree (C55)
-/

set_option autoImplicit false
set_option linter.unusedSectionVars false

namespace LRU

variable {K V : Type} [KeyEqual K] [DecidableEq K] [DecidableEq V] {O : Oracle K V}
variable {s s₁ s₂ : St (Cache K V) K V} {k : K} {v : V}

/-- Everything but the number of actions that could have thrown is the same (`emplace` constructs a key, and a value for
an update, where `insert` does not); hash tables may be ordered differently. -/
structure SameEffect (s t : St (Cache K V) K V) : Prop where
  cache : Reordered s.c t.c
  elements : elements t.c = elements s.c
  ext : t.g.ext = s.g.ext
  stats : t.g.stats = s.g.stats
  nextStat : t.g.nextStat = s.g.nextStat
  log : t.g.log = s.g.log
  next : t.g.next = s.g.next
  ticks : t.g.ticks = s.g.ticks

theorem SameEffect.of_mid {t₁ t₂ : St (MCache K V) K V} (h₁ : Rel s₁ t₁) (h₂ : Rel s₂ t₂) (hc : t₂.c = t₁.c)
    (g : Shared K V) (q₁ : Quiet g t₁.g) (q₂ : Quiet g t₂.g) (hn : t₂.g.next = t₁.g.next)
    (ht : t₂.g.ticks = t₁.g.ticks) : SameEffect s₁ s₂ := by
  have r2 := h₂.rep
  rw [hc] at r2
  refine ⟨⟨r2.map.trans h₁.rep.map.symm, r2.order.trans h₁.rep.order.symm, r2.last.trans h₁.rep.last.symm,
    r2.cap.trans h₁.rep.cap.symm, r2.kind.trans h₁.rep.kind.symm, r2.obs.trans h₁.rep.obs.symm⟩, ?_, ?_, ?_, ?_, ?_, ?_, ?_⟩
  · rw [h₁.elements, h₂.elements, hc]
  · rw [h₁.g, h₂.g, q₁.ext, q₂.ext]
  · rw [h₁.g, h₂.g, q₁.stats, q₂.stats]
  · rw [h₁.g, h₂.g, q₁.nextStat, q₂.nextStat]
  · rw [h₁.g, h₂.g, q₁.log, q₂.log]
  · rw [h₁.g, h₂.g, hn]
  · rw [h₁.g, h₂.g, ht]

/-- When both return, `insert(k, v)` and `emplace(k, v)` return the same and have the same effect. -/
theorem C55_insert_emplace_agree (hO : NoListFault O) (h : Reachable O s) {r₁ r₂ : Res K V}
    (h₁ : Returns O (.insert k v) s r₁ s₁) (h₂ : Returns O (.emplace k v) s r₂ s₂) : r₂ = r₁ ∧ SameEffect s₁ s₂ := by
  obtain ⟨t, hr, ht⟩ := h.rel hO
  obtain ⟨t₁, m₁, e₁, -⟩ := hr.returns hO ht h₁
  obtain ⟨t₂, m₂, e₂, -⟩ := hr.returns hO ht h₂
  obtain ⟨b₁, p₁, o₁, rfl⟩ := mid_inserts_ok hO ht (.inl rfl) m₁
  obtain ⟨b₂, p₂, o₂, rfl⟩ := mid_inserts_ok hO ht (.inr rfl) m₂
  have qq : Quiet t.g t.g := ⟨rfl, rfl, rfl, rfl, Nat.le_refl _, Nat.le_refl _⟩
  cases o₁ with
  | zero c1 =>
    cases o₂ with
    | zero c2 => exact ⟨rfl, .of_mid e₁ e₂ rfl _ qq qq rfl rfl⟩
    | full g' e r n f c2 => rw [c1] at c2; cases c2
    | room g' n q f c2 l => rw [c1] at c2; cases c2; exact absurd l (Nat.not_lt_zero _)
    | update g' e n f c2 => rw [c1] at c2; cases c2
  | full g1 e1 l1 n1 f1 c1 en1 len1 q1 _ x1 =>
    cases o₂ with
    | zero c2 => rw [c1] at c2; cases c2
    | full g2 e2 l2 n2 f2 c2 en2 len2 q2 _ x2 =>
      rw [en1] at en2
      obtain ⟨rfl, rfl⟩ := List.cons.inj en2
      exact ⟨rfl, .of_mid e₁ e₂ rfl _ q1 q2 (x2.1.trans x1.1.symm) (x2.2.trans x1.2.symm)⟩
    | room g2 n2 q f2 c2 l => rw [c1] at c2; cases c2; rw [en1] at l; simp at l; omega
    | update g2 e2 n2 f2 c2 => rw [f1] at f2; cases f2
  | room g1 n1 p1 f1 c1 l1 q1 _ _ x1 =>
    cases o₂ with
    | zero c2 => rw [c1] at c2; cases c2; exact absurd l1 (Nat.not_lt_zero _)
    | full g2 e2 l2 n2 f2 c2 en2 len2 q2 _ x2 => rw [c1] at c2; cases c2; rw [en2] at l1; simp at l1; omega
    | room g2 n2 p2 f2 c2 l2 q2 _ _ x2 =>
      obtain ⟨rfl, x1, y1⟩ := x1
      obtain ⟨rfl, x2, y2⟩ := x2
      exact ⟨rfl, .of_mid e₁ e₂ rfl _ q1 q2 (x2.trans x1.symm) (y2.trans y1.symm)⟩
    | update g2 e2 n2 f2 c2 => rw [f1] at f2; cases f2
  | update g1 e1 n1 f1 c1 q1 x1 =>
    cases o₂ with
    | zero c2 => rw [c1] at c2; cases c2
    | full g2 e2 l2 n2 f2 => rw [f1] at f2; cases f2
    | room g2 n2 p2 f2 => rw [f1] at f2; cases f2
    | update g2 e2 n2 f2 c2 q2 x2 =>
      rw [f1] at f2
      cases f2
      exact ⟨rfl, .of_mid e₁ e₂ rfl _ q1 q2 (x2.1.trans x1.1.symm) (x2.2.trans x1.2.symm)⟩

/-- `insert` and `emplace` are undefined in the same case: while the capacity is indeterminate. -/
theorem C55_insert_emplace_undefined (hO : NoListFault O) (h : Reachable O s) :
    (Impl.step O (.insert k v) s = .ub ↔ s.c.capacity = none) ∧ (Impl.step O (.emplace k v) s = .ub ↔ s.c.capacity = none) := by
  obtain ⟨t, hr, ht⟩ := h.rel hO
  have key : ∀ op : Op K V, op.Inserts k v → (Impl.step O op s = .ub ↔ s.c.capacity = none) := by
    intro op hi
    have h1 := step_sim hO op s t hr trivial
    have h2 : ∀ {m : M (St (MCache K V) K V) (Bool × Option Ptr)}, InsertOut O k v t (m t) →
        ((Impl.ret m fun x => (.inserted x.1 x.2 : Res K V)) t = .ub ↔ t.c.cap = none) := by
      intro m hm
      constructor
      · intro h3
        cases hmt : m t with
        | ok a t' => rw [ret_ok hmt] at h3; cases h3
        | throw e t' => rw [ret_throw hmt] at h3; cases h3
        | ub => rw [hmt] at hm; cases hm; assumption
        | terminate => rw [hmt] at hm; cases hm
        | diverge => rw [hmt] at hm; cases hm
      · intro h3
        refine ret_ub ?_
        cases hm' : m t <;> rw [hm'] at hm <;> cases hm <;> simp_all
    have h4 : Mid.step O op t = .ub ↔ t.c.cap = none := by
      rcases hi with rfl | rfl
      · exact h2 (insert_out ht hO k v)
      · exact h2 (emplace_out ht hO k v)
    rw [hr.rep.cap, ← h4]
    revert h1
    cases Impl.step O op s <;> cases Mid.step O op t <;> intro h1 <;> first | exact h1.elim | simp
  exact ⟨key _ (.inl rfl), key _ (.inr rfl)⟩

/-- If no constructor, assignment or allocation throws, `insert` and `emplace` are the same: both return, with the same
result and effect. -/
theorem C55_insert_emplace_same (hC : Calm O) (h : Reachable O s) (hcap : s.c.capacity ≠ none) :
    ∃ r s₁ s₂, Returns O (.insert k v) s r s₁ ∧ Returns O (.emplace k v) s r s₂ ∧ SameEffect s₁ s₂ := by
  obtain ⟨r₁, s₁, h₁⟩ := insert_returns hC h (op := .insert k v) (.inl rfl) hcap
  obtain ⟨r₂, s₂, h₂⟩ := insert_returns hC h (op := .emplace k v) (.inr rfl) hcap
  obtain ⟨rfl, he⟩ := C55_insert_emplace_agree hC.noListFault h h₁ h₂
  exact ⟨_, s₁, s₂, h₁, h₂, he⟩

/-! ### The hypotheses are met -/

/-- On a full cache of three entries, for an absent key (evicting) and for a stored one (updating). -/
example : Reachable calmO (demoState calmO demo3 0) ∧
    (∃ r s', Returns calmO (.insert 4 40) (demoState calmO demo3 0) r s') ∧
    (∃ r s', Returns calmO (.emplace 4 40) (demoState calmO demo3 0) r s') ∧
    (∃ r s', Returns calmO (.insert 2 40) (demoState calmO demo3 0) r s') ∧
    (∃ r s', Returns calmO (.emplace 2 40) (demoState calmO demo3 0) r s') :=
  ⟨demo3_reachable, insert_returns calmO_calm demo3_reachable (.inl rfl) (by decide +kernel),
    insert_returns calmO_calm demo3_reachable (.inr rfl) (by decide +kernel),
    insert_returns calmO_calm demo3_reachable (.inl rfl) (by decide +kernel),
    insert_returns calmO_calm demo3_reachable (.inr rfl) (by decide +kernel)⟩

/-- The two do differ in what may throw: `emplace` constructs a value before it updates. -/
example : (Impl.step calmO (.insert 2 40) (demoState calmO demo3 0)).state.map (·.g.steps) ≠
    (Impl.step calmO (.emplace 2 40) (demoState calmO demo3 0)).state.map (·.g.steps) := by decide +kernel

end LRU
