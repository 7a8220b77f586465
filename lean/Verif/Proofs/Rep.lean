import Verif.Proofs.Mid
import Verif.Proofs.Lists
/-!
# Representation relation and simulation
-/

namespace LRU

variable {K V : Type} [KeyEqual K]

theorem keq_comm (a b : K) : keq a b = keq b a := KeyEqual.symm a b

theorem keq_false_trans {a b c : K} (h : keq a b = true) : keq a c = keq b c := by
  cases hbc : keq b c with
  | true => exact KeyEqual.trans a b c h hbc
  | false =>
    cases hac : keq a c with
    | false => rfl
    | true =>
      have := KeyEqual.trans b a c (by rw [keq_comm]; exact h) hac
      rw [this] at hbc; cases hbc

/-- A model cache and a list-machine cache with the same content. -/
structure Rep (c : Cache K V) (a : MCache K V) : Prop where
  order : c.order = a.ents.map Ent.lnode
  map : c.map.Perm (a.ents.map Ent.node)
  last : c.last = a.last
  cap : c.capacity = a.cap
  kind : c.kind = a.kind
  obs : c.obs = a.obs

/-- Invariant of the list machine. -/
structure AWF (a : MCache K V) (g : Shared K V) : Prop where
  ids : (a.ents.map (·.id)).Nodup
  slots : (a.ents.map (·.slot)).Nodup
  keys : a.ents.Pairwise (fun x y => keq x.key y.key = false)
  linked : ∀ e ∈ a.ents, ∀ q, e.ord = some q → q ∈ a.ents.map (·.slot) → q = e.slot
  bound : ∀ n, a.cap = some n → a.ents.length ≤ n
  capNone : a.cap = none → a.ents = []
  lt : ∀ e ∈ a.ents, e.id < g.next ∧ e.slot < g.next ∧ ∀ q, e.ord = some q → q < g.next
  foreign : ∀ p n q, a.last = some p → p ∉ a.ents.map (·.id) → n ∈ g.ext → n.addr = p →
    n.info.order = some q → q ∉ a.ents.map (·.slot) ∧ q < g.next
  lastLt : ∀ p, a.last = some p → p < g.next
  extDisj : ∀ e ∈ a.ents, ∀ n ∈ g.ext, n.addr ≠ e.id
  extLt : ∀ n ∈ g.ext, n.addr < g.next

/-- Model state and list-machine state correspond. -/
structure Rel (s : St (Cache K V) K V) (t : St (MCache K V) K V) : Prop where
  rep : Rep s.c t.c
  g : s.g = t.g
  awf : AWF t.c t.g

/-- Outcomes correspond, with a postcondition on normal results. -/
def OutRel {σ τ α : Type} (R : σ → τ → Prop) (Q : α → τ → Prop) : Out σ α → Out τ α → Prop
  | .ok a s, .ok b t => a = b ∧ R s t ∧ Q b t
  | .throw e s, .throw e' t => e = e' ∧ R s t
  | .ub, .ub => True
  | .terminate, .terminate => True
  | .diverge, .diverge => True
  | _, _ => False

/-- The model program `m` and the list-machine program `m'` have corresponding outcomes from
corresponding states satisfying `P`. -/
def RSim {α : Type} (P : St (MCache K V) K V → Prop) (m : M (St (Cache K V) K V) α)
    (m' : M (St (MCache K V) K V) α) (Q : α → St (MCache K V) K V → Prop) : Prop :=
  ∀ s t, Rel s t → P t → OutRel Rel Q (m s) (m' t)

/-- Simulation without side conditions. -/
abbrev Sim {α : Type} (m : M (St (Cache K V) K V) α) (m' : M (St (MCache K V) K V) α) : Prop :=
  RSim (fun _ => True) m m' (fun _ _ => True)

section rules

variable {α β : Type} {P P' : St (MCache K V) K V → Prop}

theorem RSim.bind {m : M (St (Cache K V) K V) α} {m' f f'} {Q : α → St (MCache K V) K V → Prop}
    {Q' : β → St (MCache K V) K V → Prop}
    (h : RSim P m m' Q) (h' : ∀ a, RSim (Q a) (f a) (f' a) Q') :
    RSim P (m >>= f) (m' >>= f') Q' := by
  intro s t hr hp
  have := h s t hr hp
  show OutRel Rel Q' (M.bind m f s) (M.bind m' f' t)
  unfold M.bind
  cases hm : m s <;> cases hm' : m' t <;> rw [hm, hm'] at this <;> simp only [OutRel] at this ⊢ <;>
    first | exact this.elim | skip
  · obtain ⟨rfl, h1, h2⟩ := this
    exact h' _ _ _ h1 h2
  · exact this

theorem RSim.pure {a : α} {Q : α → St (MCache K V) K V → Prop} (h : ∀ t, P t → Q a t) :
    RSim P (Pure.pure a) (Pure.pure a) Q := by
  intro s t hr hp
  exact ⟨rfl, hr, h t hp⟩

theorem RSim.throw {e : Err} {Q : α → St (MCache K V) K V → Prop} :
    RSim P (M.throw e) (M.throw e) Q := by
  intro s t hr _
  exact ⟨rfl, hr⟩

theorem RSim.ub {Q : α → St (MCache K V) K V → Prop} : RSim P M.ub M.ub Q := by
  intro s t _ _
  trivial

theorem RSim.diverge {Q : α → St (MCache K V) K V → Prop} : RSim P M.diverge M.diverge Q := by
  intro s t _ _
  trivial

theorem RSim.pre {m : M (St (Cache K V) K V) α} {m'} {Q : α → St (MCache K V) K V → Prop}
    (h : RSim P m m' Q) (hp : ∀ t, P' t → P t) : RSim P' m m' Q :=
  fun s t hr hp' => h s t hr (hp t hp')

theorem RSim.post {m : M (St (Cache K V) K V) α} {m'} {Q Q' : α → St (MCache K V) K V → Prop}
    (h : RSim P m m' Q) (hq : ∀ a t, Q a t → Q' a t) : RSim P m m' Q' := by
  intro s t hr hp
  have := h s t hr hp
  cases hm : m s <;> cases hm' : m' t <;> rw [hm, hm'] at this <;> simp only [OutRel] at this ⊢ <;>
    first | exact this.elim | skip
  · exact ⟨this.1, this.2.1, hq _ _ this.2.2⟩
  · exact this

theorem RSim.sim {m : M (St (Cache K V) K V) α} {m'} {Q : α → St (MCache K V) K V → Prop}
    (h : RSim P m m' Q) : RSim P m m' (fun _ _ => True) := h.post (fun _ _ _ => trivial)

theorem RSim.weaken {m : M (St (Cache K V) K V) α} {m'} {Q : α → St (MCache K V) K V → Prop}
    (h : RSim (fun _ => True) m m' Q) : RSim P m m' Q := h.pre (fun _ _ => trivial)

theorem RSim.ite {c : Prop} [Decidable c] {m₁ m₂ : M (St (Cache K V) K V) α} {m₁' m₂'}
    {Q : α → St (MCache K V) K V → Prop}
    (h₁ : c → RSim P m₁ m₁' Q) (h₂ : ¬c → RSim P m₂ m₂' Q) :
    RSim P (if c then m₁ else m₂) (if c then m₁' else m₂') Q := by
  split <;> simp_all

theorem RSim.noexcept {m : M (St (Cache K V) K V) α} {m'} {Q : α → St (MCache K V) K V → Prop}
    (h : RSim P m m' Q) : RSim P (M.noexcept m) (M.noexcept m') Q := by
  intro s t hr hp
  have := h s t hr hp
  unfold M.noexcept
  cases hm : m s <;> cases hm' : m' t <;> rw [hm, hm'] at this <;> simp only [OutRel] at this ⊢ <;>
    first | exact this.elim | exact this | trivial

theorem RSim.ret {m : M (St (Cache K V) K V) α} {m'} {Q : α → St (MCache K V) K V → Prop}
    {f : α → Res K V} (h : RSim P m m' Q) :
    RSim P (Impl.ret m f) (Impl.ret m' f) (fun _ _ => True) :=
  h.bind (fun _ => RSim.pure (fun _ _ => trivial))

end rules

/-! ### Effects on the shared state -/

theorem AWF.mono {a : MCache K V} {g g' : Shared K V} (h : AWF a g) (he : g'.ext = g.ext)
    (hn : g.next ≤ g'.next) : AWF a g' where
  ids := h.ids
  slots := h.slots
  keys := h.keys
  linked := h.linked
  bound := h.bound
  capNone := h.capNone
  lt := fun e he => by
    obtain ⟨h1, h2, h3⟩ := h.lt e he
    exact ⟨Nat.lt_of_lt_of_le h1 hn, Nat.lt_of_lt_of_le h2 hn, fun q hq => Nat.lt_of_lt_of_le (h3 q hq) hn⟩
  foreign := fun p n q h1 h2 h3 h4 h5 => by
    rw [he] at h3
    obtain ⟨h6, h7⟩ := h.foreign p n q h1 h2 h3 h4 h5
    exact ⟨h6, Nat.lt_of_lt_of_le h7 hn⟩
  lastLt := fun p hp => Nat.lt_of_lt_of_le (h.lastLt p hp) hn
  extDisj := by rw [he]; exact h.extDisj
  extLt := by
    rw [he]
    intro n hn'
    exact Nat.lt_of_lt_of_le (h.extLt n hn') hn

section effects

variable {P : MCache K V → Prop} (O : Oracle K V)

theorem attempt_sim {site : Site} :
    RSim (fun t => P t.c) (attempt O site) (attempt O site) (fun _ t => P t.c) := by
  intro s t hr hp
  obtain ⟨hrep, hg, hw⟩ := hr
  unfold attempt
  simp only [hg]
  split
  · exact ⟨rfl, hrep, rfl, hw.mono rfl (Nat.le_refl _)⟩
  · exact ⟨rfl, ⟨hrep, rfl, hw.mono rfl (Nat.le_refl _)⟩, hp⟩

theorem may_sim {site : Site} : RSim (fun t => P t.c) (may O site) (may O site) (fun _ t => P t.c) := by
  intro s t hr hp
  obtain ⟨hrep, hg, hw⟩ := hr
  unfold may
  simp only [hg]
  exact ⟨rfl, ⟨hrep, rfl, hw.mono rfl (Nat.le_refl _)⟩, hp⟩

theorem now_sim : RSim (fun t => P t.c) (now O) (now O) (fun _ t => P t.c) := by
  intro s t hr hp
  obtain ⟨hrep, hg, hw⟩ := hr
  unfold now
  simp only [hg]
  exact ⟨rfl, ⟨hrep, rfl, hw.mono rfl (Nat.le_refl _)⟩, hp⟩

theorem emit_sim {e : Event K V} :
    RSim (fun t => P t.c) (emit e) (emit e) (fun _ t => P t.c) := by
  intro s t hr hp
  obtain ⟨hrep, hg, hw⟩ := hr
  unfold emit M.modify
  simp only [hg]
  exact ⟨rfl, ⟨hrep, rfl, hw.mono rfl (Nat.le_refl _)⟩, hp⟩

theorem modStats_sim {i : Nat} {f : Statistics K → Statistics K} :
    RSim (fun t => P t.c) (modStats (V := V) i f) (modStats i f) (fun _ t => P t.c) := by
  intro s t hr hp
  obtain ⟨hrep, hg, hw⟩ := hr
  unfold modStats M.modify
  simp only [hg]
  exact ⟨rfl, ⟨hrep, rfl, hw.mono rfl (Nat.le_refl _)⟩, hp⟩

theorem callEach_sim {ev : Nat → Event K V} {l : List Nat} :
    RSim (fun t => P t.c) (callEach O ev l) (callEach O ev l) (fun _ t => P t.c) := by
  induction l with
  | nil => exact RSim.pure (fun _ h => h)
  | cons cb r ih => exact emit_sim.bind fun _ => (attempt_sim O).bind fun _ => ih

variable [DecidableEq K]

theorem countHit_sim {o : Obs} {k : K} :
    RSim (fun t => P t.c) (countHit (V := V) o k) (countHit o k) (fun _ t => P t.c) := by
  unfold countHit
  cases o.stats with
  | none => exact RSim.pure (fun _ h => h)
  | some i => exact modStats_sim

theorem countMiss_sim {o : Obs} {k : K} :
    RSim (fun t => P t.c) (countMiss (V := V) o k) (countMiss o k) (fun _ t => P t.c) := by
  unfold countMiss
  cases o.stats with
  | none => exact RSim.pure (fun _ h => h)
  | some i => exact modStats_sim

theorem registerHit_sim {o : Obs} {k : K} {v : V} :
    RSim (fun t => P t.c) (registerHit O o k v) (registerHit O o k v) (fun _ t => P t.c) :=
  countHit_sim.bind fun _ => (callEach_sim O).bind fun _ => callEach_sim O

theorem registerMiss_sim {o : Obs} {k : K} :
    RSim (fun t => P t.c) (registerMiss O o k) (registerMiss O o k) (fun _ t => P t.c) :=
  countMiss_sim.bind fun _ => (callEach_sim O).bind fun _ => callEach_sim O

end effects

end LRU
