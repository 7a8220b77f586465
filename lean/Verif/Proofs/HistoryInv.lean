import Verif.Proofs.Evolve
import Verif.Proofs.Record
import Verif.Spec.History
/-!
# Induction over histories
-/

set_option linter.unusedSectionVars false
set_option autoImplicit false

namespace LRU

variable {K V : Type} [KeyEqual K] [DecidableEq K] [DecidableEq V] {O : Oracle K V}

theorem History.reachable (hO : NoListFault O) {s s' : St (Cache K V) K V} {h : List (Call K V)} (hs : Reachable O s)
    (hh : History O s h s') : Reachable O s' := by
  induction hh with
  | nil => exact hs
  | ok _ hd ih => exact ih.after hO hd
  | throw _ hd ih => exact ih.afterThrow hO hd
  | elsewhere _ he _ => exact he.reachable

theorem Rel.at_iff {s : St (Cache K V) K V} {t : St (MCache K V) K V} (hr : Rel s t) (ht : Ok t) {q : Ptr}
    {x : MapNode K V} : At s.c q x ↔ ∃ e ∈ t.c.ents, e.node = x ∧ e.slot = q := by
  constructor
  · intro h
    obtain ⟨e, he, h1, h2, _⟩ := hr.ent_at ht h
    exact ⟨e, he, h1, h2⟩
  · rintro ⟨e, he, rfl, rfl⟩
    refine ⟨by rw [hr.elements]; exact List.mem_map.2 ⟨e, he, rfl⟩, ?_⟩
    rw [hr.rep.order]
    exact List.mem_map.2 ⟨e, he, rfl⟩

theorem Rel.addr_lt {s : St (Cache K V) K V} {t : St (MCache K V) K V} (hr : Rel s t) {x : MapNode K V}
    (hx : x ∈ LRU.elements s.c) : x.addr < s.g.next := by
  rw [hr.elements] at hx
  obtain ⟨e, he, rfl⟩ := List.mem_map.1 hx
  rw [hr.g]
  exact (hr.awf.lt e he).1

/-- The entries of `s'` that were already in `s` have kept position, key and time stamp; the others have fresh
addresses. -/
structure Grown (s s' : St (Cache K V) K V) : Prop where
  ticks : s.g.ticks ≤ s'.g.ticks
  next : s.g.next ≤ s'.g.next
  kind : s'.c.kind = s.c.kind
  at_ : ∀ q x, At s'.c q x →
    (∃ y, At s.c q y ∧ y.addr = x.addr ∧ y.key = x.key ∧ y.info.time = x.info.time) ∨ s.g.next ≤ x.addr

theorem Grown.trans {s s' s'' : St (Cache K V) K V} (h : Grown s s') (h' : Grown s' s'') : Grown s s'' where
  ticks := Nat.le_trans h.ticks h'.ticks
  next := Nat.le_trans h.next h'.next
  kind := h'.kind.trans h.kind
  at_ q x hx := by
    rcases h'.at_ q x hx with ⟨y, hy, h1, h2, h3⟩ | h1
    · rcases h.at_ q y hy with ⟨z, hz, h4, h5, h6⟩ | h4
      · exact .inl ⟨z, hz, h4.trans h1, h5.trans h2, h6.trans h3⟩
      · exact .inr (h1 ▸ h4)
    · exact .inr (Nat.le_trans h.next h1)

theorem Evolves.grown {s s' : St (Cache K V) K V} {t t' : St (MCache K V) K V} (h : Evolves O t t') (hr : Rel s t)
    (ht : Ok t) (hr' : Rel s' t') (ht' : Ok t') : Grown s s' where
  ticks := by rw [hr.g, hr'.g]; exact h.ticks
  next := by rw [hr.g, hr'.g]; exact h.next
  kind := by rw [hr.rep.kind, hr'.rep.kind]; exact h.kind
  at_ q x hx := by
    obtain ⟨e, he, rfl, rfl⟩ := (hr'.at_iff ht').1 hx
    rcases h.ents e he with ⟨y, hy, hyx⟩ | ⟨h1, _⟩
    · exact .inl ⟨y.node, (hr.at_iff ht).2 ⟨y, hy, rfl, hyx.slot⟩, hyx.id, hyx.key, hyx.time⟩
    · exact .inr (by rw [hr.g]; exact h1)

theorem grown_returns (hO : NoListFault O) {s s' : St (Cache K V) K V} {op : Op K V} {r : Res K V}
    (hs : Reachable O s) (hd : Returns O op s r s') : Grown s s' := by
  obtain ⟨t, t', hr, ht, hm, hr', hst⟩ := hs.returns hO hd
  have := step_within evolves_elem hO op t ht
  rw [hm] at this
  exact this.2.grown hr ht hr' hst.ok

theorem grown_throws (hO : NoListFault O) {s s' : St (Cache K V) K V} {op : Op K V} {e : Err}
    (hs : Reachable O s) (hd : Throws O op s e s') : Grown s s' := by
  obtain ⟨t, t', hr, ht, hm, hr', hst⟩ := hs.throws hO hd
  have := step_within evolves_elem hO op t ht
  rw [hm] at this
  exact this.2.grown hr ht hr' hst.ok

theorem History.grown (hO : NoListFault O) {s s' : St (Cache K V) K V} {h : List (Call K V)} (hs : Reachable O s)
    (hh : History O s h s') : Grown s s' := by
  induction hh with
  | nil => exact ⟨Nat.le_refl _, Nat.le_refl _, rfl, fun q x hx => .inl ⟨x, hx, rfl, rfl, rfl⟩⟩
  | ok h1 hd ih => exact ih.trans (grown_returns hO (h1.reachable hO hs) hd)
  | throw h1 hd ih => exact ih.trans (grown_throws hO (h1.reachable hO hs) hd)
  | elsewhere _ he ih =>
    exact ih.trans ⟨he.ticks, he.next, by rw [he.cache], fun q x hx => .inl ⟨x, he.cache ▸ hx, rfl, rfl, rfl⟩⟩

/-- Every element has a list position. -/
theorem Reachable.at_of_mem (hO : NoListFault O) {s : St (Cache K V) K V} (hs : Reachable O s) {x : MapNode K V}
    (hx : x ∈ elements s.c) : ∃ q, At s.c q x := by
  obtain ⟨t, hr, ht⟩ := hs.rel hO
  obtain ⟨e, he, h1, _⟩ := hr.ent_of_mem ht hx
  exact ⟨e.slot, (hr.at_iff ht).2 ⟨e, he, h1, rfl⟩⟩

/-- Entries are determined by their addresses. -/
theorem Reachable.addr_inj (hO : NoListFault O) {s : St (Cache K V) K V} (hs : Reachable O s) {x y : MapNode K V}
    (hx : x ∈ elements s.c) (hy : y ∈ elements s.c) (h : x.addr = y.addr) : x = y := by
  obtain ⟨t, hr, ht⟩ := hs.rel hO
  rw [hr.elements] at hx hy
  obtain ⟨a, ha, rfl⟩ := List.mem_map.1 hx
  obtain ⟨b, hb, rfl⟩ := List.mem_map.1 hy
  rw [map_inj_of_nodup ht.awf.ids a ha b hb h]

/-- An entry that survives a history keeps its key and time stamp. -/
theorem History.same_entry (hO : NoListFault O) {s s' : St (Cache K V) K V} {h : List (Call K V)} (hs : Reachable O s)
    (hh : History O s h s') {x y : MapNode K V} (hx : x ∈ elements s.c) (hy : y ∈ elements s'.c)
    (ha : y.addr = x.addr) : y.key = x.key ∧ y.info.time = x.info.time := by
  obtain ⟨q, hq⟩ := (hh.reachable hO hs).at_of_mem hO hy
  rcases (hh.grown hO hs).at_ q y hq with ⟨z, hz, h1, h2, h3⟩ | h1
  · have := hs.addr_inj hO hz.1 hx (h1.trans ha)
    subst this
    exact ⟨h2.symm, h3.symm⟩
  · obtain ⟨t, hr, _⟩ := hs.rel hO
    have := hr.addr_lt hx
    rw [ha] at h1
    exact absurd (Nat.lt_of_lt_of_le this h1) (Nat.lt_irrefl _)

end LRU
