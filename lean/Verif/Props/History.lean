import Verif.Proofs.Refine
import Verif.Proofs.Ages
import Verif.Props.Insert
import Verif.Props.Exceptions
import Verif.Proofs.Count
import Verif.Spec.DemoTrace
/-!
# Histories: C03, C04, C08, C62

What a cache holds after any history of calls, compared with a textbook LRU map (`Spec.Textbook`) and with the log of
uses and writes. All theorems hold for plain and timed caches. They assume that allocating a list node does not fail
and that assigning a value does not throw: C23 and C07 show what happens otherwise.
-/

set_option linter.unusedSectionVars false
set_option autoImplicit false

namespace LRU

variable {K V : Type} [KeyEqual K] [DecidableEq K] [DecidableEq V] {O : Oracle K V}
  {s s' s'' : St (Cache K V) K V} {h : List (Call K V)} {op : Op K V} {r : Res K V} {k : K} {v : V}

/-- C62. After any history, the contents and the capacity of the cache are those of a textbook LRU map to which the
same was done. -/
theorem C62_refines_textbook_lru (hO : NoListFault O) (hA : NoAssignFault O) (hs : Reachable O s)
    (hh : History O s h s') : ∃ acts, Plays h acts ∧ asLru s'.c = (asLru s.c).run acts := by
  induction hh with
  | nil => exact ⟨[], .nil, rfl⟩
  | ok hh hd ih =>
    obtain ⟨acts, h1, h2⟩ := ih
    refine ⟨_, .ok h1 rfl, ?_⟩
    rw [Lru.run_append, ← h2]
    exact call_returns_refines hO hA (hh.reachable hO hs) hd
  | throw hh hd ih =>
    obtain ⟨acts, h1, h2⟩ := ih
    obtain ⟨m, h3⟩ := call_throws_refines hO hA (hh.reachable hO hs) hd
    refine ⟨_, .throw m h1 rfl, ?_⟩
    rw [Lru.run_append, ← h2]
    exact h3
  | elsewhere hh he ih =>
    obtain ⟨acts, h1, h2⟩ := ih
    exact ⟨acts, h1, by rw [he.cache]; exact h2⟩

theorem Reachable.lru_wf (hO : NoListFault O) (hs : Reachable O s) : (asLru s.c).WF := by
  obtain ⟨t, hr, ht⟩ := hs.rel hO
  rw [hr.lru]
  unfold Lru.WF
  cases hc : t.c.lru.capacity with
  | none => simp only [MCache.lru, ht.awf.capNone hc, List.map_nil]
  | some n => simpa only [MCache.lru, List.length_map] using ht.awf.bound n hc

theorem Reachable.distinct (hO : NoListFault O) (hs : Reachable O s) :
    (entries s.c).Pairwise (fun a b => keq a.1 b.1 = false) := by
  obtain ⟨t, hr, ht⟩ := hs.rel hO
  show (asLru s.c).items.Pairwise _
  rw [hr.lru]
  show (t.c.ents.map _).Pairwise _
  rw [List.pairwise_map]
  exact ht.awf.keys

/-- C08. After any history, the entries in order of iteration are sorted by the time of their last use: iteration
visits entries used longer ago first. The log of uses consists of the keys in the cache at the start, in order, and
those stored or found since. -/
theorem C08_iteration_is_recency_order (hO : NoListFault O) (hA : NoAssignFault O) (hs : Reachable O s)
    (hh : History O s h s') :
    ∃ acts, Plays h acts ∧
      (elements s'.c).Pairwise (fun a b => age (keys s.c ++ uses acts) b.key < age (keys s.c ++ uses acts) a.key) ∧
      ∀ x ∈ elements s'.c, ∃ k ∈ keys s.c ++ uses acts, keq k x.key = true := by
  obtain ⟨acts, h1, h2⟩ := C62_refines_textbook_lru hO hA hs hh
  have h3 := Recent.run (hs.lru_wf hO) (Recent.self (hs.distinct hO)) acts
  rw [← h2] at h3
  have e : (entries s.c).map (·.1) = keys s.c := by unfold entries keys; rw [List.map_map]; rfl
  rw [show (asLru s.c).items.map (·.1) = keys s.c from e] at h3
  refine ⟨acts, h1, ?_, ?_⟩
  · have := h3.sorted
    exact List.pairwise_map.1 this
  · intro x hx
    have := h3.used x.pair (List.mem_map.2 ⟨x, hx, rfl⟩)
    exact List.any_eq_true.1 this

/-- C04. After any history, inserting a new key into a full cache removes exactly the entry whose last use lies
furthest in the past, and keeps the others in order. -/
theorem C04_evicts_least_recently_used (hO : NoListFault O) (hA : NoAssignFault O) (hs : Reachable O s)
    (hh : History O s h s') :
    ∃ acts, Plays h acts ∧ ∀ op k v r s'', op.Inserts k v → ¬ Stored s'.c k → s'.c.capacity = some (count s'.c) →
      0 < count s'.c → Returns O op s' r s'' →
      ∃ x rest new, elements s'.c = x :: rest ∧ elements s''.c = rest ++ [new] ∧ Holds new k v ∧
        (∀ y ∈ rest, age (keys s.c ++ uses acts) y.key < age (keys s.c ++ uses acts) x.key) ∧
        ¬ Stored s''.c x.key := by
  obtain ⟨acts, h1, h2, h3⟩ := C08_iteration_is_recency_order hO hA hs hh
  refine ⟨acts, h1, ?_⟩
  intro op k v r s'' hi hk hcap hpos hd
  obtain ⟨new, h4, _, h5, _⟩ := C04_insert_evicts_least_recent hO (hh.reachable hO hs) hi hk hcap hpos hd
  cases hl : elements s'.c with
  | nil => rw [count, hl] at hpos; cases hpos
  | cons x rest =>
    rw [hl] at h2 h5
    have h6 := (List.pairwise_cons.1 h2).1
    refine ⟨x, rest, new, rfl, h5, h4, h6, ?_⟩
    rintro ⟨y, hy, hyx⟩
    rw [h5] at hy
    rcases List.mem_append.1 hy with hy | hy
    · have := h6 y hy
      rw [age_congr _ hyx] at this
      exact Nat.lt_irrefl _ this
    · rw [List.mem_singleton] at hy
      subst hy
      refine hk ⟨x, by rw [hl]; exact List.mem_cons_self .., ?_⟩
      rw [← h4.1, keq_comm]
      exact hyx

/-- C03. After any history, every entry has the value last written for its key, and so do the values that can be
observed: through `lookup`, through iterators and through references. -/
theorem C03_latest_write (hO : NoListFault O) (hA : NoAssignFault O) (hs : Reachable O s) (hh : History O s h s') :
    ∃ acts, Plays h acts ∧
      (∀ x ∈ elements s'.c, latest (entries s.c ++ writes acts) x.key = some x.info.value) ∧
      (∀ k p v s'', Returns O (.lookup k) s' (.ref p v) s'' → latest (entries s.c ++ writes acts) k = some v) ∧
      (∀ u v s'', Returns O (.uValue u) s' (.value v) s'' →
        ∃ p k, u = some p ∧ keyOfNode s'.c p = some k ∧ latest (entries s.c ++ writes acts) k = some v) ∧
      (∀ o v s'', Returns O (.oValue o) s' (.value v) s'' →
        ∃ q k, o = some q ∧ keyAtPos s'.c q = some k ∧ latest (entries s.c ++ writes acts) k = some v) ∧
      (∀ p v s'', Returns O (.read p) s' (.value v) s'' →
        ∃ k, keyOfNode s'.c p = some k ∧ latest (entries s.c ++ writes acts) k = some v) := by
  obtain ⟨acts, h1, h2⟩ := C62_refines_textbook_lru hO hA hs hh
  have h3 := Fresh.run (hs.lru_wf hO) (Fresh.self (hs.distinct hO)) acts
  rw [← h2] at h3
  have hx : ∀ x ∈ elements s'.c, latest (entries s.c ++ writes acts) x.key = some x.info.value :=
    fun x hx => h3 x.pair (List.mem_map.2 ⟨x, hx, rfl⟩)
  have hs' := hh.reachable hO hs
  obtain ⟨t, hr, ht⟩ := hs'.rel hO
  have he : ∀ e ∈ t.c.ents, latest (entries s.c ++ writes acts) e.key = some e.val := by
    intro e he
    exact hx e.node (by rw [hr.elements]; exact List.mem_map.2 ⟨e, he, rfl⟩)
  have hsafe : ∀ {op r s''}, Returns O op s' r s'' → Safe s'.c op := by
    intro op r s'' hd
    refine Classical.byContradiction fun hn => ?_
    have := (C33_preconditions_are_exact (op := op) hO hs').1.2 hn
    rw [hd] at this
    cases this
  refine ⟨acts, h1, hx, ?_, ?_, ?_, ?_⟩
  · intro k p v s'' hd
    obtain ⟨x, h4, h5, _⟩ := C07_hit_moves_entry_to_most_recent hO hA hs' (.inr (.inr rfl)) hd
      (by rintro (h | h) <;> cases h)
    simp only [Hit] at h5
    injection h5 with _ h5
    obtain ⟨e, h6, rfl⟩ := hr.entryFor_some h4
    obtain ⟨h7, h8⟩ := find_mem h6
    rw [← latest_congr _ h8, he e h7, h5]
    rfl
  · intro u v s'' hd
    obtain ⟨h4, h5⟩ := hsafe hd
    cases u with
    | none => exact absurd rfl h4
    | some p =>
      obtain ⟨e, h6, rfl⟩ := List.mem_map.1 (hr.validU_some.1 h5)
      refine ⟨e.id, e.key, rfl, hr.keyOfNode h6, ?_⟩
      obtain ⟨t', h7, _⟩ := hr.returns hO ht hd
      have h8 := uValue_own (O := O) ht h6
      rw [he e h6]
      by_cases hxp : expiredAt O t.c.kind t.g e.time = true
      · rw [if_pos hxp] at h8
        have := h7.symm.trans (bind_throw h8)
        cases this
      · rw [if_neg hxp] at h8
        have := h7.symm.trans (bind_ok h8)
        injection this with this
        injection this with this
        rw [this]
  · intro o v s'' hd
    cases o with
    | none => cases (show Impl.step O (.oValue none) s' = .throw .invalidIterator s' from rfl).symm.trans hd
    | some q =>
      obtain ⟨e, h6, rfl⟩ := List.mem_map.1 ((hr.validO_some ht).1 (hsafe hd))
      refine ⟨e.slot, e.key, rfl, hr.keyAtPos h6, ?_⟩
      obtain ⟨t', h7, _⟩ := hr.returns hO ht hd
      have h8 := oValue_own (O := O) ht h6
      rw [he e h6]
      by_cases hxp : expiredAt O t.c.kind t.g e.time = true
      · rw [if_pos hxp] at h8
        have := h7.symm.trans (bind_throw h8)
        cases this
      · rw [if_neg hxp] at h8
        have := h7.symm.trans (bind_ok h8)
        injection this with this
        injection this with this
        rw [this]
  · intro p v s'' hd
    obtain ⟨e, h6, rfl⟩ := List.mem_map.1 (hr.validU_some.1 (hsafe hd))
    refine ⟨e.key, hr.keyOfNode h6, ?_⟩
    obtain ⟨t', h7, _⟩ := hr.returns hO ht hd
    have := h7.symm.trans (bind_ok (read_own ht h6))
    injection this with this
    injection this with this
    rw [he e h6, this]

/-- A history that meets the hypotheses, starting from a cache with entries: uses by different calls, a miss, an update,
an eviction and a removal. The last line compares the cache with the textbook map. -/
example : NoListFault calmO ∧ NoAssignFault calmO ∧ Reachable calmO (demoState calmO demo3 0) ∧
    keys (demoState calmO demo3 0).c = [2, 3, 1] ∧
    ((runFrom calmO ([.contains 3, .insert 2 21, .find 9, .insert 4 40, .lookup 3, .erase 2, .contains 4] : List (Op Nat Nat))
        [] (demoState calmO demo3 0)).map fun p =>
      (uses (played p.1), writes (played p.1), keys p.2.c)) = some ([3, 2, 4, 3, 4], [(2, 21), (4, 40)], [3, 4]) ∧
    ((runFrom calmO ([.contains 3, .insert 2 21, .find 9, .insert 4 40, .lookup 3, .erase 2, .contains 4] : List (Op Nat Nat))
        [] (demoState calmO demo3 0)).map fun p =>
      (entries p.2.c, ((asLru (demoState calmO demo3 0).c).run (played p.1)).items)) =
      some ([(3, 30), (4, 40)], [(3, 30), (4, 40)]) :=
  ⟨calmO_calm.noListFault, calmO_calm.noAssignFault, demo3_reachable, by decide +kernel, by decide +kernel,
    by decide +kernel⟩

/-- Runs are histories, so the theorems apply to it. -/
example (h : List (Call Nat Nat)) (s' : St (Cache Nat Nat) Nat Nat) (ops : List (Op Nat Nat))
    (he : runFrom calmO ops [] (demoState calmO demo3 0) = some (h, s')) :
    History calmO (demoState calmO demo3 0) h s' ∧ Plays h (played h) :=
  ⟨(runFrom_run he .nil).history, plays_played h⟩

end LRU
