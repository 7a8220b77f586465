import Verif.Proofs.Outcomes
import Verif.Spec.Demo
/-!
# Insertion: C04 (single call), C05, C06, C13, C56 (update)

`s` is any cache a program can produce without copying caches. `Op.Inserts op k v`: the call is `insert(k, v)`
or `emplace(k, v)`. Equations between `elements` are equations between lists of map nodes in recency
order: they fix keys, values, insertion times, order, and the identity (address) of every element.
-/

set_option linter.unusedSectionVars false
set_option autoImplicit false

namespace LRU

variable {K V : Type} [KeyEqual K] [DecidableEq K] [DecidableEq V] {O : Oracle K V}
  {s s' : St (Cache K V) K V} {op : Op K V} {r : Res K V} {k : K} {v : V}

/-- C04. Inserting an absent key into a full cache removes exactly the least recently used entry; the new
entry becomes the most recently used one and everything else stays the same. -/
theorem C04_insert_evicts_least_recent (hO : NoListFault O) (h : Reachable O s) (hi : op.Inserts k v)
    (hk : ¬ Stored s.c k) (hcap : s.c.capacity = some (count s.c)) (hpos : 0 < count s.c)
    (hd : Returns O op s r s') :
    ∃ x, Holds x k v ∧ r = .inserted true (some x.addr) ∧
      elements s'.c = (elements s.c).tail ++ [x] ∧
      s'.c.capacity = s.c.capacity ∧ s'.c.kind = s.c.kind ∧ s'.c.obs = s.c.obs := by
  obtain ⟨t, t', b, p, hr, ht, ho, hr', rfl⟩ := h.inserts hO hi hd
  rw [hr.not_stored] at hk
  rw [hr.rep.cap, hr.count] at hcap
  rw [hr.count] at hpos
  cases ho with
  | zero hc => rw [hc] at hcap; injection hcap with hcap; omega
  | full g' e l n _ hc hl hn _ _ =>
    refine ⟨Ent.node ⟨t.g.next, e.slot, k, v, t.c.kind.stamp (O.clock t.g.ticks), some e.slot⟩, ⟨rfl, rfl⟩, rfl,
      ?_, ?_, ?_, ?_⟩
    · rw [hr'.elements, hr.elements, hl, List.map_append]; rfl
    · rw [hr'.rep.cap, hr.rep.cap]
    · rw [hr'.rep.kind, hr.rep.kind]
    · rw [hr'.rep.obs, hr.rep.obs]
  | room g' n q _ hc hl _ _ _ => rw [hc] at hcap; injection hcap with hcap; omega
  | update g' e n hf _ _ => rw [hf] at hk; cases hk

/-- C05. Inserting an absent key while there is space removes nothing: the new entry is appended as the
most recently used one. -/
theorem C05_insert_with_space_keeps_everything (hO : NoListFault O) (h : Reachable O s) (hi : op.Inserts k v)
    (hk : ¬ Stored s.c k) {n : Nat} (hcap : s.c.capacity = some n) (hroom : count s.c < n)
    (hd : Returns O op s r s') :
    ∃ x, Holds x k v ∧ r = .inserted true (some x.addr) ∧
      elements s'.c = elements s.c ++ [x] ∧ count s'.c = count s.c + 1 ∧
      s'.c.capacity = s.c.capacity ∧ s'.c.kind = s.c.kind ∧ s'.c.obs = s.c.obs := by
  obtain ⟨t, t', b, p, hr, ht, ho, hr', rfl⟩ := h.inserts hO hi hd
  rw [hr.not_stored] at hk
  rw [hr.rep.cap] at hcap
  rw [hr.count] at hroom
  cases ho with
  | zero hc => rw [hc] at hcap; injection hcap with hcap; omega
  | full g' e l m _ hc hl hn _ _ =>
    rw [hc] at hcap; injection hcap with hcap
    rw [hl, List.length_cons] at hroom; omega
  | room g' m q _ hc hl _ _ _ =>
    refine ⟨Ent.node ⟨t.g.next, q, k, v, t.c.kind.stamp (O.clock t.g.ticks), some q⟩, ⟨rfl, rfl⟩, rfl,
      ?_, ?_, ?_, ?_, ?_⟩
    · rw [hr'.elements, hr.elements, List.map_append]; rfl
    · rw [hr'.count, hr.count]; simp
    · rw [hr'.rep.cap, hr.rep.cap]
    · rw [hr'.rep.kind, hr.rep.kind]
    · rw [hr'.rep.obs, hr.rep.obs]
  | update g' e m hf _ _ => rw [hf] at hk; cases hk

/-- C06, C56. Inserting a stored key replaces the value of that very entry (same node, same stored key, same
insertion time), makes it the most recently used one, and leaves the other entries as they are. -/
theorem C06_insert_present_key_updates (hO : NoListFault O) (h : Reachable O s) (hi : op.Inserts k v)
    {x : MapNode K V} (hk : entryFor s.c k = some x) (hcap : s.c.capacity ≠ some 0)
    (hd : Returns O op s r s') :
    r = .inserted false (some x.addr) ∧
      elements s'.c = others s.c k ++ [{ x with info := { x.info with value := v } }] ∧
      count s'.c = count s.c ∧
      s'.c.capacity = s.c.capacity ∧ s'.c.kind = s.c.kind ∧ s'.c.obs = s.c.obs := by
  obtain ⟨t, t', b, p, hr, ht, ho, hr', rfl⟩ := h.inserts hO hi hd
  obtain ⟨e, he, rfl⟩ := hr.entryFor_some hk
  rw [hr.rep.cap] at hcap
  cases ho with
  | zero hc => exact absurd hc hcap
  | full g' e l m hf hc hl hn _ _ => rw [hf] at he; cases he
  | room g' m q hf hc hl _ _ _ => rw [hf] at he; cases he
  | update g' e' m hf _ _ =>
    rw [hf] at he
    injection he with he
    subst he
    refine ⟨rfl, ?_, ?_, ?_, ?_, ?_⟩
    · rw [hr'.elements, ← hr.without ht hf, List.map_append]; rfl
    · rw [hr'.count, hr.count, ← (toEnd_perm ht (find_mem hf).1).length_eq]
      simp [toEnd, LRU.without]
    · rw [hr'.rep.cap, hr.rep.cap]
    · rw [hr'.rep.kind, hr.rep.kind]
    · rw [hr'.rep.obs, hr.rep.obs]

/-- C13. With capacity 0 an insertion does nothing and returns `{false, end()}`. -/
theorem C13_capacity_zero_stores_nothing (hi : op.Inserts k v)
    (hcap : s.c.capacity = some 0) : Returns O op s (.inserted false none) s := by
  rcases hi with rfl | rfl
  · show Impl.ret (Impl.insert O k v) (fun r => .inserted r.1 r.2) s = _
    have : Impl.insert O k v s = .ok (false, none) s := by
      unfold Impl.insert
      rw [bind_ok (m := Impl.readCapacity) (a := 0) (s' := s) (by simp [Impl.readCapacity, hcap])]
      rfl
    exact bind_ok this
  · show Impl.ret (Impl.emplace O k v) (fun r => .inserted r.1 r.2) s = _
    have : Impl.emplace O k v s = .ok (false, none) s := by
      unfold Impl.emplace
      rw [bind_ok (m := Impl.readCapacity) (a := 0) (s' := s) (by simp [Impl.readCapacity, hcap])]
      rfl
    exact bind_ok this

/-- C13. A cache with capacity 0 is empty; so nothing is ever found in it. -/
theorem C13_capacity_zero_is_empty (hO : NoListFault O) (h : Reachable O s) (hcap : s.c.capacity = some 0) :
    elements s.c = [] ∧ s.c.map = [] ∧ ∀ k, ¬ Stored s.c k := by
  obtain ⟨t, hr, ht⟩ := h.rel hO
  have hb := ht.awf.bound 0 (by rw [← hr.rep.cap, hcap])
  have he : t.c.ents = [] := List.eq_nil_of_length_eq_zero (by omega)
  refine ⟨by rw [hr.elements, he]; rfl, ?_, ?_⟩
  · have := hr.map_length
    rw [he] at this
    exact List.eq_nil_of_length_eq_zero this
  · intro k hk
    rw [hr.stored, he] at hk
    obtain ⟨_, hk⟩ := hk
    cases hk

/-- Insertions do return: without failing allocations, constructors and assignments, on every cache whose
capacity is set. -/
theorem insert_returns (hC : Calm O) (h : Reachable O s) (hi : op.Inserts k v) (hcap : s.c.capacity ≠ none) :
    ∃ r s', Returns O op s r s' := by
  obtain ⟨t, hr, ht⟩ := h.rel hC.noListFault
  rw [hr.rep.cap] at hcap
  have key : ∀ o, InsertOut O k v t o → ∃ r t', o = .ok r t' := by
    intro o ho
    cases ho with
    | unset hc => exact absurd hc hcap
    | zero _ => exact ⟨_, _, rfl⟩
    | fault g' site n _ _ _ _ hf => rw [hC] at hf; cases hf
    | full g' e r n => exact ⟨_, _, rfl⟩
    | room g' n q => exact ⟨_, _, rfl⟩
    | update g' e n => exact ⟨_, _, rfl⟩
    | updateFault g' e m n _ _ _ hf => rw [hC] at hf; cases hf
  have : ∃ r t', Mid.step O op t = .ok r t' := by
    rcases hi with rfl | rfl
    · obtain ⟨a, t', h'⟩ := key _ (insert_out ht hC.noListFault k v)
      exact ⟨_, t', bind_ok h'⟩
    · obtain ⟨a, t', h'⟩ := key _ (emplace_out ht hC.noListFault k v)
      exact ⟨_, t', bind_ok h'⟩
  obtain ⟨r, t', hm⟩ := this
  obtain ⟨s', h1, _⟩ := hr.back_ok hC.noListFault hm
  exact ⟨r, s', h1⟩

/-! ### The hypotheses are met -/

/-- C04: a full cache of three entries, an absent key. -/
example : Reachable calmO (demoState calmO demo3 0) ∧ ¬ Stored (demoState calmO demo3 0).c 4 ∧
    (demoState calmO demo3 0).c.capacity = some (count (demoState calmO demo3 0).c) ∧
    0 < count (demoState calmO demo3 0).c ∧
    ∃ r s', Returns calmO (.insert 4 40) (demoState calmO demo3 0) r s' :=
  ⟨demo3_reachable, by rw [show Stored (demoState calmO demo3 0).c 4 ↔ _ from Iff.rfl]; unfold Stored; decide +kernel,
    by decide +kernel, by decide +kernel,
    insert_returns calmO_calm demo3_reachable (.inl rfl) (by decide +kernel)⟩

/-- C05: the same cache after an erasure. -/
def demo2 : List (WOp Nat Nat) := demo3 ++ [.op 0 (.erase 3)]

theorem demo2_reachable : Reachable calmO (demoState calmO demo2 0) :=
  demoState_reachable (by decide +kernel) rfl

example : (¬ ∃ n ∈ elements (demoState calmO demo2 0).c, keq n.key 4 = true) ∧
    (demoState calmO demo2 0).c.capacity = some 3 ∧ count (demoState calmO demo2 0).c < 3 ∧
    entries (demoState calmO demo2 0).c = [(2, 20), (1, 10)] := by decide +kernel

/-- C06: key 2 is stored, as the least recently used entry. -/
example : ((entryFor (demoState calmO demo3 0).c 2).map (·.info.value)) = some 20 ∧
    (demoState calmO demo3 0).c.capacity ≠ some 0 ∧
    ((Impl.step calmO (.emplace 2 21) (demoState calmO demo3 0)).state.map fun s' => entries s'.c) =
      some [(3, 30), (1, 10), (2, 21)] := by decide +kernel

/-- C13: a cache that was emptied by setting its capacity to 0. -/
def demo0 : List (WOp Nat Nat) := demo3 ++ [.op 0 (.setCapacity 0), .op 0 (.insert 5 50)]

example : Reachable calmO (demoState calmO demo0 0) ∧ (demoState calmO demo0 0).c.capacity = some 0 :=
  ⟨demoState_reachable (by decide +kernel) rfl, by decide +kernel⟩

end LRU
