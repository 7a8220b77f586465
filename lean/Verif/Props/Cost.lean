import Verif.Proofs.CostStep
import Verif.Props.Machine
import Verif.Props.Agree
/-!
# C69: the documented complexity of the calls

`base-cache.hpp` 782, 806, 833, 860, 872, 894, 1033 promise `O(1)` "expected and amortized" for `contains`, `lookup`,
`operator[]`, `insert` and `emplace`, `timed-cache.hpp` 245 promises `O(N)` for `clear_expired`. The prices count searches in
the hash table, nodes that are created, destroyed or moved, and notifications (`Model.Cost`); how long a search takes depends
on the hash function and is not modelled.
-/

set_option linter.unusedSectionVars false
set_option autoImplicit false

namespace LRU

variable {K V : Type} [KeyEqual K] [DecidableEq K] [DecidableEq V] {O : Oracle K V} {s s' : St (Cache K V) K V} {op : Op K V}
  {k k' : K} {v : V} {r : Res K V}

/-- C69. The prices are those of the calls of the model: the metered call has the same outcome, in every state. -/
theorem C69_same_calls (O : Oracle K V) (op : Op K V) (s : St (Cache K V) K V) : (Cost.step O op s).1 = Impl.step O op s :=
  congrFun (Cost.step_body op) s

/-- C69. An access costs at most one search and one list node moved, and it tells each statistics object and callback at most
once: in every state, however many elements there are. -/
theorem C69_access_cost (ha : op.Accesses k) : price O op s ≤ { hash := 1, nodes := 1, watch := audience s.c.obs } := by
  rcases ha with rfl | rfl | rfl
  · exact (Cost.contains_within k).ret
  · exact (Cost.find_within k).ret
  · exact (Cost.lookup_within k).ret

/-- C69. An insertion costs at most three searches and three nodes, and it tells nobody. -/
theorem C69_insert_cost (hi : op.Inserts k v) : price O op s ≤ { hash := 3, nodes := 3, watch := 0 } := by
  rcases hi with rfl | rfl
  · exact (Cost.insert_within k v).ret
  · exact (Cost.emplace_within k v).ret

/-- C69. Every call but the range insertions and the calls that may remove many elements has a fixed price. -/
theorem C69_constant_cost (hc : op.constant = true) : price O op s ≤ { hash := 3, nodes := 3, watch := audience s.c.obs } :=
  Cost.constant_within hc

/-- C69. Asking again for the key that was found last, by `contains`, `lookup` or `operator[]`, searches nothing and moves
nothing. -/
theorem C69_repeat_is_free (hO : NoListFault O) (h : Reachable O s) (ha : op.Accesses k) (hd : Returns O op s r s')
    (hm : ¬ Miss r) (hk : keq k k' = true) :
    price O (.contains k') s' ≤ { watch := audience s'.c.obs } ∧ price O (.lookup k') s' ≤ { watch := audience s'.c.obs } :=
  have hl := Cost.lastHit_within (O := O) (h.lastIs_after_hit hO ha hd hm hk)
  ⟨hl.1.ret, hl.2.ret⟩

/-- C69. The same for the key that was inserted last. -/
theorem C69_after_insert_is_free (hO : NoListFault O) (h : Reachable O s) (hi : op.Inserts k v) {b : Bool} {p : Ptr}
    (hd : Returns O op s (.inserted b (some p)) s') (hk : keq k k' = true) :
    price O (.contains k') s' ≤ { watch := audience s'.c.obs } ∧ price O (.lookup k') s' ≤ { watch := audience s'.c.obs } :=
  have hl := Cost.lastHit_within (O := O) (h.lastIs_after_insert hO hi hd hk)
  ⟨hl.1.ret, hl.2.ret⟩

/-- C69. `clear`, `shrink`, `capacity(n)` and `clear_expired` do work for the elements they remove only: two nodes each, and
one search each and at most one more. -/
theorem C69_drop_cost (hO : NoListFault O) (h : Reachable O s) (hop : op.drops = true) (hd : Returns O op s r s') :
    count s'.c ≤ count s.c ∧ (price O op s).hash ≤ (count s.c - count s'.c) + 1 ∧
      (price O op s).nodes ≤ 2 * (count s.c - count s'.c) := by
  obtain ⟨h1, h2⟩ := h.order_le hO
  obtain ⟨_, h3⟩ := (h.after hO hd).order_le hO
  obtain ⟨h4, h5⟩ := Cost.drops_pays (O := O) hop h1 s' (returns_after hd)
  rw [h2, h3] at h4 h5
  have h4 : (price O op s).hash + _ ≤ _ := h4
  have h5 : (price O op s).nodes + _ ≤ _ := h5
  have : count s'.c ≤ count s.c := by omega
  omega

/-- C69. Amortized: whatever calls are made on the cache, and however they end, on average a call costs no more than four
searches and five nodes per element it was given, after what the elements present at the start are still worth. -/
theorem C69_amortized (hO : NoListFault O) (hs : Reachable O s) {h : List (Call K V)} (hh : History O s h s') :
    (total O h).hash + count s'.c ≤ 4 * given h + count s.c ∧
      (total O h).nodes + 2 * count s'.c ≤ 5 * given h + 2 * count s.c := by
  have step : ∀ {s1 s2 : St (Cache K V) K V} {op : Op K V}, Reachable O s1 → Reachable O s2 →
      Cost.After (Cost.step O op s1).1 s2 →
      (price O op s1).hash + count s2.c ≤ 4 * op.weight + count s1.c ∧
        (price O op s1).nodes + 2 * count s2.c ≤ 5 * op.weight + 2 * count s1.c := by
    intro s1 s2 op h1 h2 ha
    obtain ⟨h3, h4⟩ := h1.order_le hO
    obtain ⟨_, h5⟩ := h2.order_le hO
    have := Cost.step_pays (O := O) op h3 s2 ha
    rw [h4, h5] at this
    exact this
  induction hh with
  | nil =>
    show 0 + _ ≤ 4 * 0 + _ ∧ 0 + _ ≤ 5 * 0 + _
    omega
  | ok hh hd ih =>
    have h1 := hh.reachable hO hs
    have h2 := step h1 (h1.after hO hd) (returns_after hd)
    simp only [total, given, Bill.add_hash, Bill.add_nodes]
    omega
  | throw hh hd ih =>
    have h1 := hh.reachable hO hs
    have h2 := step h1 (h1.afterThrow hO hd) (throws_after hd)
    simp only [total, given, Bill.add_hash, Bill.add_nodes]
    omega
  | elsewhere hh he ih =>
    rw [he.cache]
    exact ih

/-! ### The hypotheses can be met, and the bounds are reached -/

/-- A full cache (capacity 3: keys 2, 3, 1, the last two accessed). An insertion of a new key costs three searches (`find`,
`emplace`, `erase`) and three nodes; an access to an old key a search and a node; a repeated one nothing; a miss a search. -/
example :
    price calmO (.insert 9 90) (demoState calmO demo3 0) = { hash := 3, nodes := 3 } ∧
    price calmO (.find 2) (demoState calmO demo3 0) = { hash := 1, nodes := 1 } ∧
    price calmO (.contains 1) (demoState calmO demo3 0) = {} ∧
    price calmO (.lookup 1) (demoState calmO demo3 0) = {} ∧
    price calmO (.lookup 7) (demoState calmO demo3 0) = { hash := 1 } ∧
    price calmO (.shrink 1) (demoState calmO demo3 0) = { hash := 2, nodes := 4 } ∧
    price calmO .clear (demoState calmO demo3 0) = { nodes := 6 } := by decide +kernel

/-- `find` does not use the shortcut. -/
example : price calmO (.find 1) (demoState calmO demo3 0) = { hash := 1, nodes := 1 } := by decide +kernel

/-- Notifications are charged. -/
example : price calmO (.find 2) (demoState calmO demoPast 0) = { hash := 1, nodes := 1, watch := 2 } ∧
    price calmO (.contains 1) (demoState calmO demoPast 0) = { watch := 2 } := by decide +kernel

/-- The hypotheses of the theorems about single calls. -/
example : NoListFault calmO ∧ Reachable calmO (demoState calmO demo3 0) ∧
    (∃ r s', Returns calmO (.insert 4 40) (demoState calmO demo3 0) r s') ∧
    (Impl.step calmO (.find 2) (demoState calmO demo3 0)).result = some (.pos (some 2)) ∧
    ¬ Miss (K := Nat) (V := Nat) (.pos (some 2)) ∧
    (Impl.step calmO (.setCapacity 1) (demoState calmO demo3 0)).state.map (fun s => count s.c) = some 1 :=
  ⟨calmO_calm.noListFault, demo3_reachable, insert_returns calmO_calm demo3_reachable (.inl rfl) (by decide +kernel),
    by decide +kernel, (by rintro (h | h) <;> cases h), by decide +kernel⟩

/-- A history (insertions with and without evictions, a range, calls that remove), what it cost and what it was given. -/
example : ((runFrom calmO ([.insert 4 40, .contains 2, .find 3, .insert 3 33, .lookup 3, .insertRange [(5, 50), (3, 34), (6, 60)],
      .erase 5, .setCapacity 1, .insert 8 80, .clear] : List (Op Nat Nat)) [] (demoState calmO demo3 0)).map fun p =>
      (total calmO p.1, given p.1, count p.2.c)) = some (⟨18, 20, 0⟩, 12, 0) := by decide +kernel

end LRU
