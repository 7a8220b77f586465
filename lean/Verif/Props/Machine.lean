import Verif.Proofs.Machine
import Verif.Props.History
/-!
# C68: a plain cache answers exactly like a textbook LRU map

`Lru.replies` (`Spec.Machine`) computes the answers of a list of pairs to a sequence of calls. `answers` are the answers of
the cache. The calls are those that take and return keys, values and numbers (`Op.byKey`). Nothing fails (`Calm`) and the
cache has a capacity (it was not moved from).
-/

set_option linter.unusedSectionVars false
set_option autoImplicit false

namespace LRU

variable {K V : Type} [KeyEqual K] [DecidableEq K] [DecidableEq V] {O O' : Oracle K V} {s s' : St (Cache K V) K V}

/-- C68. Whatever was done to the cache before, and whatever calls follow: all answers are those of the textbook LRU map,
including the call that ends the program (`front` or `back` of an empty cache). -/
theorem C68_same_answers (hC : Calm O) (h : Reachable O s) (hb : s.c.kind = .basic) (hc : s.c.capacity ≠ none)
    (ops : List (Op K V)) (hops : ∀ op ∈ ops, op.byKey = true) :
    answers O s ops = ((asLru s.c).replies ops).map some := answers_eq hC ops h hb hc hops

/-- C68. Two plain caches, in programs that may differ in everything else (addresses, callbacks, statistics, hash functions,
which key was accessed last), give the same answers to all calls if and only if they have the same capacity and the same
pairs in the same order. -/
theorem C68_indistinguishable_iff (hC : Calm O) (hC' : Calm O') (h : Reachable O s) (h' : Reachable O' s')
    (hb : s.c.kind = .basic) (hb' : s'.c.kind = .basic) (hc : s.c.capacity ≠ none) (hc' : s'.c.capacity ≠ none) :
    (∀ ops : List (Op K V), (∀ op ∈ ops, op.byKey = true) → answers O s ops = answers O' s' ops) ↔
      s.c.capacity = s'.c.capacity ∧ entries s.c = entries s'.c := by
  constructor
  · intro hall
    have : asLru s.c = asLru s'.c := by
      refine Lru.eq_of_replies hc hc' (h.distinct hC.noListFault) (h'.distinct hC'.noListFault) fun ops hops => ?_
      have h1 := hall ops hops
      rw [answers_eq hC ops h hb hc hops, answers_eq hC' ops h' hb' hc' hops] at h1
      exact map_some_injective h1
    injection this with h1 h2
    exact ⟨h1, h2⟩
  · rintro ⟨h1, h2⟩ ops hops
    have : asLru s.c = asLru s'.c := by unfold asLru; rw [h1, h2]
    rw [answers_eq hC ops h hb hc hops, answers_eq hC' ops h' hb' hc' hops, this]

/-- A program that inserts, updates, finds, evicts, removes and assigns, and ends with `front` of an empty cache. -/
def demoProgram : List (Op Nat Nat) :=
  [.insert 4 40, .contains 2, .find 3, .insert 3 33, .lookup 3, .lookup 9, .insertRange [(5, 50), (3, 34), (6, 60)], .size,
   .isFull, .front, .back, .erase 5, .spaceLeft, .assignRange [(1, 1), (2, 2), (1, 3), (7, 7)], .capacity, .find 1,
   .setCapacity 2, .back, .shrink 0, .isEmpty, .setCapacity 0, .emplace 1 1, .front, .size]

/-- The answers of the textbook to the program. -/
example : (⟨some 3, [(2, 20), (3, 30), (1, 10)]⟩ : Lru Nat Nat).replies demoProgram =
    [.stored true (some (4, 40)), .bool false, .item (some (3, 30)), .stored false (some (3, 33)), .value 33, .notFound,
     .nat 2, .nat 3, .bool true, .key 6, .key 5, .bool true, .nat 1, .unit, .nat 4, .item (some (1, 3)), .unit, .key 7,
     .unit, .bool true, .unit, .stored false none, .terminated] := by decide +kernel

/-- The hypotheses of both theorems hold for a cache in use, and its answers to the program are those. -/
example : Calm calmO ∧ Reachable calmO (demoState calmO demo3 0) ∧ (demoState calmO demo3 0).c.kind = .basic ∧
    (demoState calmO demo3 0).c.capacity ≠ none ∧ (∀ op ∈ demoProgram, op.byKey = true) ∧
    answers calmO (demoState calmO demo3 0) demoProgram =
      ((⟨some 3, [(2, 20), (3, 30), (1, 10)]⟩ : Lru Nat Nat).replies demoProgram).map some :=
  ⟨calmO_calm, demo3_reachable, by decide +kernel, by decide +kernel, by decide +kernel, by decide +kernel⟩

/-- A cache with the same contents and another past: another environment, entries evicted and erased, a callback, and
statistics. -/
def demoPast : List (WOp Nat Nat) :=
  [.create .basic (.sized 2), .op 0 (.addHitCallback 7), .op 0 (.monitorNew [1, 5]), .op 0 (.insert 8 80),
   .op 0 (.insert 9 90), .op 0 (.insert 2 21), .op 0 (.setCapacity 3), .op 0 (.find 2), .op 0 (.erase 9),
   .op 0 (.emplace 3 30), .op 0 (.insert 1 10), .op 0 (.insert 2 20), .op 0 (.contains 3), .op 0 (.lookup 1)]

example : Reachable calmO (demoState calmO demoPast 0) ∧ (demoState calmO demoPast 0).c.kind = .basic ∧
    (demoState calmO demoPast 0).c.capacity = (demoState calmO demo3 0).c.capacity ∧
    entries (demoState calmO demoPast 0).c = entries (demoState calmO demo3 0).c ∧
    (elements (demoState calmO demoPast 0).c).map (·.addr) ≠ (elements (demoState calmO demo3 0).c).map (·.addr) :=
  ⟨demoState_reachable (by decide +kernel) rfl, by decide +kernel, by decide +kernel, by decide +kernel, by decide +kernel⟩

end LRU
