import Verif.Proofs.TwinWorld
import Verif.Props.Overloads
/-!
# Nothing depends on the order of the hash table (C57)

The order in which the hash table enumerates its elements is chosen by the environment at every insertion and every
copy (`Oracle.shuffle`). Two environments that differ in nothing else are indistinguishable for programs, including
programs that copy caches, use stale iterators of copies, or run into undefined behaviour.

There is one exception, which refutes the property as it stands: assigning or constructing from a cache that is not
`const` selects the overload for ranges (C63, C64), which traverses the source in the order of its hash table. The
theorems ending in `_partial` are about all steps of `WOp`, which do not include these two.
-/

set_option autoImplicit false
set_option linter.unusedSectionVars false

namespace LRU

variable {K V : Type} [KeyEqual K] [DecidableEq K] [DecidableEq V] {O O' : Oracle K V}

/-- Two worlds that differ only in the order of their hash tables react in the same way to every step, and remain
that similar. -/
theorem C57_step_partial (hO : SameButOrder O O') {w x : World K V} (hw : Reach O (fun _ => True) w) (h : ReorderedWorld w x)
    (op : WOp K V) : SameOutcome ReorderedWorld (Impl.wstep O op w) (Impl.wstep O' op x) :=
  wstep_reordered hO (separate_ok.reach hw) h op

theorem Trace.reach {w : World K V} {h : List (WCall K V)} (ht : Trace O Impl.initWorld h w) :
    Reach O (fun _ => True) w := by
  induction ht with
  | nil => exact .init
  | @step _ _ _ _ res _ hp ih =>
    cases res with
    | ok r => exact .step _ ih trivial hp
    | error e => exact .throw _ ih trivial hp

/-- Any program, run in an environment that orders hash tables differently, gets the same results and exceptions at
every step, and ends in a world that differs only in the order of the hash tables. -/
theorem C57_program_partial (hO : SameButOrder O O') {w : World K V} {h : List (WCall K V)} (ht : Trace O Impl.initWorld h w) :
    ∃ h' x, Trace O' Impl.initWorld h' x ∧ h'.map WCall.told = h.map WCall.told ∧ ReorderedWorld w x := by
  induction ht with
  | nil => exact ⟨[], Impl.initWorld, .nil, rfl, ⟨fun i => by simp [Impl.initWorld, ReorderedAt], .refl _⟩⟩
  | @step h w' w'' op res ht hp ih =>
    obtain ⟨h', x, ht', e, hr⟩ := ih
    have h1 := C57_step_partial hO ht.reach hr op
    cases res with
    | ok r =>
      have hp' : Impl.wstep O op w' = .ok r w'' := hp
      rw [hp'] at h1
      cases hx : Impl.wstep O' op x with
      | ok r' x' =>
        rw [hx] at h1
        obtain ⟨rfl, h2⟩ := h1
        exact ⟨⟨op, .ok r', x, x'⟩ :: h', x', .step (res := .ok r') ht' hx, by simp [e, WCall.told], h2⟩
      | throw => rw [hx] at h1; exact h1.elim
      | ub => rw [hx] at h1; exact h1.elim
      | terminate => rw [hx] at h1; exact h1.elim
      | diverge => rw [hx] at h1; exact h1.elim
    | error r =>
      have hp' : Impl.wstep O op w' = .throw r w'' := hp
      rw [hp'] at h1
      cases hx : Impl.wstep O' op x with
      | throw r' x' =>
        rw [hx] at h1
        obtain ⟨rfl, h2⟩ := h1
        exact ⟨⟨op, .error r', x, x'⟩ :: h', x', .step (res := .error r') ht' hx, by simp [e, WCall.told], h2⟩
      | ok => rw [hx] at h1; exact h1.elim
      | ub => rw [hx] at h1; exact h1.elim
      | terminate => rw [hx] at h1; exact h1.elim
      | diverge => rw [hx] at h1; exact h1.elim

/-- What this means for each cache: ordered iteration visits the same entries in the same order, and lookups by key
find the same entry; unordered iteration visits the same entries, in some order. -/
theorem C57_cache {w x : World K V} (hw : Reach O (fun _ => True) w) (h : ReorderedWorld w x) {i : Nat} {c : Cache K V}
    (hc : w.caches[i]? = some (some c)) :
    ∃ d, x.caches[i]? = some (some d) ∧ SameCache c d ∧ (∀ k, entryFor d k = entryFor c k) ∧ d.map.Perm c.map := by
  obtain ⟨d, hd, hr⟩ := h.get hc
  have hu := ((separate_ok.reach hw).each i c hc).2
  have e : elements d = elements c := by
    unfold elements
    rw [hr.order]
    congr 1
    funext l
    exact hu.find_addr hr.map _
  exact ⟨d, hd, ⟨e, hr.capacity, hr.kind, hr.obs⟩, fun k => by unfold entryFor; rw [e], hr.map⟩

/-- Undefined behaviour does not depend on the order of hash tables either. -/
theorem C57_ub (hO : SameButOrder O O') {w x : World K V} (hw : Reach O (fun _ => True) w) (h : ReorderedWorld w x)
    (op : WOp K V) : Impl.wstep O op w = .ub ↔ Impl.wstep O' op x = .ub := by
  have h1 := C57_step_partial hO hw h op
  constructor <;> intro h2 <;> rw [h2] at h1
  · cases hx : Impl.wstep O' op x <;> rw [hx] at h1 <;> first | rfl | exact h1.elim
  · cases hx : Impl.wstep O op w <;> rw [hx] at h1 <;> first | rfl | exact h1.elim

/-! ### Not vacuous: hash tables that are turned around at every insertion -/

/-- As `calmO`, but each insertion turns the hash table around. -/
def turnO : Oracle Nat Nat := { calmO with
  shuffle := fun _ l => l.reverse
  shuffle_perm := fun _ l => l.reverse_perm }

example : SameButOrder calmO turnO := ⟨rfl, rfl, rfl⟩

/-- A program with two caches, one being a copy, an exception, and a comparison. -/
def demoOrder : List (WOp Nat Nat) := demo3 ++
  [.op 0 (.lookup 9), .copyCtor 0, .op 1 (.insert 4 40), .eq 0 1, .op 0 (.insert 5 50)]

example : (demoState calmO demoOrder 0).c.map ≠ (demoState turnO demoOrder 0).c.map := by decide +kernel
example : (demoState calmO demoOrder 1).c.map ≠ (demoState turnO demoOrder 1).c.map := by decide +kernel
example : entries (demoState calmO demoOrder 1).c = entries (demoState turnO demoOrder 1).c := by decide +kernel

/-! ### The exception -/

/-- C57 is refuted: one and the same program, and then `a = b`, give caches that iterate in different orders. -/
theorem C57_refuted :
    ¬ ∀ (O O' : Oracle Nat Nat) (mv : Nat → Nat) (ops : List (WOp Nat Nat)) (w x w' x' : World Nat Nat) (i j : Nat),
      Calm O → SameButOrder O O' → exec O ops Impl.initWorld = some w → exec O' ops Impl.initWorld = some x →
      Impl.assignCache O mv .lvalue i j w = .ok () w' → Impl.assignCache O' mv .lvalue i j x = .ok () x' →
      (w'.caches[i]?.map fun c => c.map entries) = (x'.caches[i]?.map fun c => c.map entries) := by
  intro h
  have h1 : ((exec calmO demoPair Impl.initWorld).bind fun w => (Impl.assignCache calmO id .lvalue 0 1 w).state.map
      fun w' => w'.caches[0]?.map fun c => c.map entries) = some (some (some [(3, 30), (2, 20), (1, 10)])) := by
    decide +kernel
  have h2 : ((exec turnO demoPair Impl.initWorld).bind fun w => (Impl.assignCache turnO id .lvalue 0 1 w).state.map
      fun w' => w'.caches[0]?.map fun c => c.map entries) = some (some (some [(2, 20), (1, 10), (3, 30)])) := by
    decide +kernel
  have h3 : ((exec calmO demoPair Impl.initWorld).map fun w => (Impl.assignCache calmO id .lvalue 0 1 w).result) =
      some (some ()) := by decide +kernel
  have h4 : ((exec turnO demoPair Impl.initWorld).map fun w => (Impl.assignCache turnO id .lvalue 0 1 w).result) =
      some (some ()) := by decide +kernel
  obtain ⟨w, hw, h3⟩ := Option.map_eq_some_iff.1 h3
  obtain ⟨x, hx, h4⟩ := Option.map_eq_some_iff.1 h4
  rw [hw] at h1
  rw [hx] at h2
  obtain ⟨w', h5, h6⟩ := Out.ok_fact h3 h1
  obtain ⟨x', h7, h8⟩ := Out.ok_fact h4 h2
  have h9 := h calmO turnO id demoPair w x w' x' 0 1 calmO_calm ⟨rfl, rfl, rfl⟩ hw hx h5 h7
  rw [h6, h8] at h9
  exact absurd h9 (by decide)

end LRU
