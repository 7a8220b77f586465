import Verif.Proofs.Ranges
import Verif.Spec.Demo
/-!
# Ranges: C30, C31, C32

Inserting, constructing from and assigning ranges of pairs. C30 speaks about all states; C31 and C32 about every program,
copies included, as construction and assignment do not depend on earlier contents.
-/

set_option linter.unusedSectionVars false
set_option autoImplicit false

namespace LRU

variable {K V : Type} [KeyEqual K] [DecidableEq K] [DecidableEq V] {O : Oracle K V}
  {s s' : St (Cache K V) K V} {l : List (K × V)} {n : Nat} {e : Err} {r : Res K V}

/-- C30. Inserting a range (by iterators, lvalue range or initializer list) is inserting its pairs one at a time in
order; the result is the number of insertions that were new. -/
theorem C30_range_insertion :
    (Returns O (.insertRange l) s (.nat n) s' ↔ OneByOne O .insert l s (.ok n) s') ∧
    (Throws O (.insertRange l) s e s' ↔ OneByOne O .insert l s (.error e) s') := by
  constructor
  · rw [← rangeOf_iff (ins := Impl.insert O) (fun _ _ => rfl), ← insertRange_rangeOf]
    constructor
    · intro h
      obtain ⟨a, h1, h2⟩ := ret_ok_iff.1 h
      injection h2 with h2
      subst h2
      exact h1
    · intro h; exact ret_ok_iff.2 ⟨n, h, rfl⟩
  · rw [← rangeOf_iff (ins := Impl.insert O) (fun _ _ => rfl), ← insertRange_rangeOf]
    exact ret_throw_iff

/-- C30 for rvalue ranges, whose pairs are moved into the cache: the same, with `emplace`. -/
theorem C30_moving_range_insertion :
    (Returns O (.insertRangeMove l) s (.nat n) s' ↔ OneByOne O .emplace l s (.ok n) s') ∧
    (Throws O (.insertRangeMove l) s e s' ↔ OneByOne O .emplace l s (.error e) s') := by
  constructor
  · rw [← rangeOf_iff (ins := Impl.emplace O) (fun _ _ => rfl), ← insertRangeMove_rangeOf]
    constructor
    · intro h
      obtain ⟨a, h1, h2⟩ := ret_ok_iff.1 h
      injection h2 with h2
      subst h2
      exact h1
    · intro h; exact ret_ok_iff.2 ⟨n, h, rfl⟩
  · rw [← rangeOf_iff (ins := Impl.emplace O) (fun _ _ => rfl), ← insertRangeMove_rangeOf]
    exact ret_throw_iff

/-- C30. Range insertion returns nothing but a number. -/
theorem C30_result (hd : Returns O (.insertRange l) s r s' ∨ Returns O (.insertRangeMove l) s r s') : ∃ n, r = .nat n := by
  rcases hd with hd | hd <;> exact let ⟨n, _, h⟩ := ret_ok_iff.1 hd; ⟨n, h.symm⟩

/-- A range with a repeated key, inserted into a cache that holds some of the keys: two of five insertions are new, and
two entries are evicted. -/
example : Reachable calmO (demoState calmO demo3 0) ∧ entries (demoState calmO demo3 0).c = [(2, 20), (3, 30), (1, 10)] ∧
    ((Impl.step calmO (.insertRange [(1, 11), (4, 40), (5, 50), (4, 41), (1, 12)]) (demoState calmO demo3 0)).result =
      some (.nat 2)) ∧
    ((Impl.step calmO (.insertRange [(1, 11), (4, 40), (5, 50), (4, 41), (1, 12)]) (demoState calmO demo3 0)).state.map
      fun s => entries s.c) = some [(5, 50), (4, 41), (1, 12)] :=
  ⟨demo3_reachable, by decide +kernel, by decide +kernel, by decide +kernel⟩

section world

variable {ok : WOp K V → Prop} {w w' : World K V} {kind : Kind} {ctor : Ctor K V} {i : Nat} {c : Cache K V}

theorem Reach.ext_lt (hO : NoListFault O) (hw : Reach O ok w) :
    ∀ x ∈ ({ w.g with ext := Impl.allNodes w.caches } : Shared K V).ext,
      x.addr < ({ w.g with ext := Impl.allNodes w.caches } : Shared K V).next := by
  intro x hx
  obtain ⟨j, d, hj, hd⟩ := mem_allNodes.1 hx
  exact (((copies_ok hO).reach hw).each j d hj).ids x hd

/-- C31. A constructor adds one cache, of the documented capacity, which holds what inserting the pairs in order into an
empty LRU map of that capacity leaves. If the capacity is at least the number of pairs, no key is lost: the cache holds
the distinct keys with their last values, ordered by last occurrence. The other caches are left alone. -/
theorem C31_constructors (hO : NoListFault O) (hw : Reach O ok w) (h : WPerforms O (.create kind ctor) w (.ok r) w') :
    ∃ c, w'.caches = w.caches ++ [some c] ∧ c.kind = kind ∧ c.capacity = some ctor.promised ∧
      asLru c = (⟨some ctor.promised, []⟩ : Lru K V).run (puts ctor.pairs) ∧
      (ctor.pairs.length ≤ ctor.promised → Alike (entries c) (finals ctor.pairs)) := by
  obtain ⟨hr, ht⟩ := empty_rel (K := K) (V := V) kind (Impl.ctorCapacity ctor) (hw.ext_lt hO)
  have hcap : Impl.ctorCapacity ctor = ctor.promised := by
    cases ctor <;> rfl
  cases h.effect with
  | created kind ctor n s1 hb =>
    have h1 := ctorBody_puts hO ctor hr ht hb
    have e : asLru (Impl.emptyCache kind (Impl.ctorCapacity ctor) : Cache K V) = ⟨some ctor.promised, []⟩ := by
      rw [← hcap]; rfl
    rw [e] at h1
    have hk : s1.c.kind = kind := by
      have h2 := ctorBody_raw (O := O) ctor _ hr.bounded
      rw [hb] at h2
      have h2 : RawStep _ s1 := h2
      exact h2.kind
    have hc : s1.c.capacity = some ctor.promised := by
      show (asLru s1.c).capacity = _
      rw [h1]
      exact run_puts_capacity _ _
    refine ⟨s1.c, rfl, hk, hc, h1, fun hl => ?_⟩
    have h3 := (run_puts_fit ctor.pairs (⟨some ctor.promised, []⟩ : Lru K V) rfl (by simpa using hl)).2
    rw [← h1] at h3
    simpa [asLru] using h3

/-- C31. If nothing fails, every constructor returns. -/
theorem C31_construction_returns (hC : Calm O) (hw : Reach O ok w) (kind : Kind) (ctor : Ctor K V) :
    ∃ w', WPerforms O (.create kind ctor) w (.ok .unit) w' := by
  obtain ⟨hr, ht⟩ := empty_rel (K := K) (V := V) kind (Impl.ctorCapacity ctor) (hw.ext_lt hC.noListFault)
  obtain ⟨n, s', h⟩ := ctorBody_calm hC ctor hr ht (by simp [MCache.new])
  refine ⟨⟨w.caches ++ [some s'.c], s'.g⟩, ?_⟩
  refine ret_ok_iff.2 ⟨(), ?_, rfl⟩
  unfold Impl.create
  rw [h]

/-- All forms: the default, an explicit capacity smaller than the range, a short range, an initializer list and an
rvalue range with repeated keys. -/
example : ∃ w, exec calmO ([.create .basic .default, .create (.timed 5 1) (.sizedItems 2 [(1, 10), (2, 20), (3, 30)]),
      .create .basic (.items [(1, 10), (2, 20), (1, 11)]), .create .basic (.initList [(1, 10), (2, 20), (1, 11)]),
      .create .basic (.rangeMove [(1, 10), (2, 20), (1, 11)])] : List (WOp Nat Nat)) Impl.initWorld = some w ∧
    (w.caches.map fun c => c.map fun c => (c.capacity, entries c)) =
      [some (some 128, []), some (some 2, [(2, 20), (3, 30)]), some (some 128, [(2, 20), (1, 11)]),
       some (some 3, [(2, 20), (1, 11)]), some (some 3, [(2, 20), (1, 11)])] := by
  have h : ((exec calmO ([.create .basic .default, .create (.timed 5 1) (.sizedItems 2 [(1, 10), (2, 20), (3, 30)]),
      .create .basic (.items [(1, 10), (2, 20), (1, 11)]), .create .basic (.initList [(1, 10), (2, 20), (1, 11)]),
      .create .basic (.rangeMove [(1, 10), (2, 20), (1, 11)])] : List (WOp Nat Nat)) Impl.initWorld).map fun w =>
      w.caches.map fun c => c.map fun c => (c.capacity, entries c)) = some
      [some (some 128, []), some (some 2, [(2, 20), (3, 30)]), some (some 128, [(2, 20), (1, 11)]),
       some (some 3, [(2, 20), (1, 11)]), some (some 3, [(2, 20), (1, 11)])] := by decide +kernel
  exact Option.map_eq_some_iff.1 h

/-- C32. Range assignment, to any cache of any program: all previous entries are gone, the capacity is raised to the
length of the range if it was smaller and otherwise kept, and the cache holds the distinct keys of the range with their
last values, ordered by last occurrence. -/
theorem C32_range_assignment (hO : NoListFault O) (hw : Reach O ok w) (hc : w.caches[i]? = some (some c))
    (hd : Returns O (.assignRange l) (viewOf w i c) r s' ∨ Returns O (.assignRangeMove l) (viewOf w i c) r s') :
    ∃ n, c.capacity = some n ∧ s'.c.capacity = some (if l.length ≤ n then n else l.length) ∧
      Alike (entries s'.c) (finals l) := by
  obtain ⟨t, hr⟩ := hw.rel hO hc
  obtain ⟨hr0, ht0⟩ := hr.emptied
  have key : ∃ op, (op = .assignRange l ∨ op = .assignRangeMove l) ∧ Returns O op (viewOf w i c) r s' := by
    rcases hd with hd | hd
    · exact ⟨_, .inl rfl, hd⟩
    · exact ⟨_, .inr rfl, hd⟩
  obtain ⟨op, hop, hd⟩ := key
  have hdis : op.discards = true := by rcases hop with rfl | rfl <;> rfl
  have hd' : Returns O op ⟨{ (viewOf w i c).c with map := [], order := [], last := none }, (viewOf w i c).g⟩ r s' :=
    (discards_eq hdis _).symm.trans hd
  obtain ⟨n, h1, h2⟩ := assign_puts hO l hr0 ht0 hop hd'
  refine ⟨n, ?_, ?_⟩
  · have := hr.rep.cap
    exact this.trans h1
  · have h3 := run_puts_fit l (⟨some (max n l.length), []⟩ : Lru K V) rfl (by simp; omega)
    rw [← h2] at h3
    refine ⟨?_, by simpa [asLru] using h3.2⟩
    rw [show s'.c.capacity = _ from h3.1]
    split <;> congr 1 <;> omega

/-- C32. If nothing fails, range assignment to a cache whose capacity is set (moved-from caches have none, see C26)
returns. -/
theorem C32_assignment_returns (hC : Calm O) (hw : Reach O ok w) (hc : w.caches[i]? = some (some c))
    (hn : c.capacity ≠ none) (l : List (K × V)) :
    (∃ s', Returns O (.assignRange l) (viewOf w i c) .unit s') ∧
    (∃ s', Returns O (.assignRangeMove l) (viewOf w i c) .unit s') := by
  obtain ⟨t, hr⟩ := hw.rel hC.noListFault hc
  obtain ⟨hr0, ht0⟩ := hr.emptied
  have hcap : t.c.cap ≠ none := by rw [← hr.rep.cap]; exact hn
  constructor
  · obtain ⟨s', h⟩ := assign_calm hC l hr0 ht0 (.inl rfl) hcap
    exact ⟨s', (discards_eq rfl _).trans h⟩
  · obtain ⟨s', h⟩ := assign_calm hC l hr0 ht0 (.inr rfl) hcap
    exact ⟨s', (discards_eq rfl _).trans h⟩

/-- A cache of capacity 3 with contents is assigned ranges with repeated keys, one shorter and one longer than the
capacity. -/
example : Reachable calmO (demoState calmO demo3 0) ∧ entries (demoState calmO demo3 0).c = [(2, 20), (3, 30), (1, 10)] ∧
    ((Impl.step calmO (.assignRange [(7, 70), (2, 22)]) (demoState calmO demo3 0)).state.map
      fun s => (s.c.capacity, entries s.c)) = some (some 3, [(7, 70), (2, 22)]) ∧
    ((Impl.step calmO (.assignRangeMove [(7, 70), (2, 22), (7, 71), (8, 80)]) (demoState calmO demo3 0)).state.map
      fun s => (s.c.capacity, entries s.c)) = some (some 4, [(2, 22), (7, 71), (8, 80)]) ∧
    finals [(7, 70), (2, 22), (7, 71), (8, 80)] = [(2, 22), (7, 71), (8, 80)] :=
  ⟨demo3_reachable, by decide +kernel, by decide +kernel, by decide +kernel, by decide +kernel⟩

end world

end LRU
