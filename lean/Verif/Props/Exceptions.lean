import Verif.Proofs.SafeCalls
import Verif.Props.Expiry
/-!
# Exceptions and memory safety: C22, C23, C33

`O.fails site n`: the `n`-th point at which user code or an allocation may throw is at `site` and does throw.
-/

set_option linter.unusedSectionVars false
set_option autoImplicit false

namespace LRU

variable {K V : Type} [KeyEqual K] [DecidableEq K] [DecidableEq V] {O : Oracle K V}
  {s s' s'' : St (Cache K V) K V} {op : Op K V} {r : Res K V} {k : K} {v : V} {e : Err}

/-- An environment in which exactly one thing fails. -/
def faultyO (site : Site) (n : Nat) : Oracle Nat Nat := { calmO with fails := fun x m => decide (x = site) && m == n }

/-! ### C22 -/

/-- C22. A callback that throws leaves the entries, their values and order, the capacity, the class and the
registrations as they were, and the cache is as usable as before: it is again a reachable cache, so that every theorem
about reachable caches (in particular `C33_calls_complete`) applies to the calls that follow. -/
theorem C22_throwing_callback_is_harmless (hO : NoListFault O) (h : Reachable O s) (ha : op.Accesses k)
    (hd : Throws O op s .user s') :
    SameCache s.c s'.c ∧ s'.c.last = s.c.last ∧ s'.g.next = s.g.next ∧ Reachable O s' := by
  obtain ⟨t, t', hr, ht, ho, hr'⟩ := h.access_throw hO ha hd
  have fin : t'.c = t.c → t'.g.next = t.g.next →
      SameCache s.c s'.c ∧ s'.c.last = s.c.last ∧ s'.g.next = s.g.next ∧ Reachable O s' := by
    intro h1 h2
    refine ⟨hr.same hr' (by rw [h1]) (by rw [h1]) (by rw [h1]) (by rw [h1]), ?_, ?_, h.afterThrow hO hd⟩
    · rw [hr.rep.last, hr'.rep.last, h1]
    · rw [hr.g, hr'.g, h2]
  cases ho with
  | hitUser => exact fin rfl rfl
  | missUser => exact fin rfl rfl
  | expiredUser => exact fin rfl rfl

/-- C22. The exception of a callback reaches the caller: on a hit, if one of the hit and access callbacks throws when
its turn comes, then so does the access. -/
theorem C22_propagates_on_hit (hO : NoListFault O) (h : Reachable O s) (ha : op.Accesses k) {x : MapNode K V}
    (hx : entryFor s.c k = some x) (hf : ∀ ttl res, s.c.kind = .timed ttl res → elapsed O res x s.g.ticks ≤ ttl)
    {n cb : Nat} (hn : (s.c.obs.hitCbs ++ s.c.obs.accCbs)[n]? = some cb)
    (hc : O.fails (.callback cb) (s.g.steps + n) = true) : ∃ s', Throws O op s .user s' := by
  obtain ⟨t, hr, ht⟩ := h.rel hO
  obtain ⟨y, hy, rfl⟩ := hr.entryFor_some hx
  have e1 : expiredAt O t.c.kind t.g y.time = false := by
    cases hk : t.c.kind with
    | basic => rfl
    | timed ttl res =>
      rw [← hk, expiredAt_timed hk, ← hr.g]
      simpa using hf ttl res (by rw [hr.rep.kind, hk])
  rw [hr.rep.obs] at hn
  rw [hr.g] at hc
  have hq : ¬ QuietHit O t.c.obs t.g.steps := fun q => by rw [q n cb hn] at hc; cases hc
  rcases mid_access (O := O) ht ha with ⟨r, t', h5, h6⟩ | ⟨e, t', h5, h6⟩
  · exfalso
    cases h6 with
    | last e r h1 h2 h3 h4 q => exact hq q
    | hit e r j h1 h2 h3 _ _ q => exact hq q
    | absent r h1 => rw [hy] at h1; cases h1
    | expired e r h1 _ h2 => rw [hy] at h1; injection h1 with h1; subst h1; rw [e1] at h2; cases h2
    | lastExpired e _ _ h1 h2 => rw [hy] at h1; injection h1 with h1; subst h1; rw [e1] at h2; cases h2
  · obtain ⟨s', h7, _⟩ := hr.back_throw hO h5
    refine ⟨s', ?_⟩
    cases h6 with
    | hitUser => exact h7
    | missUser n cb h1 => exact h7
    | expiredUser => exact h7
    | notFound _ h1 => rw [hy] at h1; cases h1
    | expired e _ _ h1 h2 => rw [hy] at h1; injection h1 with h1; subst h1; rw [e1] at h2; cases h2
    | lastExpired e _ _ h1 h2 => rw [hy] at h1; injection h1 with h1; subst h1; rw [e1] at h2; cases h2
    | lateExpired e _ _ _ _ _ q => exact absurd q hq

/-- C22. The same on a miss, for the miss and access callbacks. -/
theorem C22_propagates_on_miss (hO : NoListFault O) (h : Reachable O s) (ha : op.Accesses k)
    (hx : entryFor s.c k = none) {n cb : Nat} (hn : (s.c.obs.missCbs ++ s.c.obs.accCbs)[n]? = some cb)
    (hc : O.fails (.callback cb) (s.g.steps + n) = true) : ∃ s', Throws O op s .user s' := by
  obtain ⟨t, hr, ht⟩ := h.rel hO
  have hy : t.c.ents.find? (fun e => keq e.key k) = none := by
    rw [hr.entryFor] at hx
    cases hf : t.c.ents.find? (fun e => keq e.key k) with
    | none => rfl
    | some e => rw [hf] at hx; cases hx
  rw [hr.rep.obs] at hn
  rw [hr.g] at hc
  have hq : ¬ QuietMiss O t.c.obs t.g.steps := fun q => by rw [q n cb hn] at hc; cases hc
  rcases mid_access (O := O) ht ha with ⟨r, t', h5, h6⟩ | ⟨e, t', h5, h6⟩
  · exfalso
    cases h6 with
    | last e r h1 h2 => rw [hy] at h2; cases h2
    | hit e r j h1 => rw [hy] at h1; cases h1
    | absent r h1 h2 q => exact hq q
    | expired e r h1 => rw [hy] at h1; cases h1
    | lastExpired e _ _ h1 => rw [hy] at h1; cases h1
  · obtain ⟨s', h7, _⟩ := hr.back_throw hO h5
    refine ⟨s', ?_⟩
    cases h6 with
    | hitUser => exact h7
    | missUser n cb h1 => exact h7
    | expiredUser => exact h7
    | notFound _ h1 q => exact absurd q hq
    | expired e _ _ h1 => rw [hy] at h1; cases h1
    | lastExpired e _ _ h1 => rw [hy] at h1; cases h1
    | lateExpired e _ _ h1 => rw [hy] at h1; cases h1

/-- C22. Conversely the exception comes from a callback that was due. -/
theorem C22_comes_from_callback (hO : NoListFault O) (h : Reachable O s) (ha : op.Accesses k)
    (hd : Throws O op s .user s') :
    ∃ n cb, ((s.c.obs.hitCbs ++ s.c.obs.accCbs)[n]? = some cb ∨ (s.c.obs.missCbs ++ s.c.obs.accCbs)[n]? = some cb) ∧
      O.fails (.callback cb) (s.g.steps + n) = true := by
  obtain ⟨t, t', hr, ht, ho, hr'⟩ := h.access_throw hO ha hd
  rw [hr.rep.obs, hr.g]
  cases ho with
  | hitUser e n cb _ _ h1 h2 => exact ⟨n, cb, .inl h1, h2⟩
  | missUser n cb _ h1 h2 => exact ⟨n, cb, .inr h1, h2⟩
  | expiredUser e n cb _ _ h1 h2 => exact ⟨n, cb, .inr h1, h2⟩

/-- A cache with two hit callbacks, the second of which throws at the next access. -/
def demoThrowing : List (WOp Nat Nat) := demo3 ++ [.op 0 (.addHitCallback 5), .op 0 (.addHitCallback 6)]

theorem demoThrowing_reachable : Reachable (faultyO (.callback 6) 10) (demoState (faultyO (.callback 6) 10) demoThrowing 0) :=
  demoState_reachable (by decide +kernel) rfl

/-- All hypotheses can be met, and the state is as claimed; both callbacks were called, the exception came from the
second. -/
example : let s := demoState (faultyO (.callback 6) 10) demoThrowing 0
    NoListFault (faultyO (.callback 6) 10) ∧ s.g.steps = 9 ∧
    (s.c.obs.hitCbs ++ s.c.obs.accCbs)[1]? = some 6 ∧
    (Impl.step (faultyO (.callback 6) 10) (.lookup 3) s).err = some .user ∧
    ((Impl.step (faultyO (.callback 6) 10) (.lookup 3) s).state.map fun s' => (entries s'.c, s'.g.log.length)) =
      some ([(2, 20), (3, 30), (1, 10)], s.g.log.length + 2) :=
  ⟨fun n => by simp [faultyO], by decide +kernel, by decide +kernel, by decide +kernel, by decide +kernel⟩

/-! ### C23 -/

/-- C23, provided the allocation of list nodes never fails (constructors, assignments, map-node allocations and
callbacks may): an exception that leaves `insert` or `emplace` leaves a cache that is reachable again (so every theorem
about reachable caches applies to it), whose `size()` is the number of its entries, and whose entries are those it had
before; only if the assignment of the value threw, the entry was moved to the most recently used place, and holds what the
assignment left of its value.
Missing: failing allocations of list nodes, for which the claim is false (`C23_failed_list_node_corrupts`,
`C23_failed_list_node_undefined`). -/
theorem C23_insertion_exceptions_partial (hO : NoListFault O) (h : Reachable O s) (hi : op.Inserts k v)
    (hd : Throws O op s e s') :
    e = .badAlloc ∧ Reachable O s' ∧ Returns O .size s' (.nat (count s'.c)) s' ∧
    s'.c.capacity = s.c.capacity ∧ s'.c.kind = s.c.kind ∧ s'.c.obs = s.c.obs ∧
    (elements s'.c = elements s.c ∨
      ∃ x m, entryFor s.c k = some x ∧ O.fails .assign m = true ∧
        elements s'.c = others s.c k ++ [{ x with info := { x.info with value := O.torn m x.info.value v } }]) := by
  obtain ⟨t, t', hr, ht, ho, hr'⟩ := h.inserts_throw hO hi hd
  have hsz : Returns O .size s' (.nat (count s'.c)) s' := by
    show Out.ok (Res.nat s'.c.map.length) s' = _
    rw [hr'.count, hr'.map_length]
  have hre := h.afterThrow hO hd
  cases ho with
  | fault g' site n =>
    have := hr.same hr' rfl rfl rfl rfl
    exact ⟨rfl, hre, hsz, this.capacity, this.kind, this.obs, .inl this.elements⟩
  | updateFault g' x m n h1 h2 h3 h4 =>
    refine ⟨rfl, hre, hsz, by rw [hr.rep.cap, hr'.rep.cap], by rw [hr.rep.kind, hr'.rep.kind],
      by rw [hr.rep.obs, hr'.rep.obs], .inr ⟨x.node, m, by rw [hr.entryFor, h1]; rfl, h4, ?_⟩⟩
    rw [hr'.elements, ← hr.without ht h1]
    show (LRU.without x t.c.ents ++ [{ x with val := O.torn m x.val v }]).map Ent.node = _
    rw [List.map_append]
    rfl

/-- The same for every call, range insertion and assignment included: whatever throws, the cache that is left behind
is reachable, and `size()` is the number of entries that iteration visits. -/
theorem C23_any_call_partial (hO : NoListFault O) (h : Reachable O s) (hd : Throws O op s e s') :
    Reachable O s' ∧ Returns O .size s' (.nat (count s'.c)) s' ∧ s'.c.order.length = count s'.c := by
  have hre := h.afterThrow hO hd
  obtain ⟨t', hr', _⟩ := hre.rel hO
  refine ⟨hre, ?_, hr'.count_order⟩
  show Out.ok (Res.nat s'.c.map.length) s' = _
  rw [hr'.count, hr'.map_length]

/-- The hypotheses can be met: the map node of an insertion cannot be allocated; the assignment of a value fails. -/
example : let O := faultyO .mapNode 10
    NoListFault O ∧ Reachable O (demoState O demo3 0) ∧
    (Impl.step O (.insert 4 40) (demoState O demo3 0)).err = some .badAlloc :=
  ⟨fun n => by simp [faultyO], demoState_reachable (by decide +kernel) rfl, by decide +kernel⟩

example : let O := faultyO .assign 9
    NoListFault O ∧ Reachable O (demoState O demo3 0) ∧
    (Impl.step O (.insert 2 99) (demoState O demo3 0)).err = some .badAlloc ∧
    ((Impl.step O (.insert 2 99) (demoState O demo3 0)).state.map fun s' => entries s'.c) =
      some [(3, 30), (1, 10), (2, 20)] :=
  ⟨fun n => by simp [faultyO], demoState_reachable (by decide +kernel) rfl, by decide +kernel, by decide +kernel⟩

/-- An environment in which one assignment fails and leaves the sum of the old and the new value. -/
def tornO (step : Nat) : Oracle Nat Nat := { faultyO .assign step with torn := fun _ old new => old + new }

/-- The value that is left may be neither the old nor the new one, and is served afterwards: a call that throws has no
strong exception guarantee, and a value that nobody inserted is found. -/
theorem C23_failed_assignment_spoils :
    ¬ ∀ (O : Oracle Nat Nat) (s s' s'' : St (Cache Nat Nat) Nat Nat) (x : MapNode Nat Nat) (v u : Nat) (p : Ptr) (e : Err),
      NoListFault O → Reachable O s → entryFor s.c x.key = some x → Throws O (.insert x.key v) s e s' →
      Impl.lookup O x.key s' = .ok (p, u) s'' → u = x.info.value ∨ u = v := by
  intro h
  obtain ⟨s', h1, h2⟩ := Out.throw_fact (o := Impl.step (tornO 9) (.insert 2 99) (demoState (tornO 9) demo3 0))
    (e := .badAlloc) (f := fun s' => (Impl.lookup (tornO 9) 2 s').result) (y := some (2, 119))
    (by decide +kernel) (by decide +kernel)
  obtain ⟨s'', h3⟩ := Out.ok_of h2
  have h4 := h (tornO 9) _ s' s'' ⟨2, 2, ⟨20, some 3, 0⟩⟩ 99 119 2 _ (fun n => by simp [tornO, faultyO])
    (demoState_reachable (by decide +kernel) rfl) (by decide +kernel) h1 h3
  revert h4
  decide

/-- A cache of capacity 3 holding 1; the list node of the next insertion cannot be allocated. -/
def demoHalf : List (WOp Nat Nat) := [.create .basic (.sized 3), .op 0 (.insert 1 10)]

theorem demoHalf_reachable : Reachable (faultyO .listNode 5) (demoState (faultyO .listNode 5) demoHalf 0) :=
  demoState_reachable (by decide +kernel) rfl

/-- C23 fails when a list node cannot be allocated: `insert` has already added the key to the map, and does not take
it out again. `size()` then counts an entry that iteration does not visit. -/
theorem C23_failed_list_node_corrupts :
    ¬ ∀ (O : Oracle Nat Nat) (s s' : St (Cache Nat Nat) Nat Nat) (k v : Nat) (e : Err),
      Steady O → Reachable O s → Throws O (.insert k v) s e s' → Returns O .size s' (.nat (count s'.c)) s' := by
  intro h
  obtain ⟨s', h1, h2⟩ := Out.throw_fact
    (o := Impl.step (faultyO .listNode 5) (.insert 2 20) (demoState (faultyO .listNode 5) demoHalf 0))
    (e := .badAlloc) (f := fun s' => (s'.c.map.length, count s'.c)) (y := (2, 1)) (by decide +kernel) (by decide +kernel)
  have h3 := h _ _ s' 2 20 _ (by intro m n h; show (m : Int) ≤ n; omega) demoHalf_reachable h1
  have h4 : Out.ok (Res.nat s'.c.map.length) s' = .ok (Res.nat (count s'.c)) s' := h3
  injection h4 with h4 _
  injection h4 with h4
  simp only [Prod.mk.injEq] at h2
  omega

/-- … and looking up the key whose insertion failed has undefined behaviour: its list iterator was never set. -/
theorem C23_failed_list_node_undefined :
    ¬ ∀ (O : Oracle Nat Nat) (s s' : St (Cache Nat Nat) Nat Nat) (k v : Nat) (e : Err),
      Steady O → Reachable O s → Throws O (.insert k v) s e s' → Completes (Impl.step O (.find k) s') := by
  intro h
  obtain ⟨s', h1, h2⟩ := Out.throw_fact
    (o := Impl.step (faultyO .listNode 5) (.insert 2 20) (demoState (faultyO .listNode 5) demoHalf 0))
    (e := .badAlloc) (f := fun s' => (Impl.step (faultyO .listNode 5) (.find 2) s').isUb) (y := true)
    (by decide +kernel) (by decide +kernel)
  have h3 := h _ _ s' 2 20 _ (by intro m n h; show (m : Int) ≤ n; omega) demoHalf_reachable h1
  have h4 := Out.isUb_iff.1 h2
  exact h3.not_ub h4

/-- A failing assignment also spoils the recency order that C07 promises (hence `NoAssignFault` there): the entry has
been moved to the most recently used place but is not the last accessed one, and an access to the entry that is does
not move it. -/
theorem C07_needs_assignments_to_succeed :
    ¬ ∀ (O : Oracle Nat Nat) (s s' : St (Cache Nat Nat) Nat Nat) (k : Nat) (r : Res Nat Nat),
      NoListFault O → Steady O → Reachable O s → Returns O (.contains k) s r s' → r = .bool true →
      ∃ x, entryFor s.c k = some x ∧ elements s'.c = others s.c k ++ [x] := by
  intro h
  have hre : Reachable (faultyO .assign 6) (demoState (faultyO .assign 6)
      [.create .basic (.sized 3), .op 0 (.insert 1 10), .op 0 (.insert 2 20), .op 0 (.insert 1 11)] 0) :=
    demoState_reachable (by decide +kernel) rfl
  obtain ⟨s', h1, h2⟩ := Out.ok_fact (o := Impl.step (faultyO .assign 6) (.contains 2) (demoState (faultyO .assign 6)
      [.create .basic (.sized 3), .op 0 (.insert 1 10), .op 0 (.insert 2 20), .op 0 (.insert 1 11)] 0))
    (a := .bool true) (f := fun s' => keys s'.c) (y := [2, 1]) (by decide +kernel) (by decide +kernel)
  obtain ⟨x, h3, h4⟩ := h _ _ s' 2 _ (fun n => by simp [faultyO]) (by intro m n h; show (m : Int) ≤ n; omega) hre h1 rfl
  have h5 : x.key = 2 := by
    have := List.find?_some h3
    exact eq_of_beq this
  have h6 := congrArg (fun l => (l.map (fun n : MapNode Nat Nat => n.key)).getLast?) h4
  simp only [List.map_append, List.map_singleton, List.getLast?_concat, h5] at h6
  have h7 : (keys s'.c).getLast? = some 2 := h6
  rw [h2] at h7
  revert h7
  decide

/-! ### C33 -/

/-- C33. On every cache a program without copies can produce, every call whose preconditions hold (`Safe`: iterators
and references are valid, the capacity of a moved-from cache is not read) returns or throws: no undefined behaviour, no
endless loop, and no termination unless it is `front()` or `back()` on an empty cache. The hash order, the clock,
throwing callbacks, constructors, assignments and map-node allocations are arbitrary. -/
theorem C33_calls_complete (hO : NoListFault O) (h : Reachable O s) (hs : Safe s.c op) (hn : ¬ Terminates s.c op) :
    Completes (Impl.step O op s) := by
  obtain ⟨t, hr, ht⟩ := h.rel hO
  exact step_completes hO hr ht hs hn

/-- C33. The preconditions are exact: without them the behaviour is undefined. -/
theorem C33_preconditions_are_exact (hO : NoListFault O) (h : Reachable O s) :
    (Impl.step O op s = .ub ↔ ¬ Safe s.c op) ∧ Impl.step O op s ≠ .diverge ∧
    (Impl.step O op s = .terminate ↔ Terminates s.c op) := by
  obtain ⟨t, hr, ht⟩ := h.rel hO
  by_cases hn : Terminates s.c op
  · have h1 := step_terminates hO hr ht hn
    have h2 : Safe s.c op := by rcases hn.1 with rfl | rfl <;> trivial
    rw [h1]
    exact ⟨⟨fun h => (by cases h), fun h => absurd h2 h⟩, by simp, ⟨fun _ => hn, fun _ => rfl⟩⟩
  · by_cases hs : Safe s.c op
    · have h1 := step_completes hO hr ht hs hn
      exact ⟨⟨fun h => absurd h h1.not_ub, fun h => absurd hs h⟩, h1.not_diverge,
        ⟨fun h => absurd h h1.not_terminate, fun h => absurd h hn⟩⟩
    · have h1 := step_unsafe hO hr ht hs
      rw [h1]
      exact ⟨⟨fun _ => hs, fun _ => rfl⟩, by simp, ⟨fun h => (by cases h), fun h => absurd h hn⟩⟩

/-- C33 for programs, which may copy caches: a step whose preconditions hold and that is not a call on a copy completes.
(Copy assignment is `noexcept`: it terminates the program if it runs out of memory.) Since the world it leads to is again
one a program can get into, no program that keeps to the preconditions and calls nothing on copies ever has undefined
behaviour. -/
theorem C33_programs_complete (hO : NoListFault O) {w : World K V} {own : Nat → Bool} {wop : WOp K V}
    (hw : Prog O w own) (hs : WSafe w wop) (hown : ∀ i o, wop = .op i o → own i = true) :
    Completes (Impl.wstep O wop w) ∨
    (∃ i j, wop = .copyAssign i j ∧ O.fails .mapNode w.g.steps = true ∧ Impl.wstep O wop w = .terminate) := by
  have hi := (trivial_own.prog hO hw).pair
  have get : ∀ {i : Nat} {c : Cache K V}, w.caches[i]? = some (some c) → Impl.getCache i w = .ok c w := by
    intro i c h
    unfold Impl.getCache
    rw [h]
  have copy : ∀ {i : Nat} {b : Cache K V}, w.caches[i]? = some (some b) → ∃ c, Impl.copyOf O w.g.next b = some c := by
    intro i b hb
    obtain ⟨a, hr, ha⟩ := hi.each i b hb
    obtain ⟨c, hc, -⟩ := copyOf_rep (O := O) hr ha w.g.next
    exact ⟨c, hc⟩
  cases wop with
  | create kind ctor =>
    left
    refine Completes.ret ?_
    have hext : ∀ x ∈ ({ w.g with ext := Impl.allNodes w.caches } : Shared K V).ext,
        x.addr < ({ w.g with ext := Impl.allNodes w.caches } : Shared K V).next := by
      intro x hx
      obtain ⟨j, d, hj, hd⟩ := mem_allNodes.1 hx
      exact (hi.each j d hj).ids x hd
    obtain ⟨hr, ht⟩ := empty_rel (K := K) (V := V) kind (Impl.ctorCapacity ctor) hext
    have hb : Completes (Impl.ctorBody O ctor
        ⟨Impl.emptyCache kind (Impl.ctorCapacity ctor), { w.g with ext := Impl.allNodes w.caches }⟩) := by
      have hcap : (MCache.new kind (Impl.ctorCapacity ctor) : MCache K V).cap ≠ none := by simp [MCache.new]
      cases ctor with
      | default => exact .ok rfl
      | sized n => exact .ok rfl
      | sizedItems n l => exact (insertRange_sim hO).completes hr (insertRange_completes hO ht hcap)
      | items l => exact (insertRange_sim hO).completes hr (insertRange_completes hO ht hcap)
      | initList l => exact (insertRange_sim hO).completes hr (insertRange_completes hO ht hcap)
      | sizedRangeMove n l => exact (insertRangeMove_sim hO).completes hr (insertRangeMove_completes hO ht hcap)
      | rangeMove l => exact (insertRangeMove_sim hO).completes hr (insertRangeMove_completes hO ht hcap)
    unfold Impl.create
    rcases hb with ⟨a, s, h⟩ | ⟨e, s, h⟩
    · rw [h]; exact .ok rfl
    · rw [h]; exact .throw rfl
  | destroy i =>
    left
    obtain ⟨c, h1⟩ := hs
    refine Completes.ret ?_
    rw [bind_ok (get h1)]
    exact .ok rfl
  | op i o =>
    left
    obtain ⟨c, h1, h2, h3⟩ := hs
    have := C33_calls_complete hO (s := viewOf w i c) ⟨w, own, i, c, hw, hown i o rfl, h1, rfl⟩ h2 h3
    show Completes (Impl.onCache i (Impl.step O o) w)
    unfold Impl.onCache
    rw [h1]
    rcases this with ⟨a, s, h⟩ | ⟨e, s, h⟩
    · unfold viewOf at h
      simp only [h]
      exact .ok rfl
    · unfold viewOf at h
      simp only [h]
      exact .throw rfl
  | swap i j =>
    left
    obtain ⟨c, d, h1, h2⟩ := hs
    refine Completes.ret ?_
    unfold Impl.swap
    rw [bind_ok (get h1), bind_ok (get h2)]
    split <;> exact .ok rfl
  | swapBase i j =>
    left
    obtain ⟨c, d, h1, h2⟩ := hs
    refine Completes.ret ?_
    unfold Impl.swapThroughBase
    rw [bind_ok (get h1), bind_ok (get h2)]
    split <;> exact .ok rfl
  | moveCtor i =>
    left
    obtain ⟨c, h1⟩ := hs
    refine Completes.ret ?_
    unfold Impl.moveCtor
    rw [bind_ok (get h1)]
    exact .ok rfl
  | moveAssign i j =>
    left
    obtain ⟨c, d, h1, h2⟩ := hs
    refine Completes.ret ?_
    unfold Impl.moveAssign
    rw [bind_ok (get h1), bind_ok (get h2)]
    split <;> exact .ok rfl
  | copyCtor i =>
    obtain ⟨b, h1⟩ := hs
    obtain ⟨c, hc⟩ := copy h1
    refine .inl (Completes.ret ?_)
    unfold Impl.copyCtor
    rw [bind_ok (get h1)]
    rcases worldAttempt_cases (O := O) .mapNode w with ⟨h2, -⟩ | ⟨h2, -⟩
    · rw [bind_ok h2, bind_ok (makeCopy_some (w := ⟨w.caches, stepG w.g⟩) hc)]
      exact .ok rfl
    · rw [bind_throw h2]
      exact .throw rfl
  | copyAssign i j =>
    obtain ⟨a, b, h1, h2⟩ := hs
    obtain ⟨c, hc⟩ := copy h2
    have e : Impl.wstep O (.copyAssign i j) w = Impl.ret (Impl.copyAssign O i j) (fun _ => .unit) w := rfl
    have e2 : Impl.copyAssign O i j w = M.noexcept (do
        let a ← Impl.getCache i
        let b ← Impl.getCache j
        if i = j || !Impl.sameType a.kind b.kind then pure () else do
          Impl.worldAttempt O .mapNode
          let c ← Impl.makeCopy O b
          Impl.putCache i (some c)) w := rfl
    by_cases hn : (i = j || !Impl.sameType a.kind b.kind) = true
    · left
      refine Completes.ret ?_
      rw [e2]
      unfold M.noexcept
      rw [bind_ok (get h1), bind_ok (get h2), if_pos hn]
      exact .ok rfl
    · rcases worldAttempt_cases (O := O) .mapNode w with ⟨h3, -⟩ | ⟨h3, h4⟩
      · left
        refine Completes.ret ?_
        rw [e2]
        unfold M.noexcept
        rw [bind_ok (get h1), bind_ok (get h2), if_neg hn, bind_ok h3,
          bind_ok (makeCopy_some (w := ⟨w.caches, stepG w.g⟩) hc)]
        exact .ok rfl
      · right
        refine ⟨i, j, rfl, h4, ?_⟩
        rw [e]
        refine bind_terminate ?_
        rw [e2]
        unfold M.noexcept
        rw [bind_ok (get h1), bind_ok (get h2), if_neg hn, bind_throw h3]
  | eq i j =>
    left
    obtain ⟨c, d, h1, h2⟩ := hs
    refine Completes.ret ?_
    unfold Impl.equal
    rw [bind_ok (get h1), bind_ok (get h2)]
    by_cases hij : i = j
    · rw [if_pos hij]; exact .ok rfl
    · rw [if_neg hij]
      obtain ⟨tc, hrc⟩ := hi.rel h1
      obtain ⟨td, hrd⟩ := hi.rel h2
      have hk : ∀ {s : St (Cache K V) K V} {t : St (MCache K V) K V}, Rel s t → ∃ l, Impl.orderKeys s.c = some l :=
        fun hr => ⟨_, hr.orderKeys⟩
      obtain ⟨x, hx⟩ := hk hrc
      obtain ⟨y, hy⟩ := hk hrd
      have e1 : Impl.orderKeys c = some x := hx
      have e2 : Impl.orderKeys d = some y := hy
      unfold Impl.cacheEq
      rw [e1, e2]
      cases Impl.mapEq c d <;> exact .ok rfl
  | newStats ks =>
    exact .inl (.ok rfl)
  | stat id o =>
    left
    refine Completes.ret ?_
    unfold Impl.stat
    cases Impl.statStep (w.g.stats id) o with
    | error e => exact .throw rfl
    | ok st => exact .ok rfl

/-- The hypotheses can be met by calls that use iterators and references, and a stale iterator violates them: the
entry for 2 is evicted by the insertion. -/
example : ∃ s : St (Cache Nat Nat) Nat Nat, Reachable calmO s ∧
    Safe s.c (.oKey (position s.c 0)) ∧ ¬ Terminates s.c (.oKey (position s.c 0)) ∧ Safe s.c (.eraseU (some 2)) ∧
    ∃ s' r, Returns calmO (.insert 4 40) s r s' ∧ ¬ Safe s'.c (.eraseU (some 2)) := by
  obtain ⟨s', h3, h4⟩ := Out.ok_fact (o := Impl.step calmO (.insert 4 40) (demoState calmO demo3 0))
    (a := .inserted true (some 6)) (f := fun s' => (elements s'.c).all (fun x => x.addr != 2)) (y := true)
    (by decide +kernel) (by decide +kernel)
  have h2 : (elements (demoState calmO demo3 0).c)[0]?.map (·.addr) = some 2 := by decide +kernel
  have hre := demo3_reachable
  refine ⟨_, hre, ?_, ?_, ?_, s', _, h3, ?_⟩
  all_goals
    clear h3
    generalize demoState calmO demo3 0 = s at h2 hre
  · obtain ⟨t, hr, ht⟩ := hre.rel calmO_calm.noListFault
    rw [hr.elements_get] at h2
    cases he : t.c.ents[0]? with
    | none => rw [he] at h2; cases h2
    | some e =>
      have hp := hr.position_eq 0
      rw [he] at hp
      exact .inr ⟨e.slot, e.node, hp, (hr.at_iff ht).2 ⟨e, List.mem_of_getElem? he, rfl, rfl⟩⟩
  · rintro ⟨h | h, _⟩ <;> cases h
  · cases hx : (elements s.c)[0]? with
    | none => rw [hx] at h2; cases h2
    | some x =>
      rw [hx] at h2
      injection h2 with h2
      exact .inr ⟨x, List.mem_of_getElem? hx, congrArg some h2.symm⟩
  · rintro (h | ⟨x, hx, h⟩)
    · cases h
    · have := List.all_eq_true.1 h4 x hx
      injection h with h
      rw [← h] at this
      simp at this

end LRU
