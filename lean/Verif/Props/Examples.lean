import Verif.Proofs.Examples
import Verif.Props.Expiry
/-!
# The example programs: C72, C73

`Impl.fibonacci` is the function of that name in `README.md` and in four of the example programs, `Impl.get` the one of the
web server in `README.md`. `left` says which operand of the sum is evaluated first, at every call.
-/

set_option linter.unusedSectionVars false
set_option autoImplicit false

namespace LRU

/-! ### C72 -/

section plain

variable {O : Oracle Nat Nat} {left : St (Cache Nat Nat) Nat Nat → Nat → Bool} {s : St (Cache Nat Nat) Nat Nat}

/-- C72. On a plain cache that holds Fibonacci numbers only, whatever its capacity and whichever operands are evaluated first,
`fibonacci` returns the Fibonacci number and leaves such a cache behind. -/
theorem C72_computes_fibonacci (hC : Calm O) (h : Reachable O s) (hb : s.c.kind = .basic) (hc : s.c.capacity ≠ none)
    (hf : AllRight fibAt s.c) (n : Nat) :
    ∃ s', Impl.fibonacci O left n s = .ok (fibAt n) s' ∧ Reachable O s' ∧ AllRight fibAt s'.c := by
  obtain ⟨c, hc⟩ := Option.ne_none_iff_exists'.1 hc
  obtain ⟨s', h1, h2⟩ := fibonacci_total (left := left) hC n (⟨⟨h, hb, hc⟩, allRight_iff.1 hf⟩ : Fibs O c s)
  exact ⟨s', h1, h2.reach, allRight_iff.2 h2.holds⟩

/-- C72 (partial). With room for three numbers, beginning with an empty cache, every number is computed once: there are
`n - 1` misses, as the comment in `statistics.cpp` says. For a capacity of two this holds if the right operand is always
evaluated first. -/
theorem C72_every_number_is_computed_once_partial (hC : Calm O) (h : Reachable O s) (hb : s.c.kind = .basic) {c : Nat}
    (hc : s.c.capacity = some c) (he : entries s.c = []) (hr : 3 ≤ c ∨ 2 ≤ c ∧ ∀ s n, left s n = false)
    {i m m' : Nat} (hi : s.c.obs.stats = some i) (hx : i < s.g.nextStat) (ht : Tallied (s.g.stats i) m m') {n : Nat} (hn : 2 ≤ n) :
    ∃ s', Impl.fibonacci O left n s = .ok (fibAt n) s' ∧ Tallied (s'.g.stats i) (m + (n - 1)) (m' + 2 * (n - 3)) ∧
      (∃ v, (entries s'.c).getLast? = some (n, v)) ∧ ∀ x ∈ entries s'.c, x.1 ≤ n ∧ x.2 = fibAt x.1 := by
  obtain ⟨n, rfl⟩ : ∃ k, n = k + 2 := ⟨n - 2, by omega⟩
  have hF : Fibs O c s := ⟨⟨h, hb, hc⟩, fun x hx => by
    have : x ∈ entries s.c := hx
    rw [he] at this
    cases this⟩
  obtain ⟨s', h1, h2, h3, h4⟩ := fibonacci_linear (left := left) hC hr n hF (by
    show ((entries s.c).map Prod.fst).reverse = []
    rw [he]; rfl)
  refine ⟨s', h1, h4.tallied hi hx ht, ?_, fun x hx => ⟨?_, h2.holds x hx _ (nat_keq.2 rfl)⟩⟩
  · obtain ⟨T, h5, _⟩ := h3
    have h5 : ((entries s'.c).map Prod.fst).reverse = (n + 2) :: T := h5
    have h6 := congrArg List.head? h5
    rw [List.head?_reverse, List.getLast?_map] at h6
    cases hg : (entries s'.c).getLast? with
    | none => rw [hg] at h6; cases h6
    | some y =>
      rw [hg] at h6
      injection h6 with h6
      exact ⟨y.2, by rw [← h6]⟩
  · have hm : x.1 ∈ R s' := List.mem_reverse.2 (List.mem_map_of_mem hx)
    rcases Nat.lt_or_ge (n + 2) x.1 with hlt | hge
    · exact absurd hm (h3.not_mem hlt)
    · exact hge

/-- C72. With room for two numbers and the left operand evaluated first, there are exponentially many misses. -/
theorem C72_capacity_two_takes_exponential_time (hC : Calm O) (h : Reachable O s) (hb : s.c.kind = .basic)
    (hc : s.c.capacity = some 2) (he : entries s.c = []) (hl : ∀ s n, left s n = true)
    {i m m' : Nat} (hi : s.c.obs.stats = some i) (hx : i < s.g.nextStat) (ht : Tallied (s.g.stats i) m m') {n : Nat} (hn : 2 ≤ n) :
    ∃ s' a b, Impl.fibonacci O left n s = .ok (fibAt n) s' ∧ Tallied (s'.g.stats i) (m + a) b ∧ 2 ^ (n / 4) ≤ a := by
  have hR : R s = [] := by
    show ((entries s.c).map Prod.fst).reverse = []
    rw [he]; rfl
  have hF : Fibs O 2 s := ⟨⟨h, hb, hc⟩, fun x hx => by
    have : x ∈ entries s.c := hx
    rw [he] at this
    cases this⟩
  obtain ⟨s', h1, _, ⟨b, h2⟩, _⟩ := fibonacci_exponential (left := left) hC hl n hF (by rw [hR]; simp)
  exact ⟨s', slow n, m' + b, h1, h2.tallied hi hx ht, slow_exponential n hn⟩

/-- A new cache with statistics. -/
def demoNew (c : Nat) : List (WOp Nat Nat) := [.create .basic (.sized c), .op 0 (.monitorNew [2, 3, 4, 5])]

/-- C72 is false as it stands ("a capacity of 2 is sufficient", "we'll always have n - 1 misses"): with capacity 2, computing
the fifth number misses five times. -/
theorem C72_capacity_two_is_not_sufficient :
    ¬ ∀ (O : Oracle Nat Nat) (left : St (Cache Nat Nat) Nat Nat → Nat → Bool) (s s' : St (Cache Nat Nat) Nat Nat) (i n v : Nat),
      Calm O → Reachable O s → s.c.kind = .basic → s.c.capacity = some 2 → entries s.c = [] → s.c.obs.stats = some i →
      Tallied (s.g.stats i) 0 0 → 2 ≤ n → Impl.fibonacci O left n s = .ok v s' →
      (s'.g.stats i).totalMisses = some (n - 1) := by
  intro h
  obtain ⟨s', h1, h2⟩ := Out.ok_fact (o := Impl.fibonacci calmO (fun _ _ => true) 5 (demoState calmO (demoNew 2) 0))
    (a := 8) (f := fun s' => (s'.g.stats 0).totalMisses) (y := some 5) (by decide +kernel) (by decide +kernel)
  have h3 := h calmO _ _ s' 0 5 _ calmO_calm (demoState_reachable (by decide +kernel) rfl) (by decide +kernel)
    (by decide +kernel) (by decide +kernel) (by decide +kernel) ⟨by decide +kernel, by decide +kernel⟩ (by decide) h1
  rw [h2] at h3
  revert h3
  decide

/-- The hypotheses hold for a new cache, and the numbers are these. -/
example : Reachable calmO (demoState calmO (demoNew 100) 0) ∧ (demoState calmO (demoNew 100) 0).c.kind = .basic ∧
    (demoState calmO (demoNew 100) 0).c.capacity = some 100 ∧ entries (demoState calmO (demoNew 100) 0).c = [] ∧
    (demoState calmO (demoNew 100) 0).c.obs.stats = some 0 ∧ 0 < (demoState calmO (demoNew 100) 0).g.nextStat ∧
    Tallied ((demoState calmO (demoNew 100) 0).g.stats 0) 0 0 ∧
    (Impl.fibonacci calmO (fun _ n => n % 3 == 0) 12 (demoState calmO (demoNew 100) 0)).result = some 233 ∧
    (Impl.fibonacci calmO (fun _ n => n % 3 == 0) 12 (demoState calmO (demoNew 100) 0)).state.map (fun s' =>
      ((s'.g.stats 0).totalMisses, (s'.g.stats 0).totalHits)) = some (some 11, 18) :=
  ⟨demoState_reachable (by decide +kernel) rfl, by decide +kernel, by decide +kernel, by decide +kernel, by decide +kernel,
    by decide +kernel, ⟨by decide +kernel, by decide +kernel⟩, by decide +kernel, by decide +kernel⟩

/-- With capacity 2: 11 misses if the right operand comes first, 67 if the left one does; with capacity 3, 11 again. -/
example : ((Impl.fibonacci calmO (fun _ _ => false) 12 (demoState calmO (demoNew 2) 0)).state.map fun s' =>
      (s'.g.stats 0).totalMisses) = some (some 11) ∧
    ((Impl.fibonacci calmO (fun _ _ => true) 12 (demoState calmO (demoNew 2) 0)).state.map fun s' =>
      (s'.g.stats 0).totalMisses) = some (some 67) ∧
    ((Impl.fibonacci calmO (fun _ _ => true) 12 (demoState calmO (demoNew 3) 0)).state.map fun s' =>
      (s'.g.stats 0).totalMisses) = some (some 11) := ⟨by decide +kernel, by decide +kernel, by decide +kernel⟩

/-- A cache in use that holds Fibonacci numbers. -/
def demoFibs : List (WOp Nat Nat) :=
  [.create .basic (.sized 3), .op 0 (.insert 9 55), .op 0 (.insert 4 5), .op 0 (.insert 6 13), .op 0 (.contains 9)]

example : Reachable calmO (demoState calmO demoFibs 0) ∧ (demoState calmO demoFibs 0).c.kind = .basic ∧
    (demoState calmO demoFibs 0).c.capacity ≠ none ∧ AllRight fibAt (demoState calmO demoFibs 0).c ∧
    (Impl.fibonacci calmO (fun _ _ => true) 10 (demoState calmO demoFibs 0)).result = some 89 := by
  refine ⟨demoState_reachable (by decide +kernel) rfl, by decide +kernel, by decide +kernel, ?_, by decide +kernel⟩
  have he : entries (demoState calmO demoFibs 0).c = [(4, 5), (6, 13), (9, 55)] := by decide +kernel
  intro x hx k hk
  rw [he] at hx
  obtain rfl := nat_keq.1 hk
  simp only [List.mem_cons, List.not_mem_nil, or_false] at hx
  rcases hx with rfl | rfl | rfl <;> decide

end plain

/-! ### C73 -/

section timed

variable {K V : Type} [KeyEqual K] [DecidableEq K] [DecidableEq V]

/-- C73. Whatever the cache (plain or timed) and the clock, and even if something throws and the call is made again later:
whenever `fibonacci` returns, it returns the Fibonacci number. -/
theorem C73_fibonacci_value {O : Oracle Nat Nat} {left : St (Cache Nat Nat) Nat Nat → Nat → Bool}
    {s s' : St (Cache Nat Nat) Nat Nat} (hO : NoListFault O) (hA : NoAssignFault O) (h : Reachable O s)
    (hf : AllRight fibAt s.c) {n v : Nat} (hd : Impl.fibonacci O left n s = .ok v s') :
    v = fibAt n ∧ Reachable O s' ∧ AllRight fibAt s'.c := fibonacci_returned hO hA n h hf hd

/-- C73. Whenever `get` returns, it returns what fetching the resource returns. -/
theorem C73_get_value {O : Oracle K V} {s s' : St (Cache K V) K V} {fetch : K → V} {k : K} {v : V} (hO : NoListFault O)
    (hA : NoAssignFault O) (h : Reachable O s) (hr : ∀ a b, keq a b = true → fetch a = fetch b) (hf : AllRight fetch s.c)
    (hd : Impl.get O fetch k s = .ok v s') : v = fetch k ∧ Reachable O s' ∧ AllRight fetch s'.c :=
  get_returned hO hA h hr hf hd

/-- C73 (partial). Nothing failing, `fibonacci` returns unless the time to live of an entry ends between `contains` and the
lookup that follows; in that case `KeyExpired` is thrown. -/
theorem C73_fibonacci_returns_partial {O : Oracle Nat Nat} {left : St (Cache Nat Nat) Nat Nat → Nat → Bool}
    {s : St (Cache Nat Nat) Nat Nat} (hC : Calm O) (h : Reachable O s) (hc : s.c.capacity ≠ none) (n : Nat) :
    (∃ v s', Impl.fibonacci O left n s = .ok v s') ∨
      (∃ s', Impl.fibonacci O left n s = .throw .keyExpired s') ∧ RunsOut O s := by
  rcases fibonacci_outcome (left := left) hC n h hc with ⟨v, s', h1, _⟩ | h1
  · exact .inl ⟨v, s', h1⟩
  · exact .inr h1

/-- C73 (partial). The same for `get`. -/
theorem C73_get_returns_partial {O : Oracle K V} {s : St (Cache K V) K V} (hC : Calm O) (h : Reachable O s)
    (hc : s.c.capacity ≠ none) (fetch : K → V) (k : K) :
    (∃ v s', Impl.get O fetch k s = .ok v s') ∨ (∃ s', Impl.get O fetch k s = .throw .keyExpired s') ∧ RunsOut O s :=
  get_outcome hC h hc fetch k

/-- C73. In particular both return if the whole run takes no longer than the time to live. -/
theorem C73_in_time {O : Oracle K V} {s : St (Cache K V) K V}
    (ht : ∀ ttl res, s.c.kind = .timed ttl res → ∀ i j, (O.clock j - O.clock i).tdiv res ≤ ttl) : ¬ RunsOut O s := by
  rintro ⟨ttl, res, i, j, h1, _, _, _, h2⟩
  have := ht ttl res h1 i (j + 1)
  omega

/-- A new timed cache with a time to live of two ticks. -/
def demoNewTimed : List (WOp Nat Nat) := [.create (timedKind 2 1) (.sized 100)]

/-- C73 is false as it stands: the example with the timed cache can fail with `KeyExpired`. -/
theorem C73_timed_example_can_throw :
    ¬ ∀ (O : Oracle Nat Nat) (left : St (Cache Nat Nat) Nat Nat → Nat → Bool) (s : St (Cache Nat Nat) Nat Nat) (ttl : Int) (res n : Nat),
      Calm O → Steady O → Reachable O s → s.c.kind = .timed ttl res → s.c.capacity = some 100 → entries s.c = [] →
      ∃ v s', Impl.fibonacci O left n s = .ok v s' := by
  intro h
  obtain ⟨v, s', h1⟩ := h calmO (fun _ _ => true) (demoState calmO demoNewTimed 0) 2 1 4 calmO_calm calmO_steady
    (demoState_reachable (by decide +kernel) rfl) (by decide +kernel) (by decide +kernel) (by decide +kernel)
  have h2 := congrArg Out.err h1
  revert h2
  have h3 : (Impl.fibonacci calmO (fun _ _ => true) 4 (demoState calmO demoNewTimed 0)).err = some .keyExpired := by decide +kernel
  rw [h3]
  intro h2
  cases h2

/-- So can the web server, when the resource is in the cache. -/
theorem C73_get_can_throw :
    ¬ ∀ (O : Oracle Nat Nat) (s : St (Cache Nat Nat) Nat Nat) (ttl : Int) (res : Nat) (fetch : Nat → Nat) (k : Nat),
      Calm O → Steady O → Reachable O s → s.c.kind = .timed ttl res → s.c.capacity ≠ none → AllRight fetch s.c →
      ∃ v s', Impl.get O fetch k s = .ok v s' := by
  intro h
  have he : entries (demoState calmO demoLate 0).c = [(1, 10), (2, 20)] := by decide +kernel
  obtain ⟨v, s', h1⟩ := h calmO (demoState calmO demoLate 0) 2 1 (fun k => 10 * k) 1 calmO_calm calmO_steady
    demoLate_reachable (by decide +kernel) (by decide +kernel) (by
      intro x hx k hk
      rw [he] at hx
      obtain rfl := nat_keq.1 hk
      simp only [List.mem_cons, List.not_mem_nil, or_false] at hx
      rcases hx with rfl | rfl <;> rfl)
  have h2 := congrArg Out.err h1
  revert h2
  have h3 : (Impl.get calmO (fun k => 10 * k) 1 (demoState calmO demoLate 0)).err = some .keyExpired := by decide +kernel
  rw [h3]
  intro h2
  cases h2

/-- A fast clock, with which everything expires before it is used: the programs compute everything again and return the values. -/
example : Reachable slowO (demoState slowO demoLate 0) ∧ (demoState slowO demoLate 0).c.capacity ≠ none ∧
    (Impl.get slowO (fun k => 10 * k) 1 (demoState slowO demoLate 0)).result = some 10 ∧
    (Impl.get slowO (fun k => 10 * k) 7 (demoState slowO demoLate 0)).result = some 70 ∧
    (Impl.fibonacci slowO (fun _ _ => true) 9 (demoState slowO demoNewTimed 0)).result = some 55 :=
  ⟨demoState_reachable (by decide +kernel) rfl, by decide +kernel, by decide +kernel, by decide +kernel, by decide +kernel⟩

/-- A run that takes no longer than the time to live. -/
example : (∀ ttl res, (demoState { calmO with clock := fun n => min n 40 } [.create (timedKind 40 1) (.sized 100)] 0).c.kind =
      .timed ttl res → ∀ i j : Nat, ((min j 40 : Nat) - (min i 40 : Nat) : Int).tdiv res ≤ ttl) ∧
    (Impl.fibonacci { calmO with clock := fun n => min n 40 } (fun _ _ => true) 9
      (demoState { calmO with clock := fun n => min n 40 } [.create (timedKind 40 1) (.sized 100)] 0)).result = some 55 := by
  refine ⟨?_, by decide +kernel⟩
  intro ttl res hk i j
  have : (demoState { calmO with clock := fun n => min n 40 } [.create (timedKind 40 1) (.sized 100)] 0).c.kind = .timed 40 1 := by
    decide +kernel
  rw [this] at hk
  injection hk with h1 h2
  subst h1 h2
  simp only [Int.ofNat_one, Int.tdiv_one]
  omega

end timed

end LRU
