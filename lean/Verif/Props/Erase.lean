import Verif.Props.Lookup
/-!
# Removal and resizing: C09, C10, C11, C12, C14, C15, C02

Most of these calls cannot fail, so the theorems say that the call returns, and what it leaves behind.
-/

set_option linter.unusedSectionVars false
set_option autoImplicit false

namespace LRU

variable {K V : Type} [KeyEqual K] [DecidableEq K] [DecidableEq V] {O : Oracle K V}
  {s s' : St (Cache K V) K V} {k : K} {v : V}

/-- C09. `erase(k)` returns whether `k` was stored; afterwards exactly the entries under other keys are left, in
the same order. -/
theorem C09_erase_key (hO : NoListFault O) (h : Reachable O s) (k : K) :
    ∃ b s', Returns O (.erase k) s (.bool b) s' ∧ (b = true ↔ Stored s.c k) ∧
      elements s'.c = others s.c k ∧ ¬ Stored s'.c k ∧ OnlyEntries s s' := by
  obtain ⟨t, hr, ht⟩ := h.rel hO
  have he := erase_eq ht k
  cases hf : t.c.ents.find? (fun x => keq x.key k) with
  | none =>
    rw [hf] at he
    obtain ⟨s', h1, hr'⟩ := hr.back_ok (op := .erase k) hO (bind_ok he)
    have hel : elements s'.c = others s.c k := by
      rw [hr'.elements, hr.others]
      congr 1
      symm
      rw [List.filter_eq_self]
      intro x hx
      have := List.find?_eq_none.1 hf x hx
      simpa using this
    refine ⟨false, s', h1, ?_, hel, ?_, ?_⟩
    · rw [hr.stored, hf]; simp
    · unfold Stored; rw [hel]
      rintro ⟨n, hn, hk⟩
      rw [others_not_stored _ _ n hn] at hk; cases hk
    · exact ⟨by rw [hr.rep.cap, hr'.rep.cap], by rw [hr.rep.kind, hr'.rep.kind], by rw [hr.rep.obs, hr'.rep.obs],
        by rw [hr.g, hr'.g]⟩
  | some x =>
    rw [hf] at he
    obtain ⟨s', h1, hr'⟩ := hr.back_ok (op := .erase k) hO (bind_ok he)
    have hel : elements s'.c = others s.c k := by
      rw [hr'.elements, ← hr.without ht hf]; rfl
    refine ⟨true, s', h1, ?_, hel, ?_, hr.onlyEntries hr'⟩
    · rw [hr.stored, hf]; simp
    · unfold Stored; rw [hel]
      rintro ⟨n, hn, hk⟩
      rw [others_not_stored _ _ n hn] at hk; cases hk

/-- C09. Erasing through an unordered iterator that denotes the element `x` removes exactly `x`. -/
theorem C09_erase_unordered_iterator (hO : NoListFault O) (h : Reachable O s) {x : MapNode K V}
    (hx : x ∈ elements s.c) :
    ∃ s', Returns O (.eraseU (some x.addr)) s .unit s' ∧ elements s'.c = others s.c x.key ∧ OnlyEntries s s' := by
  obtain ⟨t, hr, ht⟩ := h.rel hO
  obtain ⟨e, he, rfl, hf⟩ := hr.ent_of_mem ht hx
  obtain ⟨s', h1, hr'⟩ := hr.back_ok (op := .eraseU (some e.id)) hO (bind_ok (eraseU_own ht he))
  exact ⟨s', h1, by rw [hr'.elements, ← hr.without ht hf]; rfl, hr.onlyEntries hr'⟩

/-- C09. Erasing through an ordered iterator that denotes the element `x` removes exactly `x` (on a plain cache;
for timed caches see C47). -/
theorem C09_erase_ordered_iterator (hO : NoListFault O) (h : Reachable O s) {q : Ptr} {x : MapNode K V}
    (hx : At s.c q x) (hb : s.c.kind = .basic) :
    ∃ s', Returns O (.eraseO (some q)) s .unit s' ∧ elements s'.c = others s.c x.key ∧ OnlyEntries s s' := by
  obtain ⟨t, hr, ht⟩ := h.rel hO
  obtain ⟨e, he, rfl, rfl, hf⟩ := hr.ent_at ht hx
  have hk : t.c.kind = .basic := by rw [← hr.rep.kind, hb]
  have h0 := eraseO_own (O := O) ht he
  rw [hk] at h0
  obtain ⟨s', h1, hr'⟩ := hr.back_ok (op := .eraseO (some e.slot)) hO (bind_ok h0)
  exact ⟨s', h1, by rw [hr'.elements, ← hr.without ht hf]; rfl, hr.onlyEntries hr'⟩

/-! ### C10 -/

/-- C10. `clear()` leaves exactly a freshly constructed cache of the same capacity, class, statistics object and
callbacks. (So every later call behaves as on a fresh one.) -/
theorem C10_clear_makes_fresh {n : Nat} (hcap : s.c.capacity = some n) :
    Returns O .clear s .unit ⟨{ Impl.emptyCache s.c.kind n with obs := s.c.obs }, s.g⟩ := by
  show Out.ok Res.unit (⟨⟨[], [], none, s.c.capacity, s.c.kind, s.c.obs⟩, s.g⟩ : St (Cache K V) K V) = _
  rw [hcap]
  rfl

/-- C10. `shrink(0)` does the same. -/
theorem C10_shrink_zero_makes_fresh (hO : NoListFault O) (h : Reachable O s) {n : Nat} (hcap : s.c.capacity = some n) :
    Returns O (.shrink 0) s .unit ⟨{ Impl.emptyCache s.c.kind n with obs := s.c.obs }, s.g⟩ := by
  show Impl.ret (Impl.shrink 0) (fun _ => Res.unit) s = _
  have : Impl.shrink 0 s = .ok () ⟨{ Impl.emptyCache s.c.kind n with obs := s.c.obs }, s.g⟩ := by
    unfold Impl.shrink
    rw [bind_ok (m := Impl.size) (s := s) rfl]
    cases hm : s.c.map with
    | nil =>
      have : (0 : Nat) ≥ ([] : List (MapNode K V)).length := Nat.le_refl _
      rw [if_pos this]
      obtain ⟨t, hr, ht⟩ := h.rel hO
      have he : t.c.ents = [] := by
        have := hr.map_length
        rw [hm] at this
        exact List.eq_nil_of_length_eq_zero this.symm
      have h1 : s.c.order = [] := by rw [hr.rep.order, he]; rfl
      have h2 : s.c.last = none := by
        rw [hr.rep.last]
        cases hl : t.c.last with
        | none => rfl
        | some p =>
          obtain ⟨e, h3, _⟩ := ht.clean.last p hl
          rw [he] at h3; cases h3
      show Out.ok () s = _
      congr 1
      obtain ⟨⟨_, _, _, _, _, _⟩, _⟩ := s
      simp only at hm h1 h2 hcap
      subst hm h1 h2 hcap
      rfl
    | cons a l =>
      rw [if_neg (by simp), if_pos rfl]
      have := C10_clear_makes_fresh (O := O) hcap
      obtain ⟨_, h1, _⟩ := ret_ok_inv this
      exact h1
  exact bind_ok this

/-! ### C11, C12 -/

/-- C11. `shrink(n)` keeps exactly the `n` most recently used entries (all, if there are fewer), in order. -/
theorem C11_shrink_keeps_most_recent (hO : NoListFault O) (h : Reachable O s) (n : Nat) :
    ∃ s', Returns O (.shrink n) s .unit s' ∧ elements s'.c = (elements s.c).drop (count s.c - n) ∧
      count s'.c = min n (count s.c) ∧ OnlyEntries s s' := by
  obtain ⟨t, hr, ht⟩ := h.rel hO
  obtain ⟨s', h1, hr'⟩ := hr.back_ok (op := .shrink n) hO (bind_ok (shrink_eq ht n))
  refine ⟨s', h1, ?_, ?_, hr.onlyEntries hr'⟩
  · rw [hr'.elements, hr.count, hr.elements, ← List.map_drop]; rfl
  · rw [hr'.count, hr.count]
    show (t.c.ents.drop _).length = _
    rw [List.length_drop]; omega

/-- C12. `capacity(n)` sets the capacity and keeps exactly the `n` most recently used entries (all, if there are
fewer), in order. -/
theorem C12_capacity_keeps_most_recent (hO : NoListFault O) (h : Reachable O s) (n : Nat) :
    ∃ s', Returns O (.setCapacity n) s .unit s' ∧ s'.c.capacity = some n ∧
      elements s'.c = (elements s.c).drop (count s.c - n) ∧ count s'.c = min n (count s.c) ∧
      (count s.c ≤ n → elements s'.c = elements s.c) ∧
      s'.c.kind = s.c.kind ∧ s'.c.obs = s.c.obs ∧ s'.g = s.g := by
  obtain ⟨t, hr, ht⟩ := h.rel hO
  obtain ⟨s', h1, hr'⟩ := hr.back_ok (op := .setCapacity n) hO (bind_ok (setCapacity_eq ht n))
  have h2 : elements s'.c = (elements s.c).drop (count s.c - n) := by
    rw [hr'.elements, hr.count, hr.elements, ← List.map_drop]; rfl
  refine ⟨s', h1, by rw [hr'.rep.cap], h2, ?_, ?_, ?_, ?_, ?_⟩
  · unfold count at h2 ⊢; rw [h2, List.length_drop]; omega
  · intro h3
    rw [h2, show count s.c - n = 0 by omega, List.drop_zero]
  · rw [hr.rep.kind, hr'.rep.kind]; rfl
  · rw [hr.rep.obs, hr'.rep.obs]; rfl
  · rw [hr.g, hr'.g]

/-! ### C14 -/

/-- C14, for non-empty caches: `front()` is the most recently used key and `back()` the least recently used one,
and neither changes anything. The full property also demands that both throw `EmptyCache` on an empty cache; see
`C14_empty_cache_terminates`. -/
theorem C14_front_back_partial (hO : NoListFault O) (h : Reachable O s) (hne : elements s.c ≠ []) :
    ∃ a b s1 s2, (elements s.c).getLast? = some a ∧ (elements s.c).head? = some b ∧
      Returns O .front s (.key a.key) s1 ∧ Returns O .back s (.key b.key) s2 ∧
      SameCache s.c s1.c ∧ SameCache s.c s2.c ∧ s1.g = s.g ∧ s2.g = s.g := by
  obtain ⟨t, hr, ht⟩ := h.rel hO
  rw [hr.elements] at hne
  have hne' : t.c.ents ≠ [] := fun h => hne (by rw [h]; rfl)
  obtain ⟨a, ha⟩ : ∃ a, t.c.ents.getLast? = some a := ⟨_, List.getLast?_eq_some_getLast hne'⟩
  obtain ⟨b, hb⟩ : ∃ b, t.c.ents.head? = some b := by
    cases hl : t.c.ents with
    | nil => exact absurd hl hne'
    | cons b l => exact ⟨b, rfl⟩
  have h1 := front_eq ht
  have h2 := back_eq ht
  rw [ha] at h1
  rw [hb] at h2
  obtain ⟨s1, h3, hr1⟩ := hr.back_ok (op := .front) hO (bind_ok h1)
  obtain ⟨s2, h4, hr2⟩ := hr.back_ok (op := .back) hO (bind_ok h2)
  refine ⟨a.node, b.node, s1, s2, ?_, ?_, h3, h4, hr.same hr1 rfl rfl rfl rfl, hr.same hr2 rfl rfl rfl rfl, ?_, ?_⟩
  · rw [hr.elements, List.getLast?_map, ha]; rfl
  · rw [hr.elements, List.head?_map, hb]; rfl
  · rw [hr1.g, hr.g]
  · rw [hr2.g, hr.g]

/-- C14 is false for the empty cache: `front()` and `back()` are `noexcept`, so the exception `EmptyCache`
terminates the program (for every empty cache, on every run). -/
theorem C14_empty_cache_terminates (hO : NoListFault O) (h : Reachable O s) (he : elements s.c = []) :
    Impl.step O .front s = .terminate ∧ Impl.step O .back s = .terminate := by
  obtain ⟨t, hr, ht⟩ := h.rel hO
  rw [hr.elements] at he
  have he' : t.c.ents = [] := by simpa using he
  have hz : s.c.map.length = 0 := by rw [hr.map_length, he']; rfl
  have h0 : Impl.isEmpty s = .ok true s := by
    unfold Impl.isEmpty
    rw [bind_ok (m := Impl.size) (s := s) rfl, hz]
    rfl
  constructor
  · show Impl.ret Impl.front Res.key s = _
    unfold Impl.ret Impl.front
    apply bind_terminate
    unfold M.noexcept
    rw [bind_ok h0]
    rfl
  · show Impl.ret Impl.back Res.key s = _
    unfold Impl.ret Impl.back
    apply bind_terminate
    unfold M.noexcept
    rw [bind_ok h0]
    rfl

/-! ### C15 -/

/-- C15. `size()`, `capacity()`, `space_left()`, `is_empty()`, `is_full()` agree: sizes add up as mathematical
numbers (`space_left` does not wrap around). `count` is the number of entries ordered iteration visits. -/
theorem C15_size_arithmetic (hO : NoListFault O) (h : Reachable O s) {n : Nat} (hcap : s.c.capacity = some n) :
    ∃ free, count s.c + free = n ∧
      Returns O .size s (.nat (count s.c)) s ∧ Returns O .capacity s (.nat n) s ∧
      Returns O .spaceLeft s (.optNat (some free)) s ∧
      Returns O .isEmpty s (.bool (decide (elements s.c = []))) s ∧
      Returns O .isFull s (.bool (decide (free = 0))) s := by
  obtain ⟨t, hr, ht⟩ := h.rel hO
  have hb := ht.awf.bound n (by rw [← hr.rep.cap, hcap])
  have hl : s.c.map.length = count s.c := by rw [hr.map_length, hr.count]
  have hle : count s.c ≤ n := by rw [hr.count]; exact hb
  have h1 : Impl.size s = .ok (count s.c) s := by rw [← hl]; rfl
  have h2 : Impl.readCapacity s = .ok n s := by simp [Impl.readCapacity, hcap]
  refine ⟨n - count s.c, by omega, bind_ok h1, bind_ok h2, ?_, ?_, ?_⟩
  · refine bind_ok (a := some (n - count s.c)) ?_
    unfold Impl.spaceLeft
    rw [bind_ok h2, bind_ok h1, if_pos hle]
    rfl
  · refine bind_ok (a := decide (elements s.c = [])) ?_
    unfold Impl.isEmpty
    rw [bind_ok h1]
    show Out.ok _ s = _
    congr 1
    unfold count
    cases elements s.c <;> simp
  · refine bind_ok (a := decide (n - count s.c = 0)) ?_
    unfold Impl.isFull
    rw [bind_ok h1, bind_ok h2]
    show Out.ok _ s = _
    congr 1
    rw [Bool.eq_iff_iff, decide_eq_true_iff, beq_iff_eq]
    omega

/-! ### C02 -/

/-- C02. No two entries have equal keys; the hash table holds exactly the entries of the recency list, each once;
and there are `size()` many of them. (`Props.Iterators` shows what the iterators visit.) -/
theorem C02_no_duplicates_same_entries (hO : NoListFault O) (h : Reachable O s) :
    (elements s.c).Pairwise (fun a b => keq a.key b.key = false) ∧
    s.c.map.Perm (elements s.c) ∧ (s.c.map.map (·.addr)).Nodup ∧
    s.c.order.map (·.ref) = (elements s.c).map (·.addr) ∧ (s.c.order.map (·.addr)).Nodup ∧
    s.c.map.length = count s.c ∧ s.c.order.length = count s.c := by
  obtain ⟨t, hr, ht⟩ := h.rel hO
  refine ⟨?_, ?_, ?_, ?_, ?_, ?_, ?_⟩
  · rw [hr.elements, List.pairwise_map]; exact ht.awf.keys
  · rw [hr.elements]; exact hr.rep.map
  · have := (hr.rep.map.map (·.addr)).nodup_iff
    rw [this, List.map_map]; exact ht.awf.ids
  · rw [hr.elements, hr.rep.order, List.map_map, List.map_map]; rfl
  · rw [hr.rep.order, List.map_map]; exact ht.awf.slots
  · rw [hr.map_length, hr.count]
  · rw [hr.rep.order, List.length_map, hr.count]

/-! ### The hypotheses are met -/

example : ((Impl.step calmO (.erase 3) (demoState calmO demo3 0)).state.map fun s' => entries s'.c) =
      some [(2, 20), (1, 10)] ∧
    ((Impl.step calmO (.shrink 2) (demoState calmO demo3 0)).state.map fun s' => entries s'.c) =
      some [(3, 30), (1, 10)] ∧
    ((Impl.step calmO (.setCapacity 1) (demoState calmO demo3 0)).state.map fun s' => entries s'.c) =
      some [(1, 10)] ∧
    (Impl.step calmO .front (demoState calmO demo3 0)).result = some (.key 1) ∧
    (Impl.step calmO .back (demoState calmO demo3 0)).result = some (.key 2) ∧
    (demoState calmO demo3 0).c.capacity = some 3 := by decide +kernel

/-- Iterators that denote elements exist: the list positions of the demo cache. -/
example : (elements (demoState calmO demo3 0).c).all (fun x =>
    x.info.order.any fun q => (demoState calmO demo3 0).c.order.contains ⟨q, x.addr⟩) = true := by decide +kernel

/-- C14: an empty cache. -/
example : Reachable calmO (demoState calmO [.create .basic (.sized 3)] 0) ∧
    elements (demoState calmO [.create .basic (.sized 3)] 0).c = [] :=
  ⟨demoState_reachable (by decide +kernel) rfl, by decide +kernel⟩

end LRU
