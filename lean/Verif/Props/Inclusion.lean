import Verif.Proofs.Stack
import Verif.Props.Lookup
import Verif.Props.Insert
import Verif.Props.History
/-!
# The stack property of LRU: C53

Of a plain cache that was empty at first and on which memoised accesses were made (look up, insert on a miss).
-/

set_option linter.unusedSectionVars false
set_option autoImplicit false

namespace LRU

variable {K V : Type} [KeyEqual K] [DecidableEq K] [DecidableEq V] {O : Oracle K V}
  {s s' : St (Cache K V) K V} {F : K → V} {ks ms : List K} {n : Nat}

theorem Memoised.reachable (hO : NoListFault O) (h : Reachable O s) (hm : Memoised O F s ks ms s') : Reachable O s' := by
  induction hm with
  | nil => exact h
  | hit _ _ hp hf ih => exact hp.reachable hO ih
  | miss _ _ hp _ _ hr ih => exact (hp.reachable hO ih).after hO hr
  | elsewhere _ he _ => exact he.reachable

/-- An access on a plain cache finds what is stored, and uses it. -/
theorem access_uses (hC : Calm O) (h : Reachable O s) (hb : s.c.kind = .basic) {op : Op K V} {k : K} (ha : op.Accesses k)
    {res : Except Err (Res K V)} (hp : Performs O op s res s') :
    (found res = true ↔ ∃ y, (asLru s.c).item k = some y) ∧ s'.c.kind = .basic ∧
      asLru s'.c = (if found res then (asLru s.c).act (.use k) else asLru s.c) := by
  have hO := hC.noListFault
  have h1 := C16_access_outcome hO hC.noCallbackFault h hb k
  have h2 : found res = true ↔ ∃ y, (asLru s.c).item k = some y := by
    rw [asLru_item]
    cases hx : entryFor s.c k with
    | none =>
      obtain ⟨⟨_, a1⟩, ⟨_, a2⟩, ⟨_, a3⟩⟩ := h1.2 hx
      rcases ha with rfl | rfl | rfl <;> cases res <;> simp only [Performs, Returns, Throws] at hp a1 a2 a3
      · rw [a1] at hp; cases hp
      · rw [a1] at hp; cases hp; simp [found]
      · rw [a2] at hp; cases hp
      · rw [a2] at hp; cases hp; simp [found]
      · simp [found]
      · rw [a3] at hp; cases hp
    | some x =>
      obtain ⟨⟨_, a1⟩, ⟨_, a2⟩, ⟨_, a3⟩⟩ := h1.1 x hx
      rcases ha with rfl | rfl | rfl <;> cases res <;> simp only [Performs, Returns, Throws] at hp a1 a2 a3
      · rw [a1] at hp; cases hp
      · rw [a1] at hp; cases hp; simp [found]
      · rw [a2] at hp; cases hp
      · rw [a2] at hp; cases hp; simp [found]
      · rw [a3] at hp; cases hp
      · rw [a3] at hp; cases hp; simp [found]
  refine ⟨h2, ?_, ?_⟩
  · cases res with
    | ok r => rw [(grown_returns hO h hp).kind, hb]
    | error e => rw [(grown_throws hO h hp).kind, hb]
  · cases res with
    | ok r =>
      have h3 := call_returns_refines hO hC.noAssignFault h hp
      have h4 : op.acts r s.c s'.c = if found (.ok r) then [.use k] else [] := by
        rcases ha with rfl | rfl | rfl <;> rfl
      rw [h4] at h3
      rw [h3]
      split <;> rfl
    | error e =>
      obtain ⟨m, h3⟩ := call_throws_refines hO hC.noAssignFault h hp
      have h4 : op.undone s.c = [] := by
        rcases ha with rfl | rfl | rfl
        · rfl
        · rfl
        · simp only [Op.undone, hb, if_pos]
      rw [h4, List.take_nil] at h3
      exact h3

theorem insert_puts (hC : Calm O) (h : Reachable O s) {op : Op K V} {k : K} {v : V} (ha : op.Inserts k v) {r : Res K V}
    (hp : Returns O op s r s') : s'.c.kind = s.c.kind ∧ asLru s'.c = (asLru s.c).act (.put k v) := by
  refine ⟨(grown_returns hC.noListFault h hp).kind, ?_⟩
  have h3 := call_returns_refines hC.noListFault hC.noAssignFault h hp
  rcases ha with rfl | rfl <;> exact h3

theorem Memoised.top (hC : Calm O) (h : Reachable O s) (hb : s.c.kind = .basic) (he : entries s.c = [])
    (hn : s.c.capacity = some n) (hm : Memoised O F s ks ms s') :
    s'.c.kind = .basic ∧ (asLru s'.c).Top n ks ∧ ms = missesOf n ks := by
  have hO := hC.noListFault
  induction hm with
  | nil =>
    refine ⟨hb, ⟨hn, ?_⟩, rfl⟩
    show SameKeys ((entries s.c).map (·.1)).reverse ((recent ([] : List K)).take n)
    rw [he]
    simp only [List.map_nil, List.reverse_nil, recent, List.take_nil]
    exact .refl _
  | @hit ks ms s1 s2 op k res hm ha hp hf ih =>
    obtain ⟨i1, i2, i3⟩ := ih
    obtain ⟨a1, a2, a3⟩ := access_uses hC (hm.reachable hO h) i1 ha hp
    obtain ⟨y, hy⟩ := a1.1 hf
    refine ⟨a2, ?_, ?_⟩
    · rw [a3, if_pos hf]; exact i2.use hy
    · obtain ⟨a, h1, h2⟩ := (i2.2.any k).1 (((asLru s1.c).item_iff k).1 ⟨y, hy⟩)
      rw [missesOf, if_pos (List.any_eq_true.2 ⟨a, h1, h2⟩)]
      exact i3
  | @miss ks ms s1 s2 s3 op op' k res r hm ha hp hf hi hr ih =>
    obtain ⟨i1, i2, i3⟩ := ih
    have hR := hm.reachable hO h
    obtain ⟨a1, a2, a3⟩ := access_uses hC hR i1 ha hp
    obtain ⟨b1, b2⟩ := insert_puts hC (hp.reachable hO hR) hi hr
    rw [if_neg (by rw [hf]; simp)] at a3
    refine ⟨b1.trans a2, ?_, ?_⟩
    · rw [b2, a3]; exact i2.put k _
    · rw [missesOf, if_neg, ← i3]
      intro hany
      obtain ⟨a, h1, h2⟩ := List.any_eq_true.1 hany
      have := a1.2 (((asLru s1.c).item_iff k).2 ((i2.2.any k).2 ⟨a, h1, h2⟩))
      rw [hf] at this
      cases this
  | elsewhere hm hel ih => rw [hel.cache]; exact ih

theorem Memoised.values (hC : Calm O) (h : Reachable O s) (hb : s.c.kind = .basic) (he : entries s.c = [])
    (hF : ∀ a b, keq a b = true → F a = F b) (hm : Memoised O F s ks ms s') :
    s'.c.kind = .basic ∧ ∀ y ∈ entries s'.c, y.2 = F y.1 := by
  have hO := hC.noListFault
  have huse : ∀ (l : Lru K V) (k : K), ∀ y ∈ (l.act (.use k)).items, y ∈ l.items := by
    intro l k y hy
    cases hi : l.item k with
    | none => rw [Lru.use_new hi] at hy; exact hy
    | some x =>
      rw [Lru.use_old hi] at hy
      rcases List.mem_append.1 hy with hy | hy
      · exact (List.mem_filter.1 hy).1
      · simp only [List.mem_cons, List.not_mem_nil, or_false] at hy
        subst hy
        exact (Lru.item_mem hi).1
  have hput : ∀ (l : Lru K V) (k : K), ∀ y ∈ (l.act (.put k (F k))).items, y ∈ l.items ∨ y.2 = F y.1 := by
    intro l k y hy
    cases hc : l.capacity with
    | none => simp only [Lru.act, hc] at hy; exact .inl hy
    | some n => cases n with
      | zero => rw [Lru.put_zero hc] at hy; exact .inl hy
      | succ n =>
        cases hi : l.item k with
        | none =>
          rw [Lru.put_new hc hi] at hy
          rcases List.mem_append.1 hy with hy | hy
          · refine .inl ?_
            split at hy
            · exact hy
            · exact List.mem_of_mem_tail hy
          · simp only [List.mem_cons, List.not_mem_nil, or_false] at hy
            subst hy
            exact .inr rfl
        | some x =>
          rw [Lru.put_old hc hi] at hy
          rcases List.mem_append.1 hy with hy | hy
          · exact .inl (List.mem_filter.1 hy).1
          · simp only [List.mem_cons, List.not_mem_nil, or_false] at hy
            subst hy
            refine .inr (hF _ _ ?_)
            rw [KeyEqual.symm]
            exact (Lru.item_mem hi).2
  induction hm with
  | nil => exact ⟨hb, by rw [he]; intro y hy; cases hy⟩
  | @hit ks ms s1 s2 op k res hm ha hp hf ih =>
    obtain ⟨a1, a2, a3⟩ := access_uses hC (hm.reachable hO h) ih.1 ha hp
    rw [if_pos hf] at a3
    refine ⟨a2, fun y hy => ih.2 y (huse (asLru s1.c) k y ?_)⟩
    rw [← a3]
    exact hy
  | @miss ks ms s1 s2 s3 op op' k res r hm ha hp hf hi hr ih =>
    have hR := hm.reachable hO h
    obtain ⟨a1, a2, a3⟩ := access_uses hC hR ih.1 ha hp
    obtain ⟨b1, b2⟩ := insert_puts hC (hp.reachable hO hR) hi hr
    rw [if_neg (by rw [hf]; simp)] at a3
    rw [a3] at b2
    refine ⟨b1.trans a2, fun y hy => ?_⟩
    change y ∈ (asLru s3.c).items at hy
    rw [b2] at hy
    rcases hput _ k y hy with hy | hy
    · exact ih.2 y hy
    · exact hy
  | elsewhere hm hel ih => rw [hel.cache]; exact ih

/-- C53. A cache of capacity `n` holds exactly the `n` keys accessed most recently, in that order. -/
theorem C53_holds_most_recent (hC : Calm O) (h : Reachable O s) (hb : s.c.kind = .basic) (he : entries s.c = [])
    (hn : s.c.capacity = some n) (hm : Memoised O F s ks ms s') : SameKeys (newestKeys s'.c) ((recent ks).take n) :=
  (hm.top hC h hb he hn).2.1.2

/-- C53. Which accesses miss is determined by the accesses and the capacity. -/
theorem C53_misses (hC : Calm O) (h : Reachable O s) (hb : s.c.kind = .basic) (he : entries s.c = [])
    (hn : s.c.capacity = some n) (hm : Memoised O F s ks ms s') : ms = missesOf n ks :=
  (hm.top hC h hb he hn).2.2

theorem missesOf_mono {n m : Nat} (hnm : n ≤ m) : ∀ ks : List K, (missesOf m ks).Sublist (missesOf n ks) := by
  intro ks
  induction ks with
  | nil => exact .slnil
  | cons k ks ih =>
    unfold missesOf
    by_cases h1 : ((recent ks).take n).any (fun a => keq a k) = true
    · have h2 : ((recent ks).take m).any (fun a => keq a k) = true := by
        obtain ⟨a, ha, hk⟩ := List.any_eq_true.1 h1
        exact List.any_eq_true.2 ⟨a, (List.take_prefix_take_left hnm).subset ha, hk⟩
      rw [if_pos h1, if_pos h2]
      exact ih
    · rw [if_neg h1]
      split
      · exact ih.cons k
      · exact ih.cons_cons k

/-- C53. For the same memoised accesses, what a cache of capacity `n` holds, a cache of capacity `m ≥ n` holds as well,
with the same value; and the accesses the larger cache misses are among those that the smaller one misses. The caches may
live in different programs. -/
theorem C53_inclusion {O O' : Oracle K V} {s s' u u' : St (Cache K V) K V} {ms ms' : List K} {n m : Nat}
    (hC : Calm O) (hC' : Calm O') (hs : Reachable O s) (hu : Reachable O' u) (hbs : s.c.kind = .basic)
    (hbu : u.c.kind = .basic) (hes : entries s.c = []) (heu : entries u.c = []) (hns : s.c.capacity = some n)
    (hnu : u.c.capacity = some m) (hnm : n ≤ m) (hF : ∀ a b, keq a b = true → F a = F b)
    (hms : Memoised O F s ks ms s') (hmu : Memoised O' F u ks ms' u') :
    (∀ k v, stored? s'.c k = some v → stored? u'.c k = some v) ∧ ms'.Sublist ms := by
  have hts := hms.top hC hs hbs hes hns
  have htu := hmu.top hC' hu hbu heu hnu
  refine ⟨fun k v hv => ?_, ?_⟩
  · have hst : ∀ (c : Cache K V), (∃ y, (asLru c).item k = some y ∧ y.2 = v) ↔ stored? c k = some v := by
      intro c
      rw [asLru_item]
      unfold stored?
      cases entryFor c k with
      | none => simp
      | some x => simp [MapNode.pair]
    rw [← hst] at hv ⊢
    obtain ⟨y, hy, rfl⟩ := hv
    obtain ⟨a, h1, h2⟩ := (hts.2.1.2.any k).1 (((asLru s'.c).item_iff k).1 ⟨y, hy⟩)
    obtain ⟨z, hz⟩ := ((asLru u'.c).item_iff k).2 ((htu.2.1.2.any k).2 ⟨a, (List.take_prefix_take_left hnm).subset h1, h2⟩)
    refine ⟨z, hz, ?_⟩
    obtain ⟨y1, y2⟩ := Lru.item_mem hy
    obtain ⟨z1, z2⟩ := Lru.item_mem hz
    rw [(hms.values hC hs hbs hes hF).2 y y1, (hmu.values hC' hu hbu heu hF).2 z z1, hF _ _ y2, hF _ _ z2]
  · rw [hts.2.2, htu.2.2]
    exact missesOf_mono hnm ks

/-- C53. Hence the larger cache has no more misses. -/
theorem C53_no_more_misses {O O' : Oracle K V} {s s' u u' : St (Cache K V) K V} {ms ms' : List K} {n m : Nat}
    (hC : Calm O) (hC' : Calm O') (hs : Reachable O s) (hu : Reachable O' u) (hbs : s.c.kind = .basic)
    (hbu : u.c.kind = .basic) (hes : entries s.c = []) (heu : entries u.c = []) (hns : s.c.capacity = some n)
    (hnu : u.c.capacity = some m) (hnm : n ≤ m) (hms : Memoised O F s ks ms s') (hmu : Memoised O' F u ks ms' u') :
    ms'.length ≤ ms.length := by
  rw [(hms.top hC hs hbs hes hns).2.2, (hmu.top hC' hu hbu heu hnu).2.2]
  exact (missesOf_mono hnm ks).length_le

/-- C53. Any sequence of memoised accesses can be made. -/
theorem C53_accesses_complete (hC : Calm O) (h : Reachable O s) (hb : s.c.kind = .basic) (he : entries s.c = [])
    (hn : s.c.capacity = some n) (F : K → V) (ks : List K) : ∃ ms s', Memoised O F s ks ms s' := by
  have hO := hC.noListFault
  induction ks with
  | nil => exact ⟨[], s, .nil⟩
  | cons k ks ih =>
    obtain ⟨ms, s1, hm⟩ := ih
    have hR := hm.reachable hO h
    obtain ⟨h1, h2, _⟩ := hm.top hC h hb he hn
    have h3 := C16_access_outcome hO hC.noCallbackFault hR h1 k
    cases hx : entryFor s1.c k with
    | some x =>
      obtain ⟨_, ⟨s2, h4⟩, _⟩ := h3.1 x hx
      exact ⟨ms, s2, .hit hm (.inr (.inl rfl)) (res := .ok _) h4 rfl⟩
    | none =>
      obtain ⟨_, ⟨s2, h4⟩, _⟩ := h3.2 hx
      have h5 : s2.c.capacity = s1.c.capacity := (C07_miss_changes_nothing hO hR (.inr (.inl rfl)) h4 (.inr rfl)).capacity
      obtain ⟨r, s3, h6⟩ := insert_returns hC (hR.after hO h4) (op := .insert k (F k)) (.inl rfl) (by
        rw [h5, show s1.c.capacity = some n from h2.1]; simp)
      exact ⟨k :: ms, s3, .miss hm (.inr (.inl rfl)) (res := .ok _) h4 rfl (.inl rfl) h6⟩

/-- A new plain cache of capacity `n`. -/
def freshDemo (n : Nat) : List (WOp Nat Nat) := [.create .basic (.sized n)]

theorem freshDemo_reachable (n : Nat) : Reachable calmO (demoState calmO (freshDemo n) 0) :=
  demoState_reachable rfl rfl

/-- Non-vacuity: the accesses 1, 2, 1, 3, 1 on caches of capacity 1 and 2; the first misses all five, the second three. -/
example : ∃ ms ms' s' u', Memoised calmO (fun k => 10 * k) (demoState calmO (freshDemo 1) 0) [1, 3, 1, 2, 1] ms s' ∧
    Memoised calmO (fun k => 10 * k) (demoState calmO (freshDemo 2) 0) [1, 3, 1, 2, 1] ms' u' ∧
    ms = [1, 3, 1, 2, 1] ∧ ms' = [3, 2, 1] := by
  obtain ⟨ms, s', h1⟩ := C53_accesses_complete calmO_calm (freshDemo_reachable 1) rfl rfl (n := 1) rfl (fun k => 10 * k)
    [1, 3, 1, 2, 1]
  obtain ⟨ms', u', h2⟩ := C53_accesses_complete calmO_calm (freshDemo_reachable 2) rfl rfl (n := 2) rfl (fun k => 10 * k)
    [1, 3, 1, 2, 1]
  refine ⟨ms, ms', s', u', h1, h2, ?_, ?_⟩
  · rw [C53_misses calmO_calm (freshDemo_reachable 1) rfl rfl rfl h1]; decide
  · rw [C53_misses calmO_calm (freshDemo_reachable 2) rfl rfl rfl h2]; decide

end LRU
