import Verif.Proofs.Outcomes
import Verif.Spec.ListFault
import Verif.Proofs.ReenterCalls
/-!
# Failing allocations of list nodes
-/

set_option linter.unusedSectionVars false
set_option autoImplicit false

namespace LRU

variable {K V : Type} [KeyEqual K] [DecidableEq K] [DecidableEq V] {O O' : Oracle K V} {s : St (Cache K V) K V}
  {k : K} {v : V}

theorem bind_congr_at {σ α β : Type} {m m' : M σ α} {f : α → M σ β} {s : σ} (h : m s = m' s) :
    (m >>= f) s = (m' >>= f) s := by
  show M.bind m f s = M.bind m' f s
  unfold M.bind
  rw [h]

theorem withLists_noListFault (O : Oracle K V) : NoListFault O.withLists := fun _ => rfl

theorem attempt_withLists {C : Type} {site : Site} (h : site ≠ .listNode) :
    (attempt O.withLists site : M (St C K V) Unit) = attempt O site := by
  funext s
  unfold attempt Oracle.withLists
  simp only [if_neg h]

theorem may_withLists {C : Type} {site : Site} (h : site ≠ .listNode) :
    (may O.withLists site : M (St C K V) (Option Nat)) = may O site := by
  funext s
  unfold may Oracle.withLists
  simp only [if_neg h]

theorem mapEmplace_withLists {k : K} {v : V} {time : Int} :
    Impl.mapEmplace O.withLists k v time = Impl.mapEmplace O k v time := by
  unfold Impl.mapEmplace
  rw [attempt_withLists (by simp)]
  rfl

theorem moveToFrontAssign_withLists {n : MapNode K V} {v : V} :
    Impl.moveToFrontAssign O.withLists n v = Impl.moveToFrontAssign O n v := by
  unfold Impl.moveToFrontAssign Impl.tryAssign
  rw [may_withLists (by simp)]
  rfl

theorem insertionTime_withLists : Impl.insertionTime O.withLists = (Impl.insertionTime O : Impl.CM K V Int) := rfl

theorem evictOrAppend_withLists (p : Ptr) (s : St (Cache K V) K V) :
    Impl.evictOrAppend O p s = Impl.evictOrAppend O.withLists p s ∨
    (∃ n, s.c.capacity = some n ∧ s.c.map.length ≤ n) ∧ O.fails .listNode s.g.steps = true ∧
      Impl.evictOrAppend O p s = .throw .badAlloc ⟨s.c, { s.g with steps := s.g.steps + 1 }⟩ := by
  unfold Impl.evictOrAppend
  rw [bind_ok (m := Impl.size) (s := s) rfl, bind_ok (m := Impl.size) (s := s) rfl]
  cases hc : s.c.capacity with
  | none =>
    have hub : Impl.readCapacity s = .ub := by simp [Impl.readCapacity, hc]
    left
    rw [bind_ub hub, bind_ub hub]
  | some n =>
    have hok : Impl.readCapacity s = .ok n s := by simp [Impl.readCapacity, hc]
    rw [bind_ok hok, bind_ok hok]
    by_cases hn : s.c.map.length > n
    · left
      rw [if_pos hn, if_pos hn]
    · rw [if_neg hn, if_neg hn]
      unfold Impl.orderAppend
      cases hf : O.fails .listNode s.g.steps with
      | false =>
        left
        have h1 : attempt O .listNode s = attempt O.withLists .listNode s := by
          unfold attempt
          simp only [hf]
          rfl
        show M.bind _ _ s = M.bind _ _ s
        unfold M.bind
        rw [h1]
      | true =>
        right
        refine ⟨⟨n, rfl, Nat.le_of_not_lt hn⟩, rfl, bind_throw ?_⟩
        unfold attempt
        simp only [hf, if_true]

theorem insertNode_withLists {α : Type} (k : K) (v : V) (time : Int) (f : Ptr → Impl.CM K V α) (s : St (Cache K V) K V) :
    (Impl.insertNode O k v time >>= f) s = (Impl.insertNode O.withLists k v time >>= f) s ∨
    ∃ n g', Orphaned k v n s.c ⟨O.shuffle s.g.next (n :: s.c.map), s.c.order, s.c.last, s.c.capacity, s.c.kind, s.c.obs⟩ ∧
      n.addr = s.g.next ∧ (∃ m, s.c.capacity = some m ∧ s.c.map.length < m) ∧ (∃ m, O.fails .listNode m = true) ∧
      (Impl.insertNode O k v time >>= f) s = .throw .badAlloc
        ⟨⟨O.shuffle s.g.next (n :: s.c.map), s.c.order, s.c.last, s.c.capacity, s.c.kind, s.c.obs⟩, g'⟩ := by
  unfold Impl.insertNode
  rw [bind_bind, bind_bind, mapEmplace_withLists]
  unfold Impl.mapEmplace
  rw [bind_bind, bind_bind]
  rcases attempt_cases O .mapNode s (.inr (.inl rfl)) with ⟨h1, _⟩ | ⟨h1, _⟩
  · rw [bind_ok h1, bind_ok h1]
    rw [bind_bind, bind_bind, bind_ok (m := alloc) (s := _) rfl, bind_ok (m := alloc) (s := _) rfl]
    rw [bind_bind, bind_bind, bind_ok (m := Impl.setSelf _) (s := _) rfl, bind_ok (m := Impl.setSelf _) (s := _) rfl]
    rw [bind_ok (m := Pure.pure _) (s := _) rfl, bind_ok (m := Pure.pure _) (s := _) rfl]
    unfold Impl.insertNewKey
    rw [bind_bind, bind_bind, bind_bind, bind_bind]
    rcases evictOrAppend_withLists (O := O) s.g.next ⟨⟨O.shuffle s.g.next (⟨s.g.next, k, ⟨v, none, time⟩⟩ :: s.c.map),
      s.c.order, s.c.last, s.c.capacity, s.c.kind, s.c.obs⟩,
      { s.g with steps := s.g.steps + 1, next := s.g.next + 1 }⟩ with h2 | ⟨⟨m, h2, h3⟩, h4, h5⟩
    · left
      exact bind_congr_at h2
    · right
      refine ⟨⟨s.g.next, k, ⟨v, none, time⟩⟩, _, ⟨rfl, rfl, rfl, O.shuffle_perm _ _, rfl, rfl, rfl, rfl, rfl⟩, rfl,
        ⟨m, h2, ?_⟩, ⟨_, h4⟩, bind_throw h5⟩
      have := (O.shuffle_perm s.g.next (⟨s.g.next, k, ⟨v, none, time⟩⟩ :: s.c.map)).length_eq
      rw [this] at h3
      exact h3
  · left
    rw [bind_throw h1, bind_throw h1]

/-- An insertion either does what it would do if list nodes could always be allocated, or leaves an orphan. -/
def OrphansOr (O : Oracle K V) (k : K) (v : V) (s : St (Cache K V) K V) (a b : Out (St (Cache K V) K V) (Bool × Option Ptr)) :
    Prop :=
  a = b ∨ ∃ n s', Orphaned k v n s.c s'.c ∧ n.addr = s.g.next ∧ s.c.map.find? (fun x => keq x.key k) = none ∧
    (∃ m, s.c.capacity = some m ∧ s.c.map.length < m) ∧ (∃ m, O.fails .listNode m = true) ∧ a = .throw .badAlloc s'

theorem insertNode_orphans {s s0 : St (Cache K V) K V} (hc : s.c = s0.c) (hg : s.g.next = s0.g.next) {time : Int}
    (hf : s.c.map.find? (fun x => keq x.key k) = none) (f : Ptr → Impl.CM K V (Bool × Option Ptr)) :
    OrphansOr O k v s0 ((Impl.insertNode O k v time >>= f) s) ((Impl.insertNode O.withLists k v time >>= f) s) := by
  rcases insertNode_withLists (O := O) k v time f s with h | ⟨n, g', h1, h2, h3, h4, h5⟩
  · exact .inl h
  · refine .inr ⟨n, _, ?_, h2.trans hg, hc ▸ hf, hc ▸ h3, h4, h5⟩
    rw [← hc]
    exact h1

/-- `m` leaves the cache and the heap alone. -/
def Calmly {α : Type} (m : Impl.CM K V α) : Prop := ∀ s a s', m s = .ok a s' → s'.c = s.c ∧ s'.g.next = s.g.next

theorem orphans_bind {α : Type} {m : Impl.CM K V α} {f f' : α → Impl.CM K V (Bool × Option Ptr)} {s s0 : St (Cache K V) K V}
    (h : ∀ a s', m s = .ok a s' → OrphansOr O k v s0 (f a s') (f' a s')) :
    OrphansOr O k v s0 ((m >>= f) s) ((m >>= f') s) := by
  cases hm : m s with
  | ok a s' => rw [bind_ok hm, bind_ok hm]; exact h a s' hm
  | throw e s' => rw [bind_throw hm, bind_throw hm]; exact .inl rfl
  | ub => rw [bind_ub hm, bind_ub hm]; exact .inl rfl
  | terminate => rw [bind_terminate hm, bind_terminate hm]; exact .inl rfl
  | diverge =>
    left
    show M.bind _ _ _ = M.bind _ _ _
    unfold M.bind
    rw [hm]

theorem attempt_calmly {site : Site} : Calmly (attempt O site : Impl.CM K V Unit) := by
  intro s a s' h
  unfold attempt at h
  simp only at h
  split at h
  · cases h
  · cases h; exact ⟨rfl, rfl⟩

theorem insertionTime_calmly : Calmly (Impl.insertionTime O : Impl.CM K V Int) := by
  intro s a s' h
  unfold Impl.insertionTime at h
  obtain ⟨kind, s1, h1, h2⟩ := bind_ok_inv h
  cases h1
  cases hk : s.c.kind with
  | basic => rw [hk] at h2; cases h2; exact ⟨rfl, rfl⟩
  | timed ttl res => rw [hk] at h2; cases h2; exact ⟨rfl, rfl⟩

theorem readCapacity_idle_inv {s s' : St (Cache K V) K V} {n : Nat} (h : Impl.readCapacity s = .ok n s') : s' = s := by
  unfold Impl.readCapacity at h
  split at h <;> cases h
  rfl

theorem insert_orphans (k : K) (v : V) (s : St (Cache K V) K V) :
    OrphansOr O k v s (Impl.insert O k v s) (Impl.insert O.withLists k v s) := by
  unfold Impl.insert
  refine orphans_bind fun n s1 h1 => ?_
  cases readCapacity_idle_inv h1
  by_cases hn : n = 0
  · rw [if_pos hn, if_pos hn]; exact .inl rfl
  · rw [if_neg hn, if_neg hn]
    refine orphans_bind fun it s2 h2 => ?_
    cases h2
    cases hf : s.c.map.find? (fun x => keq x.key k) with
    | some x =>
      left
      dsimp only
      rw [moveToFrontAssign_withLists]
    | none =>
      dsimp only
      rw [insertionTime_withLists, attempt_withLists (by simp)]
      refine orphans_bind fun time s3 h3 => ?_
      obtain ⟨h4, h5⟩ := insertionTime_calmly _ _ _ h3
      refine orphans_bind fun _ s4 h6 => ?_
      obtain ⟨h7, h8⟩ := attempt_calmly _ _ _ h6
      exact insertNode_orphans (h7.trans h4) (h8.trans h5) (by rw [h7, h4]; exact hf) _

theorem emplace_orphans (k : K) (v : V) (s : St (Cache K V) K V) :
    OrphansOr O k v s (Impl.emplace O k v s) (Impl.emplace O.withLists k v s) := by
  unfold Impl.emplace
  refine orphans_bind fun n s1 h1 => ?_
  cases readCapacity_idle_inv h1
  by_cases hn : n = 0
  · rw [if_pos hn, if_pos hn]; exact .inl rfl
  · rw [if_neg hn, if_neg hn, attempt_withLists (by simp)]
    refine orphans_bind fun _ s2 h2 => ?_
    obtain ⟨h3, h4⟩ := attempt_calmly _ _ _ h2
    refine orphans_bind fun it s3 h5 => ?_
    cases h5
    cases hf : s2.c.map.find? (fun x => keq x.key k) with
    | some x =>
      left
      dsimp only
      rw [moveToFrontAssign_withLists]
    | none =>
      dsimp only
      rw [insertionTime_withLists]
      refine orphans_bind fun _ s4 h6 => ?_
      obtain ⟨h7, h8⟩ := attempt_calmly _ _ _ h6
      refine orphans_bind fun time s5 h9 => ?_
      obtain ⟨h10, h11⟩ := insertionTime_calmly _ _ _ h9
      exact insertNode_orphans (h10.trans (h7.trans h3)) (h11.trans (h8.trans h4)) (by rw [h10, h7]; exact hf) _

/-! ### What the orphan does -/

section orphan

variable {s s' : St (Cache K V) K V} {n : MapNode K V}

theorem Orphaned.addr_ne (hO : NoListFault O') (h : Reachable O' s) (hn : n.addr = s.g.next) :
    ∀ x ∈ s.c.map, x.addr ≠ n.addr := by
  obtain ⟨t, hr, ht⟩ := h.rel hO
  intro x hx hxn
  obtain ⟨e, he, rfl⟩ := List.mem_map.1 (hr.rep.map.mem_iff.1 hx)
  have := (ht.awf.lt e he).1
  rw [← hr.g] at this
  have h2 : e.id = s.g.next := hxn.trans hn
  rw [h2] at this
  exact Nat.lt_irrefl _ this

theorem Orphaned.find_addr (hO : NoListFault O') (h : Reachable O' s) (ho : Orphaned k v n s.c s'.c)
    (hn : n.addr = s.g.next) (p : Ptr) :
    s'.c.map.find? (fun x => x.addr == p) =
      if n.addr = p then some n else s.c.map.find? (fun x => x.addr == p) := by
  have hne := Orphaned.addr_ne hO h hn
  obtain ⟨t, hr, ht⟩ := h.rel hO
  have hnd : (s.c.map.map (·.addr)).Nodup := by
    refine ((hr.rep.map.map _).nodup_iff).2 ?_
    rw [List.map_map]
    exact ht.awf.ids
  rw [find?_perm ho.map]
  · rw [List.find?_cons]
    by_cases hp : n.addr = p
    · simp [hp]
    · rw [if_neg hp, beq_eq_false_iff_ne.2 hp]
  · have hall : ((n :: s.c.map).map (·.addr)).Nodup := by
      rw [List.map_cons, List.nodup_cons]
      refine ⟨fun hm => ?_, hnd⟩
      obtain ⟨x, hx, hxa⟩ := List.mem_map.1 hm
      exact hne x hx hxa
    intro x hx y hy hxp hyp
    exact map_inj_of_nodup hall x hx y hy ((eq_of_beq hxp).trans (eq_of_beq hyp).symm)

theorem Orphaned.find_key (hO : NoListFault O') (h : Reachable O' s) (ho : Orphaned k v n s.c s'.c)
    (hk : ¬ Stored s.c k) : s'.c.map.find? (fun x => keq x.key k) = some n := by
  obtain ⟨t, hr, ht⟩ := h.rel hO
  have h1 : s.c.map.find? (fun x => keq x.key k) = none := by
    rw [hr.rep.find_key hr.awf k, hr.not_stored.1 hk]
    rfl
  have hu : ∀ y ∈ n :: s.c.map, keq y.key k = true → y = n := by
    intro y hy hyk
    rcases List.mem_cons.1 hy with rfl | hy
    · rfl
    · exact absurd hyk (List.find?_eq_none.1 h1 y hy)
  rw [find?_perm ho.map]
  · rw [List.find?_cons]
    have : keq n.key k = true := by rw [ho.key]; exact KeyEqual.refl k
    simp [this]
  · intro x hx y hy hxk hyk
    rw [hu x hx hxk, hu y hy hyk]

theorem filterMap_congr_mem {α β : Type} {f g : α → Option β} {l : List α} (h : ∀ x ∈ l, f x = g x) :
    l.filterMap f = l.filterMap g := by
  induction l with
  | nil => rfl
  | cons a l ih =>
    rw [List.filterMap_cons, List.filterMap_cons, h a List.mem_cons_self, ih fun x hx => h x (List.mem_cons_of_mem _ hx)]

theorem Orphaned.elements (hO : NoListFault O') (h : Reachable O' s) (ho : Orphaned k v n s.c s'.c)
    (hn : n.addr = s.g.next) : elements s'.c = elements s.c := by
  unfold LRU.elements
  rw [ho.order]
  refine filterMap_congr_mem fun l hl => ?_
  rw [ho.find_addr hO h hn]
  refine if_neg fun hp => ?_
  obtain ⟨t, hr, ht⟩ := h.rel hO
  rw [hr.rep.order] at hl
  obtain ⟨e, he, rfl⟩ := List.mem_map.1 hl
  exact Orphaned.addr_ne hO h hn e.node (hr.rep.map.mem_iff.2 (List.mem_map.2 ⟨e, he, rfl⟩)) hp.symm

theorem Orphaned.length (hO : NoListFault O') (h : Reachable O' s) (ho : Orphaned k v n s.c s'.c) :
    s'.c.map.length = count s.c + 1 := by
  obtain ⟨t, hr, ht⟩ := h.rel hO
  rw [ho.map.length_eq, hr.count, List.length_cons, hr.map_length]

theorem Orphaned.lastIs (hO : NoListFault O') (h : Reachable O' s) (ho : Orphaned k v n s.c s'.c)
    (hn : n.addr = s.g.next) (hk : ¬ Stored s.c k) : Impl.lastIs k s' = .ok false s' := by
  obtain ⟨t, hr, ht⟩ := h.rel hO
  unfold Impl.lastIs
  rw [bind_ok (m := Impl.getLast) (s := s') rfl, ho.last, hr.rep.last]
  cases hl : t.c.last with
  | none => rfl
  | some p =>
    obtain ⟨e, he, rfl⟩ := ht.clean.last p hl
    have h1 : s.c.map.find? (fun x => x.addr == e.id) = some e.node := by
      rw [hr.rep.find_addr hr.awf, show (t.c.ents.find? fun y => y.id == e.id) = some e from
        find?_key (f := fun y : Ent K V => y.id) ht.awf.ids he]
      rfl
    have h2 : s'.c.map.find? (fun x => x.addr == e.id) = some e.node := by
      rw [ho.find_addr hO h hn, if_neg, h1]
      intro hp
      exact Orphaned.addr_ne hO h hn e.node (hr.rep.map.mem_iff.2 (List.mem_map.2 ⟨e, he, rfl⟩)) hp.symm
    have h3 : Impl.deref e.id s' = .ok e.node s' := by
      unfold Impl.deref
      rw [h2]
    dsimp only
    rw [bind_ok h3]
    have h4 := List.find?_eq_none.1 (hr.not_stored.1 hk) e he
    rw [KeyEqual.symm] at h4
    show Out.ok (keq k e.key) s' = _
    rw [Bool.not_eq_true] at h4
    rw [h4]

theorem Orphaned.moveToFront (hO : NoListFault O') (h : Reachable O' s) (ho : Orphaned k v n s.c s'.c)
    (hc : 0 < count s.c) {g : Shared K V} : Impl.moveToFront n.info.order ⟨s'.c, g⟩ = .ub := by
  unfold Impl.moveToFront
  rw [bind_ok (m := Impl.size) (s := _) rfl, if_neg, ho.unlinked]
  · rfl
  · show ¬ s'.c.map.length = 1
    rw [ho.length hO h]
    omega

theorem evictOrAppend_emptyList {c : Nat} {p : Ptr} (h1 : s.c.capacity = some c) (h2 : s.c.map.length > c)
    (h3 : s.c.order = []) : Impl.evictOrAppend O p s = .ub := by
  unfold Impl.evictOrAppend
  have h4 : Impl.readCapacity s = .ok c s := by
    unfold Impl.readCapacity
    rw [h1]
  rw [bind_ok (m := Impl.size) (s := s) rfl, bind_ok h4, if_pos h2]
  unfold Impl.evictLruFor Impl.orderFront
  refine bind_ub ?_
  rw [bind_ok (m := Impl.orderFirst) (s := s) rfl, h3]
  rfl

end orphan

/-! ### Every call -/

section first

variable {α β : Type} {s s' : St (Cache K V) K V}

/-- `m` does what `m'`, which can always allocate list nodes, does, or leaves a proper cache with one orphan. -/
def FirstFault (O : Oracle K V) (m m' : Impl.CM K V α) (s : St (Cache K V) K V) : Prop :=
  m s = m' s ∨ ∃ k v n s1 s', Reachable O.withLists s1 ∧ Orphaned k v n s1.c s'.c ∧ n.addr = s1.g.next ∧
    ¬ Stored s1.c k ∧ (∃ c, s1.c.capacity = some c ∧ count s1.c < c) ∧ (∃ i, O.fails .listNode i = true) ∧
    m s = .throw .badAlloc s'

theorem FirstFault.bind {m m' : Impl.CM K V α} {f f' : α → Impl.CM K V β} (h : FirstFault O m m' s)
    (hf : ∀ a s1, m' s = .ok a s1 → FirstFault O (f a) (f' a) s1) : FirstFault O (m >>= f) (m' >>= f') s := by
  rcases h with h | ⟨k, v, n, s1, s', h1, h2, h3, h4, h5, h6, h7⟩
  · cases hm : m' s with
    | ok a s1 =>
      rcases hf a s1 hm with h2 | ⟨k, v, n, s2, s', h1, h2, h3, h4, h5, h6, h7⟩
      · left
        rw [bind_ok (h.trans hm), bind_ok hm, h2]
      · right
        exact ⟨k, v, n, s2, s', h1, h2, h3, h4, h5, h6, by rw [bind_ok (h.trans hm), h7]⟩
    | throw e s1 => left; rw [bind_throw (h.trans hm), bind_throw hm]
    | ub => left; rw [bind_ub (h.trans hm), bind_ub hm]
    | terminate => left; rw [bind_terminate (h.trans hm), bind_terminate hm]
    | diverge =>
      left
      show M.bind _ _ _ = M.bind _ _ _
      unfold M.bind
      rw [h, hm]
  · exact .inr ⟨k, v, n, s1, s', h1, h2, h3, h4, h5, h6, bind_throw h7⟩

theorem FirstFault.same {m : Impl.CM K V α} : FirstFault O m m s := .inl rfl

theorem firstFault_of_orphans {k : K} {v : V} (h : Reachable O.withLists s) {m m' : Impl.CM K V (Bool × Option Ptr)}
    (ho : OrphansOr O k v s (m s) (m' s)) : FirstFault O m m' s := by
  rcases ho with ho | ⟨n, s', h1, h2, h3, ⟨c, h4, h5⟩, h6, h7⟩
  · exact .inl ho
  · obtain ⟨t, hr, ht⟩ := h.rel (withLists_noListFault O)
    refine .inr ⟨k, v, n, s, s', h, h1, h2, ?_, ⟨c, h4, ?_⟩, h6, h7⟩
    · rw [hr.not_stored]
      rw [hr.rep.find_key hr.awf k] at h3
      exact Option.map_eq_none_iff.1 h3
    · rw [hr.count, ← hr.map_length]
      exact h5

theorem insert_first (h : Reachable O.withLists s) (k : K) (v : V) :
    FirstFault O (Impl.insert O k v) (Impl.insert O.withLists k v) s := firstFault_of_orphans h (insert_orphans k v s)

theorem emplace_first (h : Reachable O.withLists s) (k : K) (v : V) :
    FirstFault O (Impl.emplace O k v) (Impl.emplace O.withLists k v) s := firstFault_of_orphans h (emplace_orphans k v s)

theorem insertRange_first (h : Reachable O.withLists s) (l : List (K × V)) :
    FirstFault O (Impl.insertRange O l) (Impl.insertRange O.withLists l) s := by
  induction l generalizing s with
  | nil => exact .same
  | cons x l ih =>
    refine (insert_first h x.1 x.2).bind fun a s1 h1 => ?_
    have h2 : Returns O.withLists (.insert x.1 x.2) s (.inserted a.1 a.2) s1 := bind_ok h1
    exact (ih (h.after (withLists_noListFault O) h2)).bind fun _ _ _ => .same

theorem insertRangeMove_first (h : Reachable O.withLists s) (l : List (K × V)) :
    FirstFault O (Impl.insertRangeMove O l) (Impl.insertRangeMove O.withLists l) s := by
  induction l generalizing s with
  | nil => exact .same
  | cons x l ih =>
    refine (emplace_first h x.1 x.2).bind fun a s1 h1 => ?_
    have h2 : Returns O.withLists (.emplace x.1 x.2) s (.inserted a.1 a.2) s1 := bind_ok h1
    exact (ih (h.after (withLists_noListFault O) h2)).bind fun _ _ _ => .same

theorem clearAndIncrease_reachable (h : Reachable O.withLists s) {n : Nat}
    (hd : Impl.clearAndIncreaseCapacity n s = .ok () s') : Reachable O.withLists s' := by
  have hO := withLists_noListFault O
  unfold Impl.clearAndIncreaseCapacity at hd
  obtain ⟨_, s1, h1, h2⟩ := bind_ok_inv hd
  have hr1 : Returns O.withLists .clear s .unit s1 := bind_ok h1
  have h3 := h.after hO hr1
  obtain ⟨c, s2, h4, h5⟩ := bind_ok_inv h2
  cases readCapacity_idle_inv h4
  split at h5
  · cases h1
    cases h5
    refine h3.after hO (op := .setCapacity n) (r := .unit) ?_
    rfl
  · cases h5
    exact h3

theorem callEach_withLists {C : Type} (ev : Nat → Event K V) (l : List Nat) :
    (callEach O.withLists ev l : M (St C K V) Unit) = callEach O ev l := by
  induction l with
  | nil => rfl
  | cons cb l ih =>
    unfold callEach
    rw [attempt_withLists (by simp), ih]

theorem registerHit_withLists {C : Type} (o : Obs) (k : K) (v : V) :
    (registerHit O.withLists o k v : M (St C K V) Unit) = registerHit O o k v := by
  unfold registerHit
  rw [callEach_withLists, callEach_withLists]

theorem registerMiss_withLists {C : Type} (o : Obs) (k : K) :
    (registerMiss O.withLists o k : M (St C K V) Unit) = registerMiss O o k := by
  unfold registerMiss
  rw [callEach_withLists, callEach_withLists]

theorem find_withLists (k : K) : Impl.find O.withLists k = Impl.find O k := by
  unfold Impl.find
  simp only [registerHit_withLists, registerMiss_withLists]
  rfl

theorem contains_withLists (k : K) : Impl.contains O.withLists k = Impl.contains O k := by
  unfold Impl.contains
  simp only [registerHit_withLists, find_withLists]
  rfl

theorem lookup_withLists (k : K) : Impl.lookup O.withLists k = Impl.lookup O k := by
  unfold Impl.lookup
  simp only [registerHit_withLists, find_withLists]
  rfl

theorem clearExpiredLoop_withLists (i fuel : Nat) :
    Impl.clearExpiredLoop O.withLists i fuel = Impl.clearExpiredLoop O i fuel := by
  induction fuel generalizing i with
  | zero => rfl
  | succ fuel ih =>
    unfold Impl.clearExpiredLoop
    simp only [ih]
    rfl

theorem step_first (h : Reachable O.withLists s) (op : Op K V) :
    FirstFault O (Impl.step O op) (Impl.step O.withLists op) s := by
  cases op with
  | insert k v => exact (insert_first h k v).bind fun _ _ _ => .same
  | emplace k v => exact (emplace_first h k v).bind fun _ _ _ => .same
  | insertRange l => exact (insertRange_first h l).bind fun _ _ _ => .same
  | insertRangeMove l => exact (insertRangeMove_first h l).bind fun _ _ _ => .same
  | assignRange l =>
    refine FirstFault.bind (m := Impl.assignRange O l) (m' := Impl.assignRange O.withLists l) ?_ fun _ _ _ => .same
    refine FirstFault.same.bind fun _ s1 h1 => ?_
    exact (insertRange_first (clearAndIncrease_reachable h h1) l).bind fun _ _ _ => .same
  | assignRangeMove l =>
    refine FirstFault.bind (m := Impl.assignRangeMove O l) (m' := Impl.assignRangeMove O.withLists l) ?_ fun _ _ _ => .same
    refine FirstFault.same.bind fun _ s1 h1 => ?_
    exact (insertRangeMove_first (clearAndIncrease_reachable h h1) l).bind fun _ _ _ => .same
  | find k => left; exact congrArg (fun m => Impl.ret m _ s) (find_withLists k).symm
  | contains k => left; exact congrArg (fun m => Impl.ret m _ s) (contains_withLists k).symm
  | lookup k =>
    left
    exact congrArg (fun m => Impl.ret m (fun r => Res.ref r.1 r.2) s) (lookup_withLists (O := O) k).symm
  | clearExpired =>
    left
    show Impl.ret (Impl.clearExpired O) _ s = Impl.ret (Impl.clearExpired O.withLists) _ s
    unfold Impl.clearExpired
    simp only [clearExpiredLoop_withLists]
  | _ => left; rfl

end first

end LRU
