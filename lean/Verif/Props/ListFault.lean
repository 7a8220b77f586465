import Verif.Proofs.ListFault
import Verif.Props.Exceptions
/-!
# What a failing allocation of a list node does: C23, continued

`C23_failed_list_node_corrupts` and `C23_failed_list_node_undefined` (`Props.Exceptions`) show that insertion is not
exception safe when the allocation of a list node fails. Here: exactly what is left behind, for all states, and which
calls go wrong afterwards.
-/

set_option linter.unusedSectionVars false
set_option autoImplicit false

namespace LRU

variable {K V : Type} [KeyEqual K] [DecidableEq K] [DecidableEq V] {O O' : Oracle K V}
  {s s' : St (Cache K V) K V} {op : Op K V} {r : Res K V} {k k2 : K} {v v2 : V} {n : MapNode K V} {e : Err}

/-- C23. As long as no list node has been refused (`Reachable O.withLists s`), every call behaves as if they never were,
so that all theorems that assume `NoListFault` apply; or it throws `bad_alloc` and leaves behind a proper cache `s1` to
which exactly one map node has been added that no list node refers to, for a key that was not stored, in a cache that had
room for it. -/
theorem C23_first_refused_list_node (h : Reachable O.withLists s) (op : Op K V) :
    Impl.step O op s = Impl.step O.withLists op s ∨
    ∃ k v n s1 s', Reachable O.withLists s1 ∧ Orphaned k v n s1.c s'.c ∧ n.addr = s1.g.next ∧ ¬ Stored s1.c k ∧
      (∃ c, s1.c.capacity = some c ∧ count s1.c < c) ∧ (∃ i, O.fails .listNode i = true) ∧
      Throws O op s .badAlloc s' :=
  step_first h op

/-- C23. An exception that leaves `insert` or `emplace`, whatever failed: either the cache is as
`C23_insertion_exceptions_partial` says, or iteration visits what it visited before but the key has a map node of its
own. -/
theorem C23_insertion_exceptions (h : Reachable O.withLists s) (hi : op.Inserts k v) (hd : Throws O op s e s') :
    e = .badAlloc ∧ s'.c.capacity = s.c.capacity ∧ s'.c.kind = s.c.kind ∧ s'.c.obs = s.c.obs ∧
    (Reachable O.withLists s' ∧ Returns O .size s' (.nat (count s'.c)) s' ∧
        (elements s'.c = elements s.c ∨
          ∃ x m, entryFor s.c k = some x ∧ O.fails .assign m = true ∧
            elements s'.c = others s.c k ++ [{ x with info := { x.info with value := O.torn m x.info.value v } }]) ∨
      (∃ m, O.fails .listNode m = true) ∧ ¬ Stored s.c k ∧ (∃ c, s.c.capacity = some c ∧ count s.c < c) ∧
        elements s'.c = elements s.c ∧ Returns O .size s' (.nat (count s'.c + 1)) s' ∧
        ∃ n, n.addr = s.g.next ∧ Orphaned k v n s.c s'.c) := by
  have hO := withLists_noListFault O
  have key : ∀ m : Oracle K V → Impl.CM K V (Bool × Option Ptr),
      OrphansOr O k v s (m O s) (m O.withLists s) → Impl.step O op = Impl.ret (m O) (fun r => .inserted r.1 r.2) →
      Impl.step O.withLists op = Impl.ret (m O.withLists) (fun r => .inserted r.1 r.2) →
      Throws O.withLists op s e s' ∨ e = .badAlloc ∧ ∃ n, Orphaned k v n s.c s'.c ∧ n.addr = s.g.next ∧ ¬ Stored s.c k ∧
        (∃ c, s.c.capacity = some c ∧ count s.c < c) ∧ ∃ m, O.fails .listNode m = true := by
    intro m ho h1 h2
    unfold Throws at hd
    rw [h1] at hd
    have hd := ret_throw_inv hd
    rcases ho with ho | ⟨n, s2, h3, h4, h5, ⟨c, h6, h7⟩, h8, h9⟩
    · left
      unfold Throws
      rw [h2]
      exact bind_throw (ho ▸ hd)
    · rw [h9] at hd
      cases hd
      obtain ⟨t, hr, ht⟩ := h.rel hO
      refine .inr ⟨rfl, n, h3, h4, ?_, ⟨c, h6, ?_⟩, h8⟩
      · rw [hr.not_stored]
        rw [hr.rep.find_key hr.awf k] at h5
        exact Option.map_eq_none_iff.1 h5
      · rw [hr.count, ← hr.map_length]
        exact h7
  have : Throws O.withLists op s e s' ∨ e = .badAlloc ∧ ∃ n, Orphaned k v n s.c s'.c ∧ n.addr = s.g.next ∧ ¬ Stored s.c k ∧
      (∃ c, s.c.capacity = some c ∧ count s.c < c) ∧ ∃ m, O.fails .listNode m = true := by
    rcases hi with rfl | rfl
    · exact key (fun O => Impl.insert O k v) (insert_orphans k v s) rfl rfl
    · exact key (fun O => Impl.emplace O k v) (emplace_orphans k v s) rfl rfl
  rcases this with hd' | ⟨h1, n, h2, h3, h4, h5, h6⟩
  · obtain ⟨h1, h2, h3, h4, h5, h6, h7⟩ := C23_insertion_exceptions_partial hO h hi hd'
    refine ⟨h1, h4, h5, h6, .inl ⟨h2, h3, ?_⟩⟩
    rcases h7 with h7 | ⟨x, m, h7, h8, h9⟩
    · exact .inl h7
    · exact .inr ⟨x, m, h7, h8, h9⟩
  · refine ⟨h1, h2.capacity, h2.kind, h2.obs, .inr ⟨h6, h4, h5, h2.elements hO h h3, ?_, n, h3, h2⟩⟩
    show Out.ok (Res.nat s'.c.map.length) s' = _
    rw [h2.length hO h, count, count, h2.elements hO h h3]

/-! ### What goes wrong afterwards -/

/-- … and then erasing the key is undefined behaviour. -/
theorem C23_erase_after_refused_list_node (hO : NoListFault O') (h : Reachable O' s) (ho : Orphaned k v n s.c s'.c)
    (hn : n.addr = s.g.next) (hk : ¬ Stored s.c k) : Impl.step O (.erase k) s' = .ub := by
  refine bind_ub ?_
  unfold Impl.erase
  rw [bind_ok (ho.lastIs hO h hn hk)]
  have h1 : Impl.mapFind k s' = .ok (some n) s' := by
    unfold Impl.mapFind
    rw [ho.find_key hO h hk]
  rw [if_neg (by simp), bind_ok h1]
  refine bind_ub ?_
  unfold Impl.eraseIt
  have h2 : Impl.derefIt (some n.addr) s' = .ok n s' := by
    show (match s'.c.map.find? (fun x => x.addr == n.addr) with | some m => Out.ok m s' | none => Out.ub) = _
    rw [ho.find_addr hO h hn, if_pos rfl]
  rw [bind_ok h2]
  have h3 : Impl.invalidateIf n.key s' = .ok () s' := by
    unfold Impl.invalidateIf
    rw [ho.key, bind_ok (ho.lastIs hO h hn hk)]
    rfl
  rw [bind_ok h3, ho.unlinked]
  rfl

/-- … and accessing the key in a plain cache that holds any other entry is undefined behaviour (callbacks, if any, run
first). -/
theorem C23_access_after_refused_list_node (hO : NoListFault O') (h : Reachable O' s) (ho : Orphaned k v n s.c s'.c)
    (hn : n.addr = s.g.next) (hk : ¬ Stored s.c k) (hb : s.c.kind = .basic) (hc : 0 < count s.c)
    (hcb : NoCallbackFault O) (ha : op.Accesses k) : Impl.step O op s' = .ub := by
  have hf : Impl.find O k s' = .ub := by
    unfold Impl.find
    have h1 : Impl.mapFind k s' = .ok (some n) s' := by
      unfold Impl.mapFind
      rw [ho.find_key hO h hk]
    rw [bind_ok (m := Impl.getObs) (s := s') rfl, bind_ok h1]
    have h2 : Impl.hasExpiredInfo O n.info.time s' = .ok false s' := by
      unfold Impl.hasExpiredInfo
      rw [bind_ok (m := Impl.getKind) (s := s') rfl, ho.kind, hb]
      rfl
    dsimp only
    rw [bind_ok h2, if_neg (by simp)]
    rcases registerHit_cases (O := O) s'.c.obs k n.info.value s' with ⟨h3, _⟩ | ⟨i, cb, _, h4, _⟩
    · rw [bind_ok h3, bind_ub (ho.moveToFront hO h hc)]
    · rw [hcb] at h4
      cases h4
  rcases ha with rfl | rfl | rfl
  · refine bind_ub ?_
    unfold Impl.contains
    rw [bind_ok (m := Impl.getObs) (s := s') rfl, bind_ok (ho.lastIs hO h hn hk), if_neg (by simp), bind_ub hf]
  · exact bind_ub hf
  · refine bind_ub ?_
    unfold Impl.lookup
    rw [bind_ok (m := Impl.getObs) (s := s') rfl, bind_ok (ho.lastIs hO h hn hk), if_neg (by simp), bind_ub hf]

/-- … and trying the same insertion again, which is what a program would do, is undefined behaviour as soon as the cache
holds any other entry. -/
theorem C23_retry_after_refused_list_node (hO : NoListFault O') (h : Reachable O' s) (ho : Orphaned k v n s.c s'.c)
    (hk : ¬ Stored s.c k) (hc : 0 < count s.c) (hcap : ∃ c, s.c.capacity = some c ∧ 0 < c) (hcalm : Calm O)
    (hi : op.Inserts k v2) : Impl.step O op s' = .ub := by
  obtain ⟨c, hcap, hlt⟩ := hcap
  have h0 : Impl.readCapacity s' = .ok c s' := by
    unfold Impl.readCapacity
    rw [ho.capacity, hcap]
  have h1 : ∀ g, Impl.mapFind k ⟨s'.c, g⟩ = .ok (some n) ⟨s'.c, g⟩ := by
    intro g
    unfold Impl.mapFind
    rw [ho.find_key hO h hk]
  have h2 : ∀ g, Impl.moveToFrontAssign O n v2 ⟨s'.c, g⟩ = .ub := by
    intro g
    unfold Impl.moveToFrontAssign
    rw [bind_ub (ho.moveToFront hO h hc)]
  have h3 : ∀ g, attempt O .construct (⟨s'.c, g⟩ : St (Cache K V) K V) = .ok () ⟨s'.c, { g with steps := g.steps + 1 }⟩ := by
    intro g
    unfold attempt
    simp [hcalm _ g.steps]
  rcases hi with rfl | rfl
  · refine bind_ub ?_
    unfold Impl.insert
    rw [bind_ok h0, if_neg (by omega), bind_ok (h1 s'.g)]
    exact bind_ub (h2 _)
  · refine bind_ub ?_
    unfold Impl.emplace
    rw [bind_ok h0, if_neg (by omega), bind_ok (h3 s'.g), bind_ok (h1 _)]
    dsimp only
    rw [bind_ok (h3 _), bind_ub (h2 _)]

/-- … and in a cache of capacity 1 the next insertion of any other key takes the front of an empty list. -/
theorem C23_insert_after_refused_list_node (hO : NoListFault O') (h : Reachable O' s) (ho : Orphaned k v n s.c s'.c)
    (hne : keq k k2 = false) (hcap : s.c.capacity = some 1) (hc : count s.c = 0) (hcalm : Calm O)
    (hi : op.Inserts k2 v2) : Impl.step O op s' = .ub := by
  obtain ⟨t, hr, ht⟩ := h.rel hO
  have hmap : s.c.map = [] := List.length_eq_zero_iff.1 (by rw [hr.map_length, ← hr.count]; exact hc)
  have hord : s'.c.order = [] := by
    rw [ho.order]
    refine List.length_eq_zero_iff.1 ?_
    rw [hr.count_order]
    exact hc
  have hmap' : s'.c.map = [n] := by
    have := ho.map
    rw [hmap] at this
    exact List.perm_singleton.1 this
  have h0 : Impl.readCapacity s' = .ok 1 s' := by
    unfold Impl.readCapacity
    rw [ho.capacity, hcap]
  have h1 : ∀ g, Impl.mapFind k2 ⟨s'.c, g⟩ = .ok none ⟨s'.c, g⟩ := by
    intro g
    unfold Impl.mapFind
    rw [hmap']
    simp [ho.key, hne]
  have h3 : ∀ site g, attempt O site (⟨s'.c, g⟩ : St (Cache K V) K V) = .ok () ⟨s'.c, { g with steps := g.steps + 1 }⟩ := by
    intro site g
    unfold attempt
    simp [hcalm _ g.steps]
  have h4 : ∀ g, ∃ i g', Impl.insertionTime O ⟨s'.c, g⟩ = .ok i ⟨s'.c, g'⟩ := by
    intro g
    unfold Impl.insertionTime
    rw [bind_ok (m := Impl.getKind) (s := _) rfl]
    cases s'.c.kind with
    | basic => exact ⟨_, _, rfl⟩
    | timed => exact ⟨_, _, rfl⟩
  have h5 : ∀ g i, Impl.insertNode O k2 v2 i ⟨s'.c, g⟩ = .ub := by
    intro g i
    unfold Impl.insertNode Impl.mapEmplace
    rw [bind_bind, bind_ok (h3 _ _), bind_bind, bind_ok (m := alloc) (s := _) rfl, bind_bind,
      bind_ok (m := Impl.setSelf _) (s := _) rfl, bind_ok (m := Pure.pure _) (s := _) rfl]
    refine bind_ub ?_
    unfold Impl.insertNewKey
    refine bind_ub (evictOrAppend_emptyList (c := 1) ?_ ?_ ?_)
    · exact ho.capacity.trans hcap
    · show (O.shuffle _ _).length > 1
      rw [(O.shuffle_perm _ _).length_eq, hmap']
      simp
    · exact hord
  rcases hi with rfl | rfl
  · refine bind_ub ?_
    unfold Impl.insert
    rw [bind_ok h0, if_neg (by omega), bind_ok (h1 s'.g)]
    dsimp only
    obtain ⟨i, g', h6⟩ := h4 s'.g
    rw [bind_ok h6, bind_ok (h3 _ _), bind_ub (h5 _ _)]
  · refine bind_ub ?_
    unfold Impl.emplace
    rw [bind_ok h0, if_neg (by omega), bind_ok (h3 _ s'.g), bind_ok (h1 _)]
    dsimp only
    obtain ⟨i, g', h6⟩ := h4 { s'.g with steps := s'.g.steps + 1 + 1 }
    rw [bind_ok (h3 _ _), bind_ok h6, bind_ub (h5 _ _)]

/-- `clear()` repairs the cache: it leaves what it leaves of the cache without the orphan. -/
theorem C23_clear_after_refused_list_node (ho : Orphaned k v n s.c s'.c) :
    ∃ d, Returns O .clear s .unit ⟨d, s.g⟩ ∧ Returns O .clear s' .unit ⟨d, s'.g⟩ := by
  refine ⟨{ s.c with map := [], order := [], last := none }, rfl, ?_⟩
  show Out.ok Res.unit _ = _
  simp only [ho.capacity, ho.kind, ho.obs]

/-- The hypotheses can be met: the cache of capacity 3 that holds 1, when the list node of 2 is refused. -/
theorem C23_demo : let O := faultyO .listNode 5
    ∃ s s' n, Reachable O.withLists s ∧ Throws O (.insert 2 20) s .badAlloc s' ∧ Orphaned 2 20 n s.c s'.c ∧
      n.addr = s.g.next ∧ ¬ Stored s.c 2 ∧ s.c.kind = .basic ∧ count s.c = 1 ∧ s.c.capacity = some 3 := by
  intro O
  have hre : Reachable O.withLists (demoState O.withLists demoHalf 0) := demoState_reachable (by decide +kernel) rfl
  have hf : ((demoState O.withLists demoHalf 0).c.kind, count (demoState O.withLists demoHalf 0).c,
      (demoState O.withLists demoHalf 0).c.capacity) = (.basic, 1, some 3) := by decide +kernel
  obtain ⟨s', h1, h2⟩ := Out.throw_fact (o := Impl.step O (.insert 2 20) (demoState O.withLists demoHalf 0))
    (e := .badAlloc) (f := fun s' => (s'.c.map.length, count s'.c)) (y := (2, 1)) (by decide +kernel) (by decide +kernel)
  generalize demoState O.withLists demoHalf 0 = s at *
  simp only [Prod.mk.injEq] at hf h2
  obtain ⟨_, _, _, _, h3⟩ := C23_insertion_exceptions hre (.inl rfl) h1
  rcases h3 with ⟨_, h3, _⟩ | ⟨_, h4, _, _, _, n, h5, h6⟩
  · have h4 : Out.ok (Res.nat s'.c.map.length) s' = .ok (Res.nat (count s'.c)) s' := h3
    injection h4 with h4 _
    injection h4 with h4
    omega
  · exact ⟨s, s', n, hre, h1, h6, h5, h4, hf.1, hf.2.1, hf.2.2⟩

/-- … and an empty cache of capacity 1, when the list node of 1 is refused. -/
theorem C23_demo_one : let O := faultyO .listNode 2
    ∃ s s' n, Reachable O.withLists s ∧ Throws O (.insert 1 10) s .badAlloc s' ∧ Orphaned 1 10 n s.c s'.c ∧
      ¬ Stored s.c 1 ∧ count s.c = 0 ∧ s.c.capacity = some 1 := by
  intro O
  have hre : Reachable O.withLists (demoState O.withLists [.create .basic (.sized 1)] 0) :=
    demoState_reachable (by decide +kernel) rfl
  have hf : (count (demoState O.withLists [.create .basic (.sized 1)] 0).c,
      (demoState O.withLists [.create .basic (.sized 1)] 0).c.capacity) = (0, some 1) := by decide +kernel
  obtain ⟨s', h1, h2⟩ := Out.throw_fact
    (o := Impl.step O (.insert 1 10) (demoState O.withLists [.create .basic (.sized 1)] 0))
    (e := .badAlloc) (f := fun s' => (s'.c.map.length, count s'.c)) (y := (1, 0)) (by decide +kernel) (by decide +kernel)
  generalize demoState O.withLists [.create .basic (.sized 1)] 0 = s at *
  simp only [Prod.mk.injEq] at hf h2
  obtain ⟨_, _, _, _, h3⟩ := C23_insertion_exceptions hre (.inl rfl) h1
  rcases h3 with ⟨_, h3, _⟩ | ⟨_, h4, _, _, _, n, h5, h6⟩
  · have h4 : Out.ok (Res.nat s'.c.map.length) s' = .ok (Res.nat (count s'.c)) s' := h3
    injection h4 with h4 _
    injection h4 with h4
    omega
  · exact ⟨s, s', n, hre, h1, h6, h4, hf.1, hf.2⟩

end LRU
