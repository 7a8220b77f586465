import Verif.Props.Insert
/-!
# Lookup: C07, C16

`op.Accesses k`: the call is `contains(k)`, `find(k)` or `lookup(k)`/`operator[](k)`. `Hit op r x`: it reported
success, and (for `find` and `lookup`) its result denotes the element `x`.
-/

set_option linter.unusedSectionVars false
set_option autoImplicit false

namespace LRU

variable {K V : Type} [KeyEqual K] [DecidableEq K] [DecidableEq V] {O : Oracle K V}
  {s s' s'' : St (Cache K V) K V} {op : Op K V} {r : Res K V} {k : K} {v : V} {e : Err}

/-- C07. A successful access finds the stored entry for the key, makes it the most recently used one, and changes
nothing else. -/
theorem C07_hit_moves_entry_to_most_recent (hO : NoListFault O) (hA : NoAssignFault O) (h : Reachable O s)
    (ha : op.Accesses k) (hd : Returns O op s r s') (hh : ¬ Miss r) :
    ∃ x, entryFor s.c k = some x ∧ Hit op r x ∧ elements s'.c = others s.c k ++ [x] ∧
      s'.c.capacity = s.c.capacity ∧ s'.c.kind = s.c.kind ∧ s'.c.obs = s.c.obs := by
  obtain ⟨t, t', hr, ht, ho, hr'⟩ := h.access hO ha hd
  cases ho with
  | last x r h1 h2 h3 h4 =>
    refine ⟨x.node, by rw [hr.entryFor, h2]; rfl, h4, ?_, ?_, ?_, ?_⟩
    · obtain ⟨t2, hr2, ht2⟩ := h.relM hO hA
      have hm : Mru t.c := hr.rep.mru.1 (hr2.rep.mru.2 ht2.mru)
      have hx := hm x.id (lastEnt_mem h1).2
      obtain ⟨y, hy, hyx⟩ : ∃ y, t.c.ents.getLast? = some y ∧ y.id = x.id := by
        cases hl : t.c.ents.getLast? with
        | none => rw [hl] at hx; cases hx
        | some y => rw [hl] at hx; exact ⟨y, rfl, by injection hx⟩
      have hyx' : y = x := map_inj_of_nodup ht.awf.ids y (List.mem_of_getLast? hy) x (lastEnt_mem h1).1 hyx
      subst hyx'
      have e1 := toEnd_last ht.awf.slots hy
      rw [hr'.elements]
      show t.c.ents.map Ent.node = _
      rw [← hr.without ht h2, ← e1]
      conv => lhs; rw [e1, ← e1]
      unfold toEnd LRU.without
      rw [List.map_append, List.map_singleton]
      have : (List.filter (fun x => x.slot != y.slot) (List.filter (fun x => x.slot != y.slot) t.c.ents ++ [y]))
          = List.filter (fun x => x.slot != y.slot) t.c.ents := by
        simp [List.filter_filter]
      rw [this]
    · rw [hr'.rep.cap, hr.rep.cap]
    · rw [hr'.rep.kind, hr.rep.kind]
    · rw [hr'.rep.obs, hr.rep.obs]
  | hit x r j h1 h2 h3 h4 h5 =>
    refine ⟨x.node, by rw [hr.entryFor, h1]; rfl, h3, ?_, ?_, ?_, ?_⟩
    · rw [hr'.elements, ← hr.without ht h1]
      show (toEnd x t.c.ents).map Ent.node = _
      unfold toEnd LRU.without
      rw [List.map_append]
      rfl
    · rw [hr'.rep.cap, hr.rep.cap]; rfl
    · rw [hr'.rep.kind, hr.rep.kind]; rfl
    · rw [hr'.rep.obs, hr.rep.obs]; rfl
  | absent r _ h1 => exact absurd h1 hh
  | expired x r _ _ _ h1 => exact absurd h1 hh
  | lastExpired x => exact absurd (.inl rfl) hh

/-- C07. An unsuccessful `contains` or `find` changes nothing. -/
theorem C07_miss_changes_nothing (hO : NoListFault O) (h : Reachable O s) (ha : op.Accesses k)
    (hd : Returns O op s r s') (hm : Miss r) : SameCache s.c s'.c := by
  obtain ⟨t, t', hr, ht, ho, hr'⟩ := h.access hO ha hd
  cases ho with
  | last x r _ _ _ h1 =>
    exact hr.same hr' rfl rfl rfl rfl
  | hit x r j _ _ h1 _ =>
    exfalso
    rcases hm with rfl | rfl <;> rcases ha with rfl | rfl | rfl <;> simp [Hit] at h1
  | absent r _ _ => exact hr.same hr' rfl rfl rfl rfl
  | expired x r _ _ _ _ => exact hr.same hr' rfl rfl rfl rfl
  | lastExpired x => exact hr.same hr' rfl rfl rfl rfl

/-- C07. An access that throws changes nothing, unless it is a `lookup` on a timed cache that throws `KeyExpired`. -/
theorem C07_throw_changes_nothing (hO : NoListFault O) (h : Reachable O s) (ha : op.Accesses k)
    (hd : Throws O op s e s') (he : s.c.kind = .basic ∨ e ≠ .keyExpired) : SameCache s.c s'.c := by
  obtain ⟨t, t', hr, ht, ho, hr'⟩ := h.access_throw hO ha hd
  cases ho with
  | lateExpired x _ _ _ _ hx =>
    rcases he with he | he
    · rw [hr.rep.kind] at he
      rw [he] at hx
      cases hx
    · exact absurd rfl he
  | hitUser => exact hr.same hr' rfl rfl rfl rfl
  | missUser => exact hr.same hr' rfl rfl rfl rfl
  | expiredUser => exact hr.same hr' rfl rfl rfl rfl
  | notFound => exact hr.same hr' rfl rfl rfl rfl
  | expired => exact hr.same hr' rfl rfl rfl rfl
  | lastExpired => exact hr.same hr' rfl rfl rfl rfl

/-! ### Plain caches -/

/-- How the three accesses end on a plain cache whose callbacks do not throw, as a function of what is stored:
this is C16, seen from the contents of the cache. -/
theorem C16_access_outcome (hO : NoListFault O) (hC : NoCallbackFault O) (h : Reachable O s)
    (hb : s.c.kind = .basic) (k : K) :
    (∀ x, entryFor s.c k = some x →
      (∃ s1, Returns O (.contains k) s (.bool true) s1) ∧
      (∃ s1, Returns O (.find k) s (.pos (some x.addr)) s1) ∧
      (∃ s1, Returns O (.lookup k) s (.ref x.addr x.info.value) s1)) ∧
    (entryFor s.c k = none →
      (∃ s1, Returns O (.contains k) s (.bool false) s1) ∧
      (∃ s1, Returns O (.find k) s (.pos none) s1) ∧
      (∃ s1, Throws O (.lookup k) s .keyNotFound s1)) := by
  obtain ⟨t, hr, ht⟩ := h.rel hO
  have hkind : t.c.kind = .basic := by rw [← hr.rep.kind, hb]
  have hexp : ∀ g time, expiredAt O t.c.kind g time = false := by
    intro g time; rw [hkind]; rfl
  have key : ∀ op : Op K V, op.Accesses k →
      (∃ r s1, Returns O op s r s1 ∧ ((∃ x, t.c.ents.find? (fun x => keq x.key k) = some x ∧ Hit op r x.node) ∨
        (t.c.ents.find? (fun x => keq x.key k) = none ∧ Miss r))) ∨
      (∃ s1, Throws O op s .keyNotFound s1 ∧ op = .lookup k ∧ t.c.ents.find? (fun x => keq x.key k) = none) := by
    intro op ha
    rcases mid_access (O := O) ht ha with ⟨r, t', h1, h2⟩ | ⟨e, t', h1, h2⟩
    · obtain ⟨s1, h3, h4⟩ := hr.back_ok hO h1
      refine .inl ⟨r, s1, h3, ?_⟩
      cases h2 with
      | last x r _ h5 _ h6 => exact .inl ⟨x, h5, h6⟩
      | hit x r j h5 _ h6 _ _ => exact .inl ⟨x, h5, h6⟩
      | absent r h5 h6 => exact .inr ⟨h5, h6⟩
      | expired x r _ _ h5 _ => rw [hexp] at h5; cases h5
      | lastExpired x _ _ _ h5 => rw [hexp] at h5; cases h5
    · obtain ⟨s1, h3, h4⟩ := hr.back_throw hO h1
      cases h2 with
      | hitUser x n cb _ _ _ h5 => rw [hC] at h5; cases h5
      | missUser n cb _ _ h5 => rw [hC] at h5; cases h5
      | expiredUser x n cb _ _ _ h5 => rw [hC] at h5; cases h5
      | notFound h5 h6 => exact .inr ⟨s1, h3, h5, h6⟩
      | expired x _ _ _ h5 => rw [hexp] at h5; cases h5
      | lastExpired x _ _ _ h5 => rw [hexp] at h5; cases h5
      | lateExpired x _ _ _ _ h5 => rw [hexp] at h5; cases h5
  constructor
  · intro x hx
    obtain ⟨y, hy, rfl⟩ := hr.entryFor_some hx
    have some_case : ∀ op : Op K V, op.Accesses k → ∃ r s1, Returns O op s r s1 ∧ Hit op r y.node := by
      intro op ha
      rcases key op ha with ⟨r, s1, h1, h2⟩ | ⟨s1, _, _, h2⟩
      · rcases h2 with ⟨z, hz, h3⟩ | ⟨h2, _⟩
        · rw [hz] at hy; injection hy with hy; subst hy
          exact ⟨r, s1, h1, h3⟩
        · rw [h2] at hy; cases hy
      · rw [h2] at hy; cases hy
    refine ⟨?_, ?_, ?_⟩
    · obtain ⟨r, s1, h1, h2⟩ := some_case (.contains k) (.inl rfl)
      exact ⟨s1, by rw [show r = _ from h2] at h1; exact h1⟩
    · obtain ⟨r, s1, h1, h2⟩ := some_case (.find k) (.inr (.inl rfl))
      exact ⟨s1, by rw [show r = _ from h2] at h1; exact h1⟩
    · obtain ⟨r, s1, h1, h2⟩ := some_case (.lookup k) (.inr (.inr rfl))
      exact ⟨s1, by rw [show r = _ from h2] at h1; exact h1⟩
  · intro hn
    have hn' : t.c.ents.find? (fun x => keq x.key k) = none := by
      rw [hr.entryFor] at hn
      cases hf : t.c.ents.find? (fun x => keq x.key k) with
      | none => rfl
      | some y => rw [hf] at hn; cases hn
    refine ⟨?_, ?_, ?_⟩
    · rcases key (.contains k) (.inl rfl) with ⟨r, s1, h1, h2⟩ | ⟨s1, _, h2, _⟩
      · rcases h2 with ⟨z, hz, _⟩ | ⟨_, h2⟩
        · rw [hz] at hn'; cases hn'
        · rcases h2 with rfl | rfl
          · exact ⟨s1, h1⟩
          · obtain ⟨a, _, h3⟩ := ret_ok_inv h1; cases h3
      · cases h2
    · rcases key (.find k) (.inr (.inl rfl)) with ⟨r, s1, h1, h2⟩ | ⟨s1, _, h2, _⟩
      · rcases h2 with ⟨z, hz, _⟩ | ⟨_, h2⟩
        · rw [hz] at hn'; cases hn'
        · rcases h2 with rfl | rfl
          · obtain ⟨a, _, h3⟩ := ret_ok_inv h1; cases h3
          · exact ⟨s1, h1⟩
      · cases h2
    · rcases key (.lookup k) (.inr (.inr rfl)) with ⟨r, s1, h1, h2⟩ | ⟨s1, h1, _, _⟩
      · rcases h2 with ⟨z, hz, _⟩ | ⟨_, h2⟩
        · rw [hz] at hn'; cases hn'
        · rcases h2 with rfl | rfl <;> (obtain ⟨a, _, h3⟩ := ret_ok_inv h1; cases h3)
      · exact ⟨s1, h1⟩

/-- What is stored under a key does not change by any access (of whatever key), on a plain cache. -/
theorem access_keeps_stored (hO : NoListFault O) (h : Reachable O s) (ha : op.Accesses k)
    (hd : Returns O op s r s') (k' : K) : entryFor s'.c k' = entryFor s.c k' := by
  obtain ⟨t, t', hr, ht, ho, hr'⟩ := h.access hO ha hd
  rw [hr.entryFor, hr'.entryFor]
  cases ho with
  | hit x r j h1 _ _ _ _ =>
    congr 1
    refine (find?_perm (toEnd_perm ht (find_mem h1).1) ?_)
    intro a ha b hb h1 h2
    exact key_inj_of_pairwise' ht.awf.keys a ha b hb h1 h2
  | last => rfl
  | absent => rfl
  | expired => rfl
  | lastExpired => rfl

/-- C16. On a plain cache whose callbacks do not throw, `contains(k)` returns `true` iff an immediately following
`lookup(k)` returns, and `false` iff it throws `KeyNotFound`; and iff `find(k)` is not `end()`. -/
theorem C16_contains_predicts_lookup (hO : NoListFault O) (hC : NoCallbackFault O) (h : Reachable O s)
    (hb : s.c.kind = .basic) {b : Bool} (hd : Returns O (.contains k) s (.bool b) s') :
    (b = true ↔ ∃ p v s2, Returns O (.lookup k) s' (.ref p v) s2) ∧
    (b = false ↔ ∃ s2, Throws O (.lookup k) s' .keyNotFound s2) ∧
    (b = true ↔ ∃ p s2, Returns O (.find k) s' (.pos (some p)) s2) ∧
    (b = true ↔ Stored s.c k) := by
  have hst : entryFor s'.c k = entryFor s.c k := access_keeps_stored hO h (.inl rfl) hd k
  have hkind : s'.c.kind = .basic := by
    obtain ⟨t, t', hr, ht, hm, hr', hs⟩ := h.returns hO hd
    rw [hr'.rep.kind, hs.kind, ← hr.rep.kind, hb]
  have h0 := C16_access_outcome hO hC h hb k
  have h1 := C16_access_outcome hO hC (h.after hO hd) hkind k
  have hs : Stored s.c k ↔ ∃ x, entryFor s.c k = some x := by
    obtain ⟨t, hr, ht⟩ := h.rel hO
    rw [hr.stored, hr.entryFor]
    cases t.c.ents.find? (fun e => keq e.key k) <;> simp
  cases hx : entryFor s.c k with
  | some x =>
    rw [hx] at hst
    obtain ⟨⟨s1, h2⟩, _⟩ := h0.1 x hx
    obtain ⟨⟨s3, h3⟩, ⟨s4, h4⟩, ⟨s5, h5⟩⟩ := h1.1 x hst
    have : b = true := by
      have := hd.symm.trans h2
      injection this with this
      injection this
    subst this
    refine ⟨⟨fun _ => ⟨_, _, _, h5⟩, fun _ => rfl⟩, ⟨(by intro h; cases h), ?_⟩, ⟨fun _ => ⟨_, _, h4⟩, fun _ => rfl⟩,
      ⟨fun _ => hs.2 ⟨x, hx⟩, fun _ => rfl⟩⟩
    rintro ⟨s2, h6⟩
    have := h5.symm.trans h6
    cases this
  | none =>
    rw [hx] at hst
    obtain ⟨⟨s1, h2⟩, _⟩ := h0.2 hx
    obtain ⟨⟨s3, h3⟩, ⟨s4, h4⟩, ⟨s5, h5⟩⟩ := h1.2 hst
    have : b = false := by
      have := hd.symm.trans h2
      injection this with this
      injection this
    subst this
    refine ⟨⟨(by intro h; cases h), ?_⟩, ⟨fun _ => ⟨_, h5⟩, fun _ => rfl⟩, ⟨(by intro h; cases h), ?_⟩, ⟨(by intro h; cases h), ?_⟩⟩
    · rintro ⟨p, v, s2, h6⟩
      have := h5.symm.trans h6
      cases this
    · rintro ⟨p, s2, h6⟩
      have := h4.symm.trans h6
      injection this with this
      injection this with this
      cases this
    · intro h6
      obtain ⟨y, hy⟩ := hs.1 h6
      rw [hx] at hy; cases hy

/-! ### The hypotheses are met -/

/-- A hit on the least recently used of three entries; a hit served by the shortcut; a miss. -/
example : ((Impl.step calmO (.lookup 2) (demoState calmO demo3 0)).state.map fun s' => entries s'.c) =
      some [(3, 30), (1, 10), (2, 20)] ∧
    ((Impl.step calmO (.contains 1) (demoState calmO demo3 0)).state.map fun s' => entries s'.c) =
      some [(2, 20), (3, 30), (1, 10)] ∧
    (Impl.step calmO (.contains 1) (demoState calmO demo3 0)).result = some (.bool true) ∧
    (Impl.step calmO (.find 7) (demoState calmO demo3 0)).result = some (.pos none) ∧
    (Impl.step calmO (.lookup 7) (demoState calmO demo3 0)).err = some .keyNotFound ∧
    (demoState calmO demo3 0).c.kind = .basic := by decide +kernel

end LRU
