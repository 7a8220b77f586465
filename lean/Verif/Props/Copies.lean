import Verif.Proofs.Stale
import Verif.Props.World
/-!
# Copies and comparison: C27, C28, C29

`Reach O ok w` with an arbitrary `ok`: the program may do anything, copying included; sources of copies may be copies.
-/

set_option linter.unusedSectionVars false
set_option autoImplicit false

namespace LRU

variable {K V : Type} [KeyEqual K] [DecidableEq K] [DecidableEq V] {O : Oracle K V}
  {w w' w'' : World K V} {ok : WOp K V → Prop} {i j k : Nat} {a b c : Cache K V} {res : Except Err (Res K V)}

/-! ### C02 for all caches -/

/-- C02 for every cache of every program, copies included. -/
theorem C02_all_caches (hO : NoListFault O) (h : Reach O ok w) (hc : w.caches[i]? = some (some c)) :
    (elements c).Pairwise (fun a b => keq a.key b.key = false) ∧
    c.map.Perm (elements c) ∧ (c.map.map (·.addr)).Nodup ∧
    c.order.map (·.ref) = (elements c).map (·.addr) ∧ (c.order.map (·.addr)).Nodup ∧
    c.map.length = count c ∧ c.order.length = count c := by
  obtain ⟨t, hr⟩ := h.rel hO hc
  have he : elements c = t.c.ents.map Ent.node := hr.elements
  have ho : c.order = t.c.ents.map Ent.lnode := hr.rep.order
  have hm : c.map.Perm (t.c.ents.map Ent.node) := hr.rep.map
  have hn : count c = t.c.ents.length := hr.count
  have hl : c.map.length = t.c.ents.length := hr.map_length
  refine ⟨?_, ?_, ?_, ?_, ?_, ?_, ?_⟩
  · rw [he, List.pairwise_map]; exact hr.awf.keys
  · rw [he]; exact hm
  · have := (hm.map (·.addr)).nodup_iff
    rw [this, List.map_map]; exact hr.awf.ids
  · rw [he, ho, List.map_map, List.map_map]; rfl
  · rw [ho, List.map_map]; exact hr.awf.slots
  · rw [hl, hn]
  · rw [ho, List.length_map, hn]

/-! ### Comparison -/

theorem equal_eq (ha : w.caches[i]? = some (some a)) (hb : w.caches[j]? = some (some b)) :
    (i = j → Impl.wstep O (.eq i j) w = .ok (.bool true) w) ∧
    (i ≠ j → ∀ r, Impl.cacheEq a b = some r → Impl.wstep O (.eq i j) w = .ok (.bool r) w) := by
  have get : ∀ {i : Nat} {c : Cache K V}, w.caches[i]? = some (some c) → Impl.getCache i w = .ok c w := by
    intro i c h
    unfold Impl.getCache
    rw [h]
  refine ⟨fun hij => ?_, fun hij r hr => ?_⟩
  · show Impl.ret (Impl.equal i j) _ w = _
    unfold Impl.equal
    refine ret_ok (a := true) ?_
    rw [bind_ok (get ha), bind_ok (get hb), if_pos hij]
    rfl
  · show Impl.ret (Impl.equal i j) _ w = _
    unfold Impl.equal
    refine ret_ok (a := r) ?_
    rw [bind_ok (get ha), bind_ok (get hb), if_neg hij, hr]
    rfl

/-- C29. `==` on two caches of the same class always has a result, changes nothing, and is true iff the caches hold the
same entries (key and value; for timed caches also the insertion time) in the same recency order. Nothing else about the
caches matters. Keys are compared by their `operator==`, as the code does. -/
theorem C29_equality (hO : NoListFault O) (hw : Reach O ok w) (ha : w.caches[i]? = some (some a))
    (hb : w.caches[j]? = some (some b)) :
    ∃ r, Impl.wstep O (.eq i j) w = .ok (.bool r) w ∧
      (r = true ↔ (elements a).map (compared a.kind) = (elements b).map (compared a.kind)) := by
  by_cases hij : i = j
  · refine ⟨true, (equal_eq ha hb).1 hij, ?_⟩
    subst hij
    rw [ha] at hb
    injection hb with hb
    injection hb with hb
    subst hb
    simp
  · obtain ⟨x, hx⟩ := hw.rel hO ha
    obtain ⟨y, hy⟩ := hw.rel hO hb
    obtain ⟨r, h1, h2⟩ := cacheEq_iff hx hy
    exact ⟨r, (equal_eq ha hb).2 hij r h1, h2⟩

/-- The comparison of class `x` is that of class `y` if they are the same C++ type. -/
theorem compared_sameBase {x y : Kind} (h : Impl.sameBase x y = true) : compared (K := K) (V := V) x = compared y := by
  cases x <;> cases y <;> first | rfl | cases h

/-- C29. `==` is reflexive. -/
theorem C29_reflexive (ha : w.caches[i]? = some (some a)) : Impl.wstep O (.eq i i) w = .ok (.bool true) w :=
  (equal_eq ha ha).1 rfl

/-- C29. `==` is symmetric. -/
theorem C29_symmetric (hO : NoListFault O) (hw : Reach O ok w) (ha : w.caches[i]? = some (some a))
    (hb : w.caches[j]? = some (some b)) (ht : Impl.sameBase a.kind b.kind = true) {r : Bool}
    (h : Impl.wstep O (.eq i j) w = .ok (.bool r) w') : Impl.wstep O (.eq j i) w = .ok (.bool r) w := by
  obtain ⟨x, h1, h2⟩ := C29_equality hO hw ha hb
  obtain ⟨y, h3, h4⟩ := C29_equality hO hw hb ha
  rw [h1] at h
  injection h with h h'
  injection h with h
  subst h
  rw [h3]
  have : y = x := by
    rw [compared_sameBase ht] at h2
    cases x <;> cases y <;> simp_all
  rw [this]

/-- C29. `==` is transitive. -/
theorem C29_transitive (hO : NoListFault O) (hw : Reach O ok w) (ha : w.caches[i]? = some (some a))
    (hb : w.caches[j]? = some (some b)) (hc : w.caches[k]? = some (some c)) (ht : Impl.sameBase a.kind b.kind = true)
    (h : Impl.wstep O (.eq i j) w = .ok (.bool true) w') (h' : Impl.wstep O (.eq j k) w = .ok (.bool true) w'') :
    Impl.wstep O (.eq i k) w = .ok (.bool true) w := by
  obtain ⟨x, h1, h2⟩ := C29_equality hO hw ha hb
  obtain ⟨y, h3, h4⟩ := C29_equality hO hw hb hc
  obtain ⟨z, h5, h6⟩ := C29_equality hO hw ha hc
  rw [h1] at h
  injection h with h _
  injection h with h
  rw [h3] at h'
  injection h' with h' _
  injection h' with h'
  rw [h5]
  have h7 := h2.1 h
  have h8 := h4.1 h'
  rw [compared_sameBase ht] at h7 h6
  rw [h6.2 (h7.trans h8)]

/-- Three caches: the second was built differently but holds the same in the same order (with another capacity), the third
holds the same in another order. -/
example : ((exec calmO (demo3 ++ [.create .basic (.sized 9), .op 1 (.insert 2 20), .op 1 (.insert 3 30),
      .op 1 (.insert 1 10), .create .basic (.sized 3), .op 2 (.insert 1 10), .op 2 (.insert 2 20),
      .op 2 (.insert 3 30)]) Impl.initWorld).map fun w =>
    ((Impl.wstep calmO (.eq 0 1) w).result, (Impl.wstep calmO (.eq 0 2) w).result)) =
    some (some (.bool true), some (.bool false)) := by decide +kernel

/-! ### C27 -/

theorem copyOf_isCopy (hw : WPair LWf Sep w) (hb : w.caches[i]? = some (some b))
    (hc : Impl.copyOf O w.g.next b = some c) : IsCopy w b c := by
  obtain ⟨m, hr, hm, hr', -, -⟩ := copy_stale (hw.each i b hb) hc
  have hrel : Rel ⟨b, baseG w.g.next⟩ ⟨m, baseG w.g.next⟩ := ⟨hr, rfl, hm⟩
  have hrel' : Rel ⟨c, baseG (w.g.next + w.g.next + b.order.length)⟩
      ⟨m.copy w.g.next, baseG (w.g.next + w.g.next + b.order.length)⟩ := ⟨hr', rfl, copy_awf hr hm⟩
  have hf := copyOf_fields hc
  have he : elements c = (m.copy w.g.next).ents.map Ent.node := hrel'.elements
  refine ⟨?_, ?_, ?_, ?_, ?_, ?_, ?_⟩
  · rw [he, show elements b = m.ents.map Ent.node from hrel.elements, List.map_map, List.map_map]
    exact copyEnts_map fun _ _ => rfl
  · rw [he, List.length_map, hr'.length, hr'.order, List.length_map]
    exact ⟨rfl, rfl⟩
  · rw [hf]
  · rw [hf]
  · rw [hf]
  · intro l hl
    rw [hr'.order] at hl
    obtain ⟨e, he, rfl⟩ := List.mem_map.1 hl
    exact ⟨e.node, hr'.map.mem_iff.2 (List.mem_map.2 ⟨e, he, rfl⟩), rfl⟩
  · intro n hn k d hd x hx hxn
    obtain ⟨e, he, rfl⟩ := List.mem_map.1 (hr'.map.mem_iff.1 hn)
    obtain ⟨e2, he2, q2, -, -, rfl⟩ := copyEnts_mem he
    have h1 : x.addr < w.g.next := (hw.each k d hd).ids x hx
    have h2 : x.addr = copyAddr w.g.next e2.id := hxn
    rw [h2] at h1
    exact absurd (Nat.lt_of_lt_of_le h1 (Nat.le_add_right _ _)) (Nat.lt_irrefl _)

theorem compared_content {kind : Kind} {l m : List (MapNode K V)} (h : l.map content = m.map content) :
    l.map (compared kind) = m.map (compared kind) := by
  have : ∀ l : List (MapNode K V), l.map (compared kind) = (l.map content).map
      (fun x : K × V × Int => (x.1, x.2.1, match kind with | .basic => none | .timed .. => some x.2.2)) := by
    intro l
    rw [List.map_map]
    rfl
  rw [this, this, h]

theorem IsCopy.equal (hO : NoListFault O) (hw : Reach O ok w') (h : IsCopy w b c) (hb : w'.caches[i]? = some (some b))
    (hc : w'.caches[j]? = some (some c)) : Impl.wstep O (.eq i j) w' = .ok (.bool true) w' ∧
      Impl.wstep O (.eq j i) w' = .ok (.bool true) w' := by
  obtain ⟨x, h1, h2⟩ := C29_equality hO hw hb hc
  obtain ⟨y, h3, h4⟩ := C29_equality hO hw hc hb
  rw [h1, h3, h2.2 (compared_content h.entries.symm), h4.2 (compared_content h.entries)]
  exact ⟨rfl, rfl⟩

/-- C27. Copy construction: the new cache (the last one of `w'`) is a copy of the source — the same entries in the same
order, the same capacity, nodes of its own and a recency list that refers to them — and compares equal to it in both
directions; all other caches, the source included, are untouched. -/
theorem C27_copy_construction (hO : NoListFault O) (hw : Reach O (fun _ => True) w) (hb : w.caches[i]? = some (some b))
    {r : Res K V} (hp : Impl.wstep O (.copyCtor i) w = .ok r w') :
    w'.caches.length = w.caches.length + 1 ∧ (∀ k < w.caches.length, w'.caches[k]? = w.caches[k]?) ∧
    ∃ c, w'.caches[w.caches.length]? = some (some c) ∧ IsCopy w b c ∧
      Impl.wstep O (.eq i w.caches.length) w' = .ok (.bool true) w' ∧
      Impl.wstep O (.eq w.caches.length i) w' = .ok (.bool true) w' := by
  have hw' : Reach O (fun _ => True) w' := .step _ hw trivial hp
  have hlt : i < w.caches.length := (List.getElem?_eq_some_iff.1 hb).1
  cases (show WPerforms O (.copyCtor i) w (.ok r) w' from hp).effect with
  | copied _ b1 c hb1 hc =>
    rw [hb] at hb1
    injection hb1 with hb1
    injection hb1 with hb1
    subst hb1
    have hcopy := copyOf_isCopy ((copies_ok hO).reach hw) hb hc
    have hk : ∀ k < w.caches.length, (w.caches ++ [some c])[k]? = w.caches[k]? := fun k hk =>
      List.getElem?_append_left hk
    have hlast : (w.caches ++ [some c])[w.caches.length]? = some (some c) := by simp
    refine ⟨by simp, hk, c, hlast, hcopy, ?_⟩
    exact hcopy.equal hO hw' ((hk i hlt).trans hb) hlast

/-- C27. Copy construction completes: it makes a copy or, if memory runs out, throws and leaves all caches alone. -/
theorem C27_copy_construction_completes (hO : NoListFault O) (hw : Reach O ok w) (hb : w.caches[i]? = some (some b)) :
    (∃ w', Impl.wstep O (.copyCtor i) w = .ok .unit w') ∨
    (O.fails .mapNode w.g.steps = true ∧ ∃ w', Impl.wstep O (.copyCtor i) w = .throw .badAlloc w' ∧
      w'.caches = w.caches) := by
  have get : Impl.getCache i w = .ok b w := by
    unfold Impl.getCache
    rw [hb]
  obtain ⟨m, hr, hm⟩ := ((copies_ok hO).reach hw).each i b hb
  obtain ⟨c, hc, -⟩ := copyOf_rep (O := O) hr hm w.g.next
  rcases worldAttempt_cases (O := O) .mapNode w with ⟨h1, h2⟩ | ⟨h1, h2⟩
  · left
    refine ⟨⟨w.caches ++ [some c], { stepG w.g with next := w.g.next + w.g.next + b.order.length }⟩, ?_⟩
    show Impl.ret (Impl.copyCtor O i) _ w = _
    unfold Impl.copyCtor
    refine ret_ok (a := ()) ?_
    rw [bind_ok get, bind_ok h1, bind_ok (makeCopy_some (by exact hc))]
    rfl
  · right
    refine ⟨h2, ⟨w.caches, stepG w.g⟩, ?_, rfl⟩
    · show Impl.ret (Impl.copyCtor O i) _ w = _
      unfold Impl.copyCtor
      refine ret_throw ?_
      rw [bind_ok get, bind_throw h1]

/-- C27. Copy assignment `i = j`: likewise for the assigned cache; all other caches, the source included, are untouched. -/
theorem C27_copy_assignment (hO : NoListFault O) (hw : Reach O (fun _ => True) w) (ha : w.caches[i]? = some (some a))
    (hb : w.caches[j]? = some (some b)) (hij : i ≠ j) (ht : Impl.sameType a.kind b.kind = true)
    (hp : WPerforms O (.copyAssign i j) w res w') :
    res = .ok .unit ∧ w'.caches.length = w.caches.length ∧ (∀ k, k ≠ i → w'.caches[k]? = w.caches[k]?) ∧
    ∃ c, w'.caches[i]? = some (some c) ∧ IsCopy w b c ∧
      Impl.wstep O (.eq j i) w' = .ok (.bool true) w' ∧ Impl.wstep O (.eq i j) w' = .ok (.bool true) w' := by
  cases hp.effect with
  | copyAssigned _ _ a1 b1 c ha1 hb1 _ _ hc =>
    rw [hb] at hb1
    injection hb1 with hb1
    injection hb1 with hb1
    subst hb1
    have hw' := Reach.step (ok := fun _ => True) _ hw trivial hp
    have hcopy := copyOf_isCopy ((copies_ok hO).reach hw) hb hc
    have hk : ∀ k, k ≠ i → (w.caches.set i (some c))[k]? = w.caches[k]? := fun k hk => set_get_ne hk
    have hi : (w.caches.set i (some c))[i]? = some (some c) := set_get ha
    refine ⟨rfl, by simp, hk, c, hi, hcopy, ?_⟩
    exact hcopy.equal hO hw' ((hk j fun e => hij e.symm).trans hb) hi
  | copyNothing _ _ a1 b1 ha1 hb1 h =>
    rw [ha] at ha1
    rw [hb] at hb1
    injection ha1 with ha1
    injection ha1 with ha1
    injection hb1 with hb1
    injection hb1 with hb1
    subst ha1 hb1
    rcases h with h | h
    · exact absurd h hij
    · rw [ht] at h; cases h

/-- A concrete copy construction, and an assignment over a cache that held other things. -/
example : ((exec calmO (demo3 ++ [.copyCtor 0]) Impl.initWorld).map fun w =>
    (peek 0 w, peek 1 w, (Impl.wstep calmO (.eq 0 1) w).result)) =
    some (some ⟨[(2, 20), (3, 30), (1, 10)], some 3, 3⟩, some ⟨[(2, 20), (3, 30), (1, 10)], some 3, 3⟩,
      some (.bool true)) := by decide +kernel

example : ((exec calmO (demoTwo ++ [.copyAssign 0 1]) Impl.initWorld).map fun w =>
    (peek 0 w, peek 1 w, (Impl.wstep calmO (.eq 0 1) w).result)) =
    some (some ⟨[(2, 99), (5, 50)], some 2, 2⟩, some ⟨[(2, 99), (5, 50)], some 2, 2⟩, some (.bool true)) := by
  decide +kernel

/-! ### C28 -/

/-- C28, the part that is true of the code: a call on one cache leaves all others alone, be they its copies or the cache
it was copied from. -/
theorem C28_calls_are_local_partial {o : Op K V} (hp : WPerforms O (.op i o) w res w') :
    w'.caches.length = w.caches.length ∧ ∀ k, k ≠ i → w'.caches[k]? = w.caches[k]? := by
  cases hp.effect with
  | called _ _ c _ s' hc hq => exact ⟨by simp, fun k hk => set_get_ne hk⟩

/-- C28, the part that is true of the code: being copied does not harm the original. It is as usable as before, so
everything proved of `Reachable` states goes on to hold of it. -/
theorem C28_original_partial {own : Nat → Bool} (hw : Prog O w own)
    (hb : w.caches[i]? = some (some b)) (hi : own i = true) {wop : WOp K V}
    (h : wop = .copyCtor i ∨ ∃ j, j ≠ i ∧ wop = .copyAssign j i) (hp : WPerforms O wop w res w') :
    w'.caches[i]? = some (some b) ∧ Reachable O (viewOf w' i b) := by
  have hlt : i < w.caches.length := (List.getElem?_eq_some_iff.1 hb).1
  have h1 : w'.caches[i]? = some (some b) := by
    rcases h with rfl | ⟨j, hj, rfl⟩
    · cases hp.effect with
      | copied _ b1 c hb1 hc => exact (List.getElem?_append_left hlt).trans hb
      | copyThrow => exact hb
    · cases hp.effect with
      | copyAssigned _ _ a1 b1 c ha1 hb1 _ _ hc => exact (set_get_ne (fun e => hj e.symm)).trans hb
      | copyNothing => exact hb
  refine ⟨h1, w', _, i, b, hw.wperforms hp, ?_, h1, rfl⟩
  rcases h with rfl | ⟨j, hj, rfl⟩
  · show mark own w.caches.length false i = true
    rw [mark_ne (Nat.ne_of_lt hlt), hi]
  · show (if j = i then own else mark own j false) i = true
    rw [if_neg hj, mark_ne (fun e => hj e.symm), hi]

/-- C28, the part that is true of the code: a copy becomes fully usable when it is cleared or assigned a range. -/
theorem C28_cleared_copy_partial {own : Nat → Bool} (hw : Prog O w own) {o : Op K V} (ho : o.discards = true)
    (hp : WPerforms O (.op i o) w res w') (hc : w'.caches[i]? = some (some c)) : Reachable O (viewOf w' i c) := by
  refine ⟨w', _, i, c, hw.wperforms hp, ?_, hc, rfl⟩
  show (if o.discards then mark own i true else own) i = true
  rw [if_pos ho, mark_eq]

theorem copied_stale (hO : NoListFault O) (hw : Reach O (fun _ => True) w) (hb : w.caches[i]? = some (some b))
    {r : Res K V} (hp : Impl.wstep O (.copyCtor i) w = .ok r w') (hc : w'.caches[w.caches.length]? = some (some c)) :
    ∃ t, Rel (viewOf w' w.caches.length c) t ∧ Stale t := by
  have hpair := (copies_ok hO).reach hw
  cases (show WPerforms O (.copyCtor i) w (.ok r) w' from hp).effect with
  | copied _ b1 c1 hb1 hc1 =>
    rw [hb] at hb1
    injection hb1 with hb1
    injection hb1 with hb1
    subst hb1
    have : c = c1 := by
      have h1 : (w.caches ++ [some c1])[w.caches.length]? = some (some c) := hc
      rw [List.getElem?_append_right (Nat.le_refl _)] at h1
      simpa using h1.symm
    subst this
    obtain ⟨m, hr, hm, hr', h1, h2⟩ := copy_stale (hpair.each i b hb) hc1
    obtain ⟨t, ht⟩ := (Reach.step _ hw trivial hp : Reach O (fun _ => True) _).rel hO hc
    have e1 : t.c.ents.map Ent.node = (m.copy w.g.next).ents.map Ent.node := by
      rw [← ht.elements]
      exact Rel.elements (s := ⟨c, baseG (w.g.next + w.g.next + b.order.length)⟩)
        (t := ⟨m.copy w.g.next, baseG (w.g.next + w.g.next + b.order.length)⟩) ⟨hr', rfl, copy_awf hr hm⟩
    have e2 : t.c.ents.map Ent.lnode = (m.copy w.g.next).ents.map Ent.lnode := by
      rw [← ht.rep.order, ← hr'.order]
      rfl
    have e3 : t.c.last = (m.copy w.g.next).last := by
      rw [← ht.rep.last, ← hr'.last]
      rfl
    have e4 : t.c.ents.map (·.slot) = (m.copy w.g.next).ents.map (·.slot) := by
      have := congrArg (List.map ListNode.addr) e2
      rwa [List.map_map, List.map_map] at this
    have e5 : t.c.ents.map (·.id) = (m.copy w.g.next).ents.map (·.id) := by
      have := congrArg (List.map MapNode.addr) e1
      rwa [List.map_map, List.map_map] at this
    refine ⟨t, ht, ⟨?_, ?_⟩⟩
    · intro e he q hq
      rw [e4]
      have h3 : e.node ∈ (m.copy w.g.next).ents.map Ent.node := by
        rw [← e1]; exact List.mem_map.2 ⟨e, he, rfl⟩
      obtain ⟨e', he', h4⟩ := List.mem_map.1 h3
      refine h1 e' he' q ?_
      have : e'.node.info.order = e.node.info.order := by rw [h4]
      exact Eq.trans this hq
    · intro p hp
      rw [e5]
      exact h2 p (e3 ▸ hp)

/-- C28 is false of the code, for every copied cache: erasing any key that a fresh copy holds is undefined behaviour. (The
list iterator stored with the entry leads into the recency list of the original.) -/
theorem C28_erase_on_copy_is_undefined (hO : NoListFault O) (hw : Reach O (fun _ => True) w)
    (hb : w.caches[i]? = some (some b)) {r : Res K V} (hp : Impl.wstep O (.copyCtor i) w = .ok r w')
    (hc : w'.caches[w.caches.length]? = some (some c)) {k : K} (hk : Stored c k) :
    Impl.step O (.erase k) (viewOf w' w.caches.length c) = .ub := by
  obtain ⟨t, hr, hst⟩ := copied_stale hO hw hb hp hc
  obtain ⟨x, hx, hk⟩ := hk
  have hx : x ∈ LRU.elements (viewOf w' w.caches.length c).c := hx
  rw [hr.elements] at hx
  obtain ⟨e, he, rfl⟩ := List.mem_map.1 hx
  exact hr.back_ub hO (erase_stale hr hst he hk)

/-- C28 is false of the code, for every copied plain cache with two entries or more: `find` of a key that a fresh copy
holds never returns. -/
theorem C28_find_on_copy_never_returns (hO : NoListFault O) (hw : Reach O (fun _ => True) w)
    (hb : w.caches[i]? = some (some b)) {r : Res K V} (hp : Impl.wstep O (.copyCtor i) w = .ok r w')
    (hc : w'.caches[w.caches.length]? = some (some c)) (hkind : c.kind = .basic) (hn : c.map.length ≠ 1) {k : K}
    (hk : Stored c k) {r' : Res K V} {s' : St (Cache K V) K V} :
    ¬ Returns O (.find k) (viewOf w' w.caches.length c) r' s' := by
  intro hret
  obtain ⟨t, hr, hst⟩ := copied_stale hO hw hb hp hc
  obtain ⟨x, hx, hk⟩ := hk
  have hx : x ∈ LRU.elements (viewOf w' w.caches.length c).c := hx
  rw [hr.elements] at hx
  obtain ⟨e, he, rfl⟩ := List.mem_map.1 hx
  have hlen : t.c.ents.length ≠ 1 := by
    have h1 : c.map.length = t.c.ents.length := hr.rep.length
    rwa [h1] at hn
  have hsim := step_sim hO (.find k) _ t hr trivial
  unfold Returns at hret
  rw [hret] at hsim
  rcases find_stale (O := O) hr hst he hk (hr.rep.kind.symm.trans hkind) hlen with h | ⟨g, h⟩
  · rw [show Mid.step O (.find k) t = .ub from ret_ub h] at hsim
    exact hsim.elim
  · rw [show Mid.step O (.find k) t = .throw .user _ from ret_throw h] at hsim
    exact hsim.elim

/-- A copy with three entries. -/
def demoCopy : List (WOp Nat Nat) := demo3 ++ [.copyCtor 0]

/-- Calls on cache `i` of a program state. -/
def callOn (O : Oracle Nat Nat) (i : Nat) (op : Op Nat Nat) (w : World Nat Nat) : Option (Out (St (Cache Nat Nat) Nat Nat) (Res Nat Nat)) :=
  match w.caches[i]? with
  | some (some c) => some (Impl.step O op (viewOf w i c))
  | _ => none

/-- C28 is false of the code: on a copy of a cache of three entries `lookup`, `find`, `erase`, updating `insert` and
`shrink` are undefined behaviour. -/
theorem C28_calls_on_copies_are_undefined : ¬ ∀ (O : Oracle Nat Nat) (w : World Nat Nat) (i : Nat) (c : Cache Nat Nat)
    (op : Op Nat Nat), Calm O → Steady O → Reach O (fun _ => True) w → w.caches[i]? = some (some c) →
    Safe c op → Impl.step O op (viewOf w i c) ≠ .ub := by
  intro hall
  have hf : ((exec calmO demoCopy Impl.initWorld).map fun w => match w.caches[1]? with
      | some (some c) => (Impl.step calmO (.lookup 2) (viewOf w 1 c)).isUb
      | _ => false) = some true := by decide +kernel
  obtain ⟨w, -, hr, hw⟩ := exec_fact hf
  split at hw
  · next c hc =>
    exact hall calmO w 1 c (.lookup 2) calmO_calm calmO_steady hr hc trivial (Out.isUb_iff.1 hw)
  · cases hw

example : [Op.lookup 2, .find 2, .contains 2, .erase 2, .erase 1, .insert 1 4, .shrink 1].map (fun op =>
    (exec calmO demoCopy Impl.initWorld).map fun w => (callOn calmO 1 op w).map Out.isUb) =
    List.replicate 7 (some (some true)) := by decide +kernel

/-- C28 is false of the code: a lookup on the copy can return a reference to an element of the original (cache 0), through
which the original is then read and written. -/
theorem C28_lookup_returns_reference_into_original :
    ¬ ∀ (O : Oracle Nat Nat) (w : World Nat Nat) (i : Nat) (c : Cache Nat Nat) (k : Nat) (p : Ptr) (v : Nat)
      (s' : St (Cache Nat Nat) Nat Nat), Calm O → Steady O → Reach O (fun _ => True) w →
      w.caches[i]? = some (some c) → Returns O (.lookup k) (viewOf w i c) (.ref p v) s' →
      ∃ n ∈ s'.c.map, n.addr = p := by
  intro hall
  have hf : ((exec calmO demoCopy Impl.initWorld).map fun w => match w.caches[1]? with
      | some (some c) => match Impl.step calmO (.lookup 1) (viewOf w 1 c) with
        | .ok (.ref p _) s' => decide (∀ n ∈ s'.c.map, n.addr ≠ p)
        | _ => false
      | _ => false) = some true := by decide +kernel
  obtain ⟨w, -, hr, hw⟩ := exec_fact hf
  split at hw
  · next c hc =>
    split at hw
    · next p v s' hs =>
      obtain ⟨n, hn, e⟩ := hall calmO w 1 c 1 p v s' calmO_calm calmO_steady hr hc hs
      exact of_decide_eq_true hw n hn e
    · cases hw
  · cases hw

/-- C28 is false of the code: once the original is destroyed, even a lookup of the key last accessed is undefined. -/
theorem C28_copy_does_not_outlive_original : ¬ ∀ (O : Oracle Nat Nat) (w w' : World Nat Nat) (i j : Nat)
    (c : Cache Nat Nat) (op : Op Nat Nat), Calm O → Steady O → Reach O (fun _ => True) w → i ≠ j →
    w.caches[i]? = some (some c) → (∃ r s', Returns O op (viewOf w i c) r s') → WPerforms O (.destroy j) w (.ok .unit) w' →
    Impl.step O op (viewOf w' i c) ≠ .ub := by
  intro hall
  have hf : ((exec calmO demoCopy Impl.initWorld).map fun w => match w.caches[1]? with
      | some (some c) => (Impl.step calmO (.lookup 1) (viewOf w 1 c)).result.isSome &&
        (match Impl.wstep calmO (.destroy 0) w with
        | .ok .unit w' => (Impl.step calmO (.lookup 1) (viewOf w' 1 c)).isUb
        | _ => false)
      | _ => false) = some true := by decide +kernel
  obtain ⟨w, -, hr, hw⟩ := exec_fact hf
  split at hw
  · next c hc =>
    rw [Bool.and_eq_true] at hw
    obtain ⟨h1, h2⟩ := hw
    split at h2
    · next w' hs =>
      obtain ⟨r, h3⟩ := Option.isSome_iff_exists.1 h1
      obtain ⟨s', h3⟩ := Out.ok_of h3
      exact hall calmO w w' 1 0 c (.lookup 1) calmO_calm calmO_steady hr (by decide) hc ⟨r, s', h3⟩ hs (Out.isUb_iff.1 h2)
    · cases h2
  · cases hw

end LRU
