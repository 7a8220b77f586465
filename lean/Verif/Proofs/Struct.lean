import Verif.Proofs.Prim
/-!
# Simulation of the operations that change the structure of a cache
-/

set_option linter.unusedSectionVars false

namespace LRU

variable {K V : Type} [KeyEqual K]

/-- Reordering the entries keeps the invariant. -/
theorem AWF.perm {a : MCache K V} {g : Shared K V} (w : AWF a g) {l : List (Ent K V)}
    (h : l.Perm a.ents) : AWF { a with ents := l } g where
  ids := (h.map _).nodup_iff.2 w.ids
  slots := (h.map _).nodup_iff.2 w.slots
  keys := (h.pairwise_iff (by intro x y hxy; rw [keq_comm]; exact hxy)).2 w.keys
  linked := fun e he q hq hm => w.linked e (h.mem_iff.1 he) q hq ((h.map _).mem_iff.1 hm)
  bound := fun n hn => by
    have := w.bound n hn
    show l.length ≤ n
    rw [h.length_eq]; exact this
  capNone := fun hn => by
    have := w.capNone hn
    rw [this] at h
    exact h.eq_nil
  lt := fun e he => w.lt e (h.mem_iff.1 he)
  foreign := fun p n q h1 h2 h3 h4 h5 => by
    have := w.foreign p n q h1 (fun hm => h2 ((h.map _).mem_iff.2 hm)) h3 h4 h5
    exact ⟨fun hm => this.1 ((h.map _).mem_iff.1 hm), this.2⟩
  lastLt := w.lastLt
  extDisj := fun e he => w.extDisj e (h.mem_iff.1 he)
  extLt := w.extLt

/-- Removing entries keeps the invariant. -/
theorem AWF.sublist {a : MCache K V} {g : Shared K V} (w : AWF a g) {l : List (Ent K V)}
    (h : l.Sublist a.ents) : AWF { a with ents := l } g where
  ids := List.Nodup.sublist (h.map _) w.ids
  slots := List.Nodup.sublist (h.map _) w.slots
  keys := w.keys.sublist h
  linked := fun e he q hq hm => w.linked e (h.subset he) q hq ((h.map _).subset hm)
  bound := fun n hn => Nat.le_trans h.length_le (w.bound n hn)
  capNone := fun hn => by
    have := w.capNone hn
    rw [this] at h
    exact List.sublist_nil.1 h
  lt := fun e he => w.lt e (h.subset he)
  foreign := fun p n q h1 h2 h3 h4 h5 => by
    by_cases hm : p ∈ a.ents.map (·.id)
    · obtain ⟨e, he, hid⟩ := List.mem_map.1 hm
      exact absurd (h4.trans hid.symm) (w.extDisj e he n h3)
    · have := w.foreign p n q h1 hm h3 h4 h5
      exact ⟨fun hm => this.1 ((h.map _).subset hm), this.2⟩
  lastLt := w.lastLt
  extDisj := fun e he => w.extDisj e (h.subset he)
  extLt := w.extLt

theorem moveEnt_perm {a : MCache K V} {g : Shared K V} (w : AWF a g) {e : Ent K V}
    (he : e ∈ a.ents) : (a.ents.filter (fun x => x.slot != e.slot) ++ [e]).Perm a.ents := by
  refine filter_append_perm he (by simp) ?_ (nodup_of_map w.ids)
  intro y hy h
  refine map_inj_of_nodup w.slots y hy e he ?_
  simpa using h

theorem spliceToEnd_sim {it : Option Ptr} {p : Ptr} :
    RSim (fun t => Own p t.c) (Impl.spliceToEnd (K := K) (V := V) it) (Mid.spliceToEnd it)
      (fun _ t => Own p t.c) := by
  cases it with
  | none => exact RSim.ub
  | some q =>
    intro s t hr hp
    unfold Impl.spliceToEnd Mid.spliceToEnd
    simp only [bind, M.bind, Impl.derefOrder]
    rw [hr.rep.find_slot q]
    cases h : t.c.ents.find? (fun e => e.slot == q) with
    | none => trivial
    | some e =>
      have he := List.mem_of_find?_eq_some h
      have hq := List.find?_some h
      simp only [beq_iff_eq] at hq
      subst hq
      have hperm := moveEnt_perm hr.awf he
      refine ⟨rfl, ⟨?_, hr.g, hr.awf.perm hperm⟩, ?_⟩
      · refine { order := ?_, map := ?_, last := hr.rep.last, cap := hr.rep.cap, kind := hr.rep.kind, obs := hr.rep.obs }
        · simp only [List.map_append, List.map_cons, List.map_nil]
          rw [hr.rep.order, List.filter_map]
          rfl
        · exact hr.rep.map.trans ((hperm.map _).symm)
      · obtain ⟨x, hx, hxp⟩ := hp
        exact ⟨x, hperm.mem_iff.2 hx, hxp⟩

theorem moveToFront_sim {it : Option Ptr} {p : Ptr} :
    RSim (fun t => Own p t.c) (Impl.moveToFront (K := K) (V := V) it) (Mid.moveToFront it)
      (fun _ t => Own p t.c) := by
  refine (size_sim (P := Own p)).bind fun n => ?_
  refine RSim.ite (fun _ => ?_) (fun _ => ?_)
  · exact RSim.pure (fun _ h => h.1)
  · exact spliceToEnd_sim.pre (fun _ h => h.1)

/-- Filtering out an entry by its address or by its list node is the same. -/
theorem filter_id_slot {a : MCache K V} {g : Shared K V} (w : AWF a g) {e : Ent K V} (he : e ∈ a.ents) :
    a.ents.filter (fun x => x.id != e.id) = a.ents.filter (fun x => x.slot != e.slot) := by
  refine List.filter_congr (fun x hx => ?_)
  by_cases h : x = e
  · subst h; simp
  · have h1 : x.id ≠ e.id := fun h' => h (map_inj_of_nodup w.ids x hx e he h')
    have h2 : x.slot ≠ e.slot := fun h' => h (map_inj_of_nodup w.slots x hx e he h')
    rw [bne_iff_ne.2 h1, bne_iff_ne.2 h2]

theorem filter_key_slot {a : MCache K V} {g : Shared K V} (w : AWF a g) {e : Ent K V} (he : e ∈ a.ents) :
    a.ents.filter (fun x => !keq x.key e.key) = a.ents.filter (fun x => x.slot != e.slot) := by
  refine List.filter_congr (fun x hx => ?_)
  by_cases h : x = e
  · subst h; simp [KeyEqual.refl]
  · have h1 : keq x.key e.key = false := by
      cases hk : keq x.key e.key with
      | false => rfl
      | true => exact absurd (key_inj_of_pairwise w.keys x hx e he hk) h
    have h2 : x.slot ≠ e.slot := fun h' => h (map_inj_of_nodup w.slots x hx e he h')
    simp [h1, h2]

/-- `_order.erase(information.order)` on a node of this cache. -/
theorem find_ord {a : MCache K V} {g : Shared K V} (w : AWF a g) {e : Ent K V} (he : e ∈ a.ents)
    {q : Ptr} (hq : e.ord = some q) :
    (a.ents.find? (fun x => x.slot == q) = none) ∨
    (a.ents.find? (fun x => x.slot == q) = some e ∧ q = e.slot) := by
  cases h : a.ents.find? (fun x => x.slot == q) with
  | none => exact .inl rfl
  | some x =>
    have hx := List.mem_of_find?_eq_some h
    have hxq := List.find?_some h
    simp only [beq_iff_eq] at hxq
    have hqe := w.linked e he q hq (List.mem_map.2 ⟨x, hx, hxq⟩)
    refine .inr ⟨?_, hqe⟩
    rw [map_inj_of_nodup w.slots x hx e he (by rw [hxq, hqe])]

theorem eraseAt_sim {n : MapNode K V} :
    RSim (fun t => OwnNode n t.c) (Impl.orderErase n.info.order >>= fun _ => Impl.mapEraseAt n.addr)
      (Mid.eraseNode n) (fun _ _ => True) := by
  intro s t hr hp
  obtain ⟨e, he, rfl⟩ := hp
  unfold Mid.eraseNode Impl.orderErase
  simp only [Ent.node]
  cases ho : e.ord with
  | none => trivial
  | some q =>
    simp only [bind, M.bind, Impl.derefOrder]
    rw [hr.rep.find_slot q]
    rcases find_ord hr.awf he ho with h | ⟨h, rfl⟩
    · rw [h]; trivial
    · rw [h]
      refine ⟨rfl, ⟨?_, hr.g, hr.awf.sublist List.filter_sublist⟩, trivial⟩
      refine { order := ?_, map := ?_, last := hr.rep.last, cap := hr.rep.cap, kind := hr.rep.kind, obs := hr.rep.obs }
      · show List.filter _ s.c.order = _
        rw [hr.rep.order, List.filter_map]
        rfl
      · refine (hr.rep.map.filter _).trans ?_
        rw [List.filter_map]
        refine .of_eq (congrArg _ ?_)
        exact filter_id_slot hr.awf he

theorem eraseKey_sim {n : MapNode K V} :
    RSim (fun t => OwnNode n t.c ∨ ∀ q, n.info.order = some q → q ∉ t.c.ents.map (·.slot))
      (Impl.orderErase n.info.order >>= fun _ => Impl.mapEraseKey n.key)
      (Mid.eraseNode n) (fun _ _ => True) := by
  intro s t hr hp
  unfold Mid.eraseNode Impl.orderErase
  cases ho : n.info.order with
  | none => trivial
  | some q =>
    simp only [bind, M.bind, Impl.derefOrder]
    rw [hr.rep.find_slot q]
    have hcase : (t.c.ents.find? (fun x => x.slot == q) = none) ∨
        ∃ e ∈ t.c.ents, e.node = n ∧ t.c.ents.find? (fun x => x.slot == q) = some e ∧ q = e.slot := by
      rcases hp with ⟨e, he, rfl⟩ | hp
      · rcases find_ord hr.awf he ho with h | ⟨h, h'⟩
        · exact .inl h
        · exact .inr ⟨e, he, rfl, h, h'⟩
      · left
        rw [List.find?_eq_none]
        intro x hx hxq
        simp only [beq_iff_eq] at hxq
        exact hp q ho (List.mem_map.2 ⟨x, hx, hxq⟩)
    rcases hcase with h | ⟨e, he, rfl, h, rfl⟩
    · rw [h]; trivial
    · rw [h]
      refine ⟨rfl, ⟨?_, hr.g, hr.awf.sublist List.filter_sublist⟩, trivial⟩
      refine { order := ?_, map := ?_, last := hr.rep.last, cap := hr.rep.cap, kind := hr.rep.kind, obs := hr.rep.obs }
      · show List.filter _ s.c.order = _
        rw [hr.rep.order, List.filter_map]
        rfl
      · refine (hr.rep.map.filter _).trans ?_
        rw [List.filter_map]
        refine .of_eq (congrArg _ ?_)
        exact filter_key_slot hr.awf he

end LRU
