import Verif.Proofs.Rep
/-!
# Simulation of the primitives
-/

set_option linter.unusedSectionVars false

namespace LRU

variable {K V : Type} [KeyEqual K]

theorem key_inj_of_pairwise {l : List (Ent K V)}
    (h : l.Pairwise (fun x y => keq x.key y.key = false)) :
    ∀ x ∈ l, ∀ y ∈ l, keq x.key y.key = true → x = y := by
  induction l with
  | nil => simp
  | cons a t ih =>
    rw [List.pairwise_cons] at h
    intro x hx y hy hk
    rcases List.mem_cons.1 hx with hxa | hx' <;> rcases List.mem_cons.1 hy with hya | hy'
    · rw [hxa, hya]
    · subst hxa; rw [h.1 y hy'] at hk; cases hk
    · subst hya; rw [keq_comm, h.1 x hx'] at hk; cases hk
    · exact ih h.2 x hx' y hy' hk

theorem key_inj_of_pairwise' {l : List (Ent K V)} {k : K}
    (h : l.Pairwise (fun x y => keq x.key y.key = false)) :
    ∀ x ∈ l, ∀ y ∈ l, keq x.key k = true → keq y.key k = true → x = y := by
  intro x hx y hy hxk hyk
  refine key_inj_of_pairwise h x hx y hy ?_
  exact KeyEqual.trans _ _ _ hxk (by rw [keq_comm]; exact hyk)

/-- `p` is the address of an entry of the cache. -/
def Own (p : Ptr) (a : MCache K V) : Prop := ∃ e ∈ a.ents, e.id = p

/-- `n` is the map node of an entry of the cache. -/
def OwnNode (n : MapNode K V) (a : MCache K V) : Prop := ∃ e ∈ a.ents, e.node = n

theorem OwnNode.own {n : MapNode K V} {a : MCache K V} (h : OwnNode n a) : Own n.addr a := by
  obtain ⟨e, he, rfl⟩ := h
  exact ⟨e, he, rfl⟩

namespace Rep

variable {c : Cache K V} {a : MCache K V} {g : Shared K V}

theorem find_key (h : Rep c a) (w : AWF a g) (k : K) :
    c.map.find? (fun n => keq n.key k) = (a.ents.find? (fun e => keq e.key k)).map Ent.node := by
  rw [find?_perm h.map, find?_map_eq]
  · rfl
  · intro x hx y hy hxk hyk
    obtain ⟨e, he, rfl⟩ := List.mem_map.1 hx
    obtain ⟨f, hf, rfl⟩ := List.mem_map.1 hy
    rw [key_inj_of_pairwise' w.keys e he f hf hxk hyk]

theorem find_addr (h : Rep c a) (w : AWF a g) (p : Ptr) :
    c.map.find? (fun n => n.addr == p) = (a.ents.find? (fun e => e.id == p)).map Ent.node := by
  rw [find?_perm h.map, find?_map_eq]
  · rfl
  · intro x hx y hy hxk hyk
    obtain ⟨e, he, rfl⟩ := List.mem_map.1 hx
    obtain ⟨f, hf, rfl⟩ := List.mem_map.1 hy
    simp only [Ent.node, beq_iff_eq] at hxk hyk
    rw [map_inj_of_nodup w.ids e he f hf (by simp [hxk, hyk])]

theorem find_slot (h : Rep c a) (p : Ptr) :
    c.order.find? (fun n => n.addr == p) = (a.ents.find? (fun e => e.slot == p)).map Ent.lnode := by
  rw [h.order, find?_map_eq]
  rfl

theorem length (h : Rep c a) : c.map.length = a.ents.length := by
  simpa using h.map.length_eq

end Rep

section prims

variable {P : MCache K V → Prop}

theorem getKind_sim : RSim (fun t => P t.c) (Impl.getKind (K := K) (V := V)) Mid.getKind
    (fun k t => P t.c ∧ k = t.c.kind) := by
  intro s t hr hp
  exact ⟨hr.rep.kind, hr, hp, rfl⟩

theorem getObs_sim : RSim (fun t => P t.c) (Impl.getObs (K := K) (V := V)) Mid.getObs
    (fun o t => P t.c ∧ o = t.c.obs) := by
  intro s t hr hp
  exact ⟨hr.rep.obs, hr, hp, rfl⟩

theorem getLast_sim : RSim (fun t => P t.c) (Impl.getLast (K := K) (V := V)) Mid.getLast
    (fun p t => P t.c ∧ p = t.c.last) := by
  intro s t hr hp
  exact ⟨hr.rep.last, hr, hp, rfl⟩

theorem orderFirst_sim : RSim (fun t => P t.c) (Impl.orderFirst (K := K) (V := V)) Mid.orderFirst
    (fun l t => P t.c ∧ l = t.c.ents.head?.map Ent.lnode) := by
  intro s t hr hp
  refine ⟨?_, hr, hp, rfl⟩
  simp [hr.rep.order]

theorem orderLast_sim : RSim (fun t => P t.c) (Impl.orderLast (K := K) (V := V)) Mid.orderLast
    (fun l t => P t.c ∧ l = t.c.ents.getLast?.map Ent.lnode) := by
  intro s t hr hp
  refine ⟨?_, hr, hp, rfl⟩
  simp [hr.rep.order]

theorem orderAddrs_sim : RSim (fun t => P t.c) (Impl.orderAddrs (K := K) (V := V)) Mid.orderAddrs
    (fun l t => P t.c ∧ l = t.c.ents.map (·.slot)) := by
  intro s t hr hp
  refine ⟨?_, hr, hp, rfl⟩
  simp [hr.rep.order, Ent.lnode, Function.comp_def]

theorem size_sim : RSim (fun t => P t.c) (Impl.size (K := K) (V := V)) Mid.size
    (fun n t => P t.c ∧ n = t.c.ents.length) := by
  intro s t hr hp
  exact ⟨hr.rep.length, hr, hp, rfl⟩

theorem readCapacity_sim : RSim (fun t => P t.c) (Impl.readCapacity (K := K) (V := V)) Mid.readCapacity
    (fun n t => P t.c ∧ t.c.cap = some n) := by
  intro s t hr hp
  unfold Impl.readCapacity Mid.readCapacity
  rw [hr.rep.cap]
  cases h : t.c.cap with
  | none => trivial
  | some n => exact ⟨rfl, hr, hp, h⟩

theorem mapFind_sim {k : K} : RSim (fun t => P t.c) (Impl.mapFind (V := V) k) (Mid.mapFind k)
    (fun r t => P t.c ∧ r = (t.c.ents.find? (fun e => keq e.key k)).map Ent.node) := by
  intro s t hr hp
  exact ⟨hr.rep.find_key hr.awf k, hr, hp, rfl⟩

theorem mapFind_some {k : K} {n : MapNode K V} {a : MCache K V}
    (h : some n = (a.ents.find? (fun e => keq e.key k)).map Ent.node) :
    ∃ e ∈ a.ents, e.node = n ∧ keq e.key k = true := by
  cases hf : a.ents.find? (fun e => keq e.key k) with
  | none => simp [hf] at h
  | some e =>
    rw [hf] at h
    simp at h
    have hk := List.find?_some hf
    exact ⟨e, List.mem_of_find?_eq_some hf, h.symm, hk⟩

theorem mapFind_none {k : K} {a : MCache K V}
    (h : none = (a.ents.find? (fun e => keq e.key k)).map Ent.node) :
    ∀ e ∈ a.ents, keq e.key k = false := by
  cases hf : a.ents.find? (fun e => keq e.key k) with
  | none =>
    rw [List.find?_eq_none] at hf
    intro e he
    simpa using hf e he
  | some e => simp [hf] at h

/-- What `deref` returns: a node of this cache, or a node of another cache. -/
def DerefOk (p : Ptr) (n : MapNode K V) (t : St (MCache K V) K V) : Prop :=
  n.addr = p ∧ (OwnNode n t.c ∨ (p ∉ t.c.ents.map (·.id) ∧ n ∈ t.g.ext))

theorem deref_sim {p : Ptr} : RSim (fun t => P t.c) (Impl.deref (K := K) (V := V) p) (Mid.deref p)
    (fun n t => P t.c ∧ DerefOk p n t) := by
  intro s t hr hp
  unfold Impl.deref Mid.deref
  rw [hr.rep.find_addr hr.awf p]
  cases h : t.c.ents.find? (fun e => e.id == p) with
  | some e =>
    have h1 := List.mem_of_find?_eq_some h
    have h2 := List.find?_some h
    simp only [beq_iff_eq] at h2
    exact ⟨rfl, hr, hp, h2, .inl ⟨e, h1, rfl⟩⟩
  | none =>
    simp only [Option.map_none, hr.g]
    cases h' : t.g.ext.find? (fun n => n.addr == p) with
    | none => trivial
    | some n =>
      have h1 := List.mem_of_find?_eq_some h'
      have h2 := List.find?_some h'
      simp only [beq_iff_eq] at h2
      refine ⟨rfl, hr, hp, h2, .inr ⟨?_, h1⟩⟩
      rw [List.find?_eq_none] at h
      intro hm
      obtain ⟨e, he, hid⟩ := List.mem_map.1 hm
      exact h e he (by simp [hid])

theorem derefIt_sim {it : Option Ptr} :
    RSim (fun t => P t.c) (Impl.derefIt (K := K) (V := V) it) (Mid.derefIt it)
    (fun n t => P t.c ∧ OwnNode n t.c ∧ some n.addr = it) := by
  cases it with
  | none => exact RSim.ub
  | some p =>
    intro s t hr hp
    unfold Impl.derefIt Mid.derefIt
    simp only
    rw [hr.rep.find_addr hr.awf p]
    cases h : t.c.ents.find? (fun e => e.id == p) with
    | some e =>
      have h1 := List.mem_of_find?_eq_some h
      have h2 := List.find?_some h
      simp only [beq_iff_eq] at h2
      exact ⟨rfl, hr, hp, ⟨e, h1, rfl⟩, by simp [Ent.node, h2]⟩
    | none => trivial

theorem derefOrder_sim {p : Ptr} :
    RSim (fun t => P t.c) (Impl.derefOrder (K := K) (V := V) p) (Mid.derefOrder p)
    (fun l t => P t.c ∧ ∃ e ∈ t.c.ents, e.lnode = l ∧ e.slot = p) := by
  intro s t hr hp
  unfold Impl.derefOrder Mid.derefOrder
  rw [hr.rep.find_slot p]
  cases h : t.c.ents.find? (fun e => e.slot == p) with
  | none => trivial
  | some e =>
    have h1 := List.mem_of_find?_eq_some h
    have h2 := List.find?_some h
    simp only [beq_iff_eq] at h2
    exact ⟨rfl, hr, hp, e, h1, rfl, h2⟩

/-- Changing `last`. -/
theorem AWF.setLast {a : MCache K V} {g : Shared K V} (w : AWF a g) {p : Ptr} (h : Own p a) :
    AWF { a with last := some p } g := by
  obtain ⟨e, he, rfl⟩ := h
  refine { w with foreign := ?_, lastLt := ?_ }
  · intro p n q hp hn
    simp only [Option.some.injEq] at hp
    subst hp
    exact absurd (List.mem_map.2 ⟨e, he, rfl⟩) hn
  · intro p hp
    simp only [Option.some.injEq] at hp
    subst hp
    exact (w.lt e he).1

theorem AWF.noLast {a : MCache K V} {g : Shared K V} (w : AWF a g) : AWF { a with last := none } g :=
  { w with foreign := fun _ _ _ h => (nomatch h), lastLt := fun _ h => (nomatch h) }

theorem setLast_sim {p : Ptr} :
    RSim (fun t => Own p t.c) (Impl.setLast (K := K) (V := V) p) (Mid.setLast p)
    (fun _ t => t.c.last = some p) := by
  intro s t hr hp
  refine ⟨rfl, ⟨?_, hr.g, hr.awf.setLast hp⟩, rfl⟩
  exact { order := hr.rep.order, map := hr.rep.map, last := rfl, cap := hr.rep.cap, kind := hr.rep.kind,
          obs := hr.rep.obs }

theorem lastInvalidate_sim {P : List (Ent K V) → Prop} :
    RSim (fun t => P t.c.ents) (Impl.lastInvalidate (K := K) (V := V)) Mid.lastInvalidate
    (fun _ t => P t.c.ents) := by
  intro s t hr hp
  refine ⟨rfl, ⟨?_, hr.g, hr.awf.noLast⟩, hp⟩
  exact { order := hr.rep.order, map := hr.rep.map, last := rfl, cap := hr.rep.cap, kind := hr.rep.kind,
          obs := hr.rep.obs }

theorem assignCapacity_sim {n : Nat} :
    RSim (fun t => t.c.ents.length ≤ n) (Impl.assignCapacity (K := K) (V := V) n) (Mid.assignCapacity n)
    (fun _ _ => True) := by
  intro s t hr hp
  refine ⟨rfl, ⟨?_, hr.g, ?_⟩, trivial⟩
  · exact { order := hr.rep.order, map := hr.rep.map, last := hr.rep.last, cap := rfl, kind := hr.rep.kind,
            obs := hr.rep.obs }
  · refine { hr.awf with bound := ?_, capNone := ?_ }
    · intro m hm
      simp only [Option.some.injEq] at hm
      subst hm
      exact hp
    · intro h
      cases h

theorem clear_sim :
    RSim (fun _ => True) (Impl.clear (K := K) (V := V)) Mid.clear (fun _ t => t.c.ents = [] ∧ t.c.last = none) := by
  intro s t hr hp
  refine ⟨rfl, ⟨?_, hr.g, ?_⟩, rfl, rfl⟩
  · exact { order := rfl, map := .refl _, last := rfl, cap := hr.rep.cap, kind := hr.rep.kind,
            obs := hr.rep.obs }
  · exact {
      ids := by simp
      slots := by simp
      keys := by simp
      linked := by simp
      bound := by simp
      capNone := by simp
      lt := by simp
      foreign := by simp
      lastLt := by simp
      extDisj := by simp
      extLt := hr.awf.extLt }

theorem setObs_sim {f : Obs → Obs} :
    RSim (fun _ => True) (Impl.setSelf (K := K) (V := V) fun c => { c with obs := f c.obs })
      (Mid.setSelf fun c => { c with obs := f c.obs }) (fun _ _ => True) := by
  intro s t hr hp
  refine ⟨rfl, ⟨?_, hr.g, ?_⟩, trivial⟩
  · exact { order := hr.rep.order, map := hr.rep.map, last := hr.rep.last, cap := hr.rep.cap,
            kind := hr.rep.kind, obs := congrArg f hr.rep.obs }
  · exact { hr.awf with }

/-- Changing values only. -/
theorem AWF.mapVals {a : MCache K V} {g : Shared K V} (w : AWF a g) {f : Ent K V → Ent K V}
    (hid : ∀ e, (f e).id = e.id) (hslot : ∀ e, (f e).slot = e.slot) (hkey : ∀ e, (f e).key = e.key)
    (hord : ∀ e, (f e).ord = e.ord) : AWF { a with ents := a.ents.map f } g := by
  have h1 : (a.ents.map f).map (·.id) = a.ents.map (·.id) := by
    simp [List.map_map, Function.comp_def, hid]
  have h2 : (a.ents.map f).map (·.slot) = a.ents.map (·.slot) := by
    simp [List.map_map, Function.comp_def, hslot]
  exact {
    ids := by rw [h1]; exact w.ids
    slots := by rw [h2]; exact w.slots
    keys := by
      simp only [List.pairwise_map, hkey]
      exact w.keys
    linked := by
      intro e he q hq hm
      obtain ⟨e', he', rfl⟩ := List.mem_map.1 he
      rw [hord] at hq
      rw [hslot]
      exact w.linked e' he' q hq (h2 ▸ hm)
    bound := by simpa using w.bound
    capNone := by simpa using w.capNone
    lt := by
      intro e he
      obtain ⟨e', he', rfl⟩ := List.mem_map.1 he
      rw [hid, hslot, hord]
      exact w.lt e' he'
    foreign := by
      intro p' n q k1 k2 k3 k4 k5
      rw [h1] at k2
      rw [h2]
      exact w.foreign p' n q k1 k2 k3 k4 k5
    lastLt := w.lastLt
    extDisj := by
      intro e he
      obtain ⟨e', he', rfl⟩ := List.mem_map.1 he
      rw [hid]
      exact w.extDisj e' he'
    extLt := w.extLt }

/-- Assign the value of the entry with address `p`. -/
def Ent.setVal (p : Ptr) (f : V → V) (e : Ent K V) : Ent K V := if e.id = p then { e with val := f e.val } else e

theorem Ent.setVal_id (p : Ptr) (f : V → V) (e : Ent K V) : (e.setVal p f).id = e.id := by
  unfold Ent.setVal; split <;> rfl
theorem Ent.setVal_slot (p : Ptr) (f : V → V) (e : Ent K V) : (e.setVal p f).slot = e.slot := by
  unfold Ent.setVal; split <;> rfl
theorem Ent.setVal_key (p : Ptr) (f : V → V) (e : Ent K V) : (e.setVal p f).key = e.key := by
  unfold Ent.setVal; split <;> rfl
theorem Ent.setVal_ord (p : Ptr) (f : V → V) (e : Ent K V) : (e.setVal p f).ord = e.ord := by
  unfold Ent.setVal; split <;> rfl
theorem Ent.setVal_time (p : Ptr) (f : V → V) (e : Ent K V) : (e.setVal p f).time = e.time := by
  unfold Ent.setVal; split <;> rfl
theorem Ent.setVal_lnode (p : Ptr) (f : V → V) (e : Ent K V) : (e.setVal p f).lnode = e.lnode := by
  unfold Ent.setVal; split <;> rfl

theorem tearValue_sim {p : Ptr} {f : V → V} {Q : Ptr} :
    RSim (fun t => Own Q t.c) (Impl.tearValue (K := K) p f) (Mid.tearValue p f)
      (fun _ t => Own Q t.c) := by
  intro s t hr hp
  have hnode : ∀ e : Ent K V,
      (fun m : MapNode K V => if m.addr = p then { m with info := { m.info with value := f m.info.value } } else m) e.node
      = (e.setVal p f).node := by
    intro e
    unfold Ent.setVal
    by_cases h : e.id = p
    · simp [Ent.node, h]
    · simp [Ent.node, h]
  have key : Rel ⟨{ s.c with map := s.c.map.map (fun m => if m.addr = p then { m with info := { m.info with value := f m.info.value } } else m) }, s.g⟩
      ⟨{ t.c with ents := t.c.ents.map (Ent.setVal p f) }, t.g⟩ := by
    refine ⟨?_, hr.g, hr.awf.mapVals (Ent.setVal_id p f) (Ent.setVal_slot p f) (Ent.setVal_key p f) (Ent.setVal_ord p f)⟩
    refine { order := ?_, map := ?_, last := hr.rep.last, cap := hr.rep.cap, kind := hr.rep.kind, obs := hr.rep.obs }
    · simp [List.map_map, Function.comp_def, Ent.setVal_lnode, hr.rep.order]
    · refine (hr.rep.map.map _).trans ?_
      rw [List.map_map, List.map_map]
      exact .of_eq (List.map_congr_left (fun e _ => hnode e))
  refine ⟨rfl, key, ?_⟩
  obtain ⟨e, he, hq⟩ := hp
  exact ⟨_, List.mem_map.2 ⟨e, he, rfl⟩, by rw [← hq]; exact Ent.setVal_id p f e⟩

theorem assignValue_sim {p : Ptr} {v : V} {Q : Ptr} :
    RSim (fun t => Own Q t.c) (Impl.assignValue (K := K) p v) (Mid.assignValue p v) (fun _ t => Own Q t.c) :=
  tearValue_sim (f := fun _ => v)

end prims

end LRU
