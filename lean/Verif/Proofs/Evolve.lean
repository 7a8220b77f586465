import Verif.Proofs.Elem
/-!
# How entries evolve

Every call keeps address, list position, key and insertion time of the entries it does not remove; new entries have
fresh addresses, and in timed caches a time stamp that is a clock reading made during the call.
-/

set_option linter.unusedSectionVars false
set_option autoImplicit false

namespace LRU

variable {K V : Type} [KeyEqual K]

/-- `time` is what a cache of this kind stores when it reads the clock for the `n`-th, …, `(n' - 1)`-th time. -/
def Stamped (O : Oracle K V) (kind : Kind) (n n' : Nat) (time : Int) : Prop :=
  match kind with
  | .basic => time = 0
  | .timed .. => ∃ m, n ≤ m ∧ m < n' ∧ time = O.clock m

/-- The same entry, possibly with another value. -/
structure SameEnt (y x : Ent K V) : Prop where
  id : y.id = x.id
  slot : y.slot = x.slot
  key : y.key = x.key
  time : y.time = x.time

structure Evolves (O : Oracle K V) (t t' : St (MCache K V) K V) : Prop where
  kind : t'.c.kind = t.c.kind
  ticks : t.g.ticks ≤ t'.g.ticks
  next : t.g.next ≤ t'.g.next
  ents : ∀ x ∈ t'.c.ents, (∃ y ∈ t.c.ents, SameEnt y x) ∨
    (t.g.next ≤ x.id ∧ Stamped O t.c.kind t.g.ticks t'.g.ticks x.time)

theorem Stamped.mono {O : Oracle K V} {kind : Kind} {n n' m m' : Nat} {time : Int} (h : Stamped O kind n n' time)
    (h1 : m ≤ n) (h2 : n' ≤ m') : Stamped O kind m m' time := by
  cases kind with
  | basic => exact h
  | timed ttl res =>
    obtain ⟨i, h3, h4, h5⟩ := h
    exact ⟨i, by omega, by omega, h5⟩

theorem SameEnt.refl (x : Ent K V) : SameEnt x x := ⟨rfl, rfl, rfl, rfl⟩

theorem SameEnt.trans {x y z : Ent K V} (h : SameEnt x y) (h' : SameEnt y z) : SameEnt x z :=
  ⟨h.id.trans h'.id, h.slot.trans h'.slot, h.key.trans h'.key, h.time.trans h'.time⟩

theorem Evolves.trans {O : Oracle K V} {t t' t'' : St (MCache K V) K V} (h : Evolves O t t') (h' : Evolves O t' t'') :
    Evolves O t t'' where
  kind := h'.kind.trans h.kind
  ticks := Nat.le_trans h.ticks h'.ticks
  next := Nat.le_trans h.next h'.next
  ents x hx := by
    rcases h'.ents x hx with ⟨y, hy, hyx⟩ | ⟨h1, h2⟩
    · rcases h.ents y hy with ⟨z, hz, hzy⟩ | ⟨h3, h4⟩
      · exact .inl ⟨z, hz, hzy.trans hyx⟩
      · exact .inr ⟨hyx.id ▸ h3, hyx.time ▸ h4.mono (Nat.le_refl _) h'.ticks⟩
    · rw [h.kind] at h2
      exact .inr ⟨Nat.le_trans h.next h1, h2.mono h.ticks (Nat.le_refl _)⟩

theorem stamp_stamped (O : Oracle K V) (kind : Kind) (n n' : Nat) (h : n' = n + kind.reads) :
    Stamped O kind n n' (kind.stamp (O.clock n)) := by
  subst h
  cases kind with
  | basic => rfl
  | timed ttl res => exact ⟨n, Nat.le_refl _, Nat.lt_succ_self _, rfl⟩

theorem mem_toEnd_old {e x : Ent K V} {l : List (Ent K V)} (he : e ∈ l) (hx : x ∈ toEnd e l) : x ∈ l := by
  rcases List.mem_append.1 hx with h | h
  · exact (List.mem_filter.1 h).1
  · rw [List.mem_singleton.1 h]; exact he

section

variable [DecidableEq K] {O : Oracle K V}

theorem Evolves.of_subset {t t' : St (MCache K V) K V} (hk : t'.c.kind = t.c.kind) (hg : Tame t.g t'.g)
    (h : ∀ x ∈ t'.c.ents, x ∈ t.c.ents) : Evolves O t t' :=
  ⟨hk, hg.ticks, hg.next, fun x hx => .inl ⟨x, h x hx, SameEnt.refl x⟩⟩

theorem evolves_elem : Elem O (Evolves O) where
  trans := Evolves.trans
  shared _ hg := .of_subset rfl hg fun _ h => h
  touch _ he hg := .of_subset rfl hg fun _ h => mem_toEnd_old he h
  prune _ hl := .of_subset rfl (Tame.refl _) fun _ h => hl.subset h
  insert := by
    intro t k v o h ho
    cases ho with
    | unset _ => trivial
    | zero _ => exact .of_subset rfl (Tame.refl _) fun _ h => h
    | fault g' _ _ _ _ q => exact .of_subset rfl q.tame fun _ h => h
    | full g' e r n hf hc hl hr q hlt hx =>
      refine ⟨rfl, q.ticks, q.next, fun x hx' => ?_⟩
      rcases List.mem_append.1 hx' with hx' | hx'
      · exact .inl ⟨x, by rw [hl]; exact List.mem_cons_of_mem _ hx', SameEnt.refl x⟩
      · rw [List.mem_singleton.1 hx']
        exact .inr ⟨Nat.le_refl _, stamp_stamped _ _ _ _ hx.2⟩
    | room g' n q hf hc hl qu h1 h2 hx =>
      refine ⟨rfl, qu.ticks, qu.next, fun x hx' => ?_⟩
      rcases List.mem_append.1 hx' with hx' | hx'
      · exact .inl ⟨x, hx', SameEnt.refl x⟩
      · rw [List.mem_singleton.1 hx']
        exact .inr ⟨Nat.le_refl _, stamp_stamped _ _ _ _ hx.2.2⟩
    | update g' e n hf hc q =>
      refine ⟨rfl, q.ticks, q.next, fun x hx' => ?_⟩
      rcases List.mem_append.1 hx' with hx' | hx'
      · exact .inl ⟨x, (without_sublist e _).subset hx', SameEnt.refl x⟩
      · rw [List.mem_singleton.1 hx']
        exact .inl ⟨e, (find_mem hf).1, ⟨rfl, rfl, rfl, rfl⟩⟩
    | updateFault g' e m n hf hc q =>
      refine ⟨rfl, q.ticks, q.next, fun x hx' => ?_⟩
      rcases List.mem_append.1 hx' with hx' | hx'
      · exact .inl ⟨x, (without_sublist e _).subset hx', SameEnt.refl x⟩
      · rw [List.mem_singleton.1 hx']
        exact .inl ⟨e, (find_mem hf).1, ⟨rfl, rfl, rfl, rfl⟩⟩
  cap _ _ := .of_subset rfl (Tame.refl _) fun _ h => h
  obs _ hg := .of_subset rfl hg fun _ h => h
  setVal {t p f} _ := by
    refine ⟨rfl, Nat.le_refl _, Nat.le_refl _, fun x hx => ?_⟩
    obtain ⟨y, hy, rfl⟩ := List.mem_map.1 hx
    refine .inl ⟨y, hy, ⟨(Ent.setVal_id ..).symm, (Ent.setVal_slot ..).symm, (Ent.setVal_key ..).symm, ?_⟩⟩
    unfold Ent.setVal
    split <;> rfl

/-- Every time stamp is a reading of the clock made in the past (0 in plain caches). -/
def AllStamped (O : Oracle K V) (c : Cache K V) (n : Nat) : Prop :=
  ∀ x ∈ c.map, Stamped O c.kind 0 n x.info.time

theorem sameBase_stamped {kind kind' : Kind} (h : Impl.sameBase kind kind' = true) {n n' : Nat} {time : Int}
    (hs : Stamped O kind' n n' time) : Stamped O kind n n' time := by
  cases kind <;> cases kind' <;> first | exact hs | cases h

theorem stamped_inv : CacheInv O (AllStamped O)
    (fun t => ∀ x ∈ t.c.ents, Stamped O t.c.kind 0 t.g.ticks x.time) where
  rel {s t} hr := by
    unfold AllStamped
    rw [hr.rep.kind, hr.g]
    constructor
    · intro h x hx
      exact h x.node (hr.rep.map.mem_iff.2 (List.mem_map.2 ⟨x, hx, rfl⟩))
    · intro h x hx
      obtain ⟨e, he, rfl⟩ := List.mem_map.1 (hr.rep.map.mem_iff.1 hx)
      exact h e he
  elem := by
    have key : ∀ {t t' : St (MCache K V) K V}, Evolves O t t' →
        (∀ x ∈ t.c.ents, Stamped O t.c.kind 0 t.g.ticks x.time) →
        ∀ x ∈ t'.c.ents, Stamped O t'.c.kind 0 t'.g.ticks x.time := by
      intro t t' h h0 x hx
      rw [h.kind]
      rcases h.ents x hx with ⟨y, hy, hyx⟩ | ⟨_, h2⟩
      · exact hyx.time ▸ (h0 y hy).mono (Nat.le_refl _) h.ticks
      · exact h2.mono (Nat.zero_le _) (Nat.le_refl _)
    refine ⟨fun h h' x => h' (h x), fun h hg => key (evolves_elem.shared h hg), fun h he hg => key (evolves_elem.touch h he hg),
      fun h hl => key (evolves_elem.prune h hl), fun h ho => (evolves_elem.insert h ho).imp fun _ => key,
      fun h hn => key (evolves_elem.cap h hn), fun h hg => key (evolves_elem.obs h hg), fun h => key (evolves_elem.setVal h)⟩
  empty h _ _ := by intro x hx; rw [h] at hx; cases hx
  mono h hn x hx := (h x hx).mono (Nat.le_refl _) hn
  congr h hm _ _ hk := by
    intro x hx
    rw [hm] at hx
    exact sameBase_stamped hk (h x hx)

end

end LRU
