import Verif.Props.Iterators
import Verif.Proofs.ReenterCalls
import Verif.Spec.IterObjects
/-!
# Invariants of programs with iterator objects
-/

set_option linter.unusedSectionVars false
set_option linter.unusedVariables false
set_option autoImplicit false

namespace LRU

variable {K V : Type} [KeyEqual K] [DecidableEq K] [DecidableEq V] {O : Oracle K V} {heap : Bool}

/-! ### Member functions that leave the state alone -/

/-- The body does not change the state. -/
def Idle {σ α : Type} (m : M σ α) : Prop :=
  ∀ s, match m s with
    | .ok _ s' => s' = s
    | .throw _ s' => s' = s
    | _ => True

section idle

variable {σ α β : Type} {m : M σ α} {f : α → M σ β}

theorem Idle.pure {a : α} : Idle (pure a : M σ α) := fun _ => rfl
theorem Idle.throw {e : Err} : Idle (M.throw e : M σ α) := fun _ => rfl
theorem Idle.ub : Idle (M.ub : M σ α) := fun _ => trivial

theorem Idle.bind (h : Idle m) (hf : ∀ a, Idle (f a)) : Idle (m >>= f) := by
  intro s
  show match M.bind m f s with
    | .ok _ s' => s' = s
    | .throw _ s' => s' = s
    | _ => True
  unfold M.bind
  have := h s
  cases hm : m s with
  | ok a s' =>
    rw [hm] at this
    simp only at this ⊢
    subst this
    exact hf a s'
  | throw e s' => rw [hm] at this; exact this
  | ub => trivial
  | terminate => trivial
  | diverge => trivial

theorem Idle.noexcept (h : Idle m) : Idle (M.noexcept m) := by
  intro s
  unfold M.noexcept
  have := h s
  cases hm : m s with
  | ok a s' => rw [hm] at this; exact this
  | throw e s' => trivial
  | ub => trivial
  | terminate => trivial
  | diverge => trivial

theorem Idle.ok (h : Idle m) {s s' : σ} {a : α} (hm : m s = .ok a s') : s' = s := by
  have := h s
  rw [hm] at this
  exact this

end idle

theorem derefIt_idle {p : Option Ptr} : Idle (Impl.derefIt p : Impl.CM K V _) := by
  intro s
  cases p with
  | none => trivial
  | some p =>
    unfold Impl.derefIt
    dsimp only
    cases s.c.map.find? (fun n => n.addr == p) with
    | none => trivial
    | some n => rfl

theorem derefOrder_idle {p : Ptr} : Idle (Impl.derefOrder p : Impl.CM K V _) := by
  intro s
  unfold Impl.derefOrder
  cases s.c.order.find? (fun n => n.addr == p) with
  | none => trivial
  | some n => rfl

theorem deref_idle {p : Ptr} : Idle (Impl.deref p : Impl.CM K V _) := by
  intro s
  unfold Impl.deref
  cases s.c.map.find? (fun n => n.addr == p) with
  | none =>
    cases s.g.ext.find? (fun n => n.addr == p) with
    | none => trivial
    | some n => rfl
  | some n => rfl

theorem mapFind_idle {k : K} : Idle (Impl.mapFind k : Impl.CM K V _) := fun _ => rfl

theorem keyAt_idle {p : Option Ptr} : Idle (Impl.keyAt p : Impl.CM K V _) := by
  cases p with
  | none => exact .ub
  | some p => exact derefOrder_idle.bind fun l => deref_idle.bind fun n => .pure

theorem oLookup_idle {p : Option Ptr} : Idle (Impl.oLookup p : Impl.CM K V _) :=
  keyAt_idle.bind fun k => mapFind_idle.bind fun o => by cases o with
    | none => exact .ub
    | some n => exact .pure

theorem toOrdered_idle {it : Impl.UIt} : Idle (Impl.toOrdered it : Impl.CM K V _) := by
  unfold Impl.toOrdered
  split
  · exact .throw
  · refine derefIt_idle.bind fun n => ?_
    split
    · exact .ub
    · exact .pure

theorem oNext_idle {it : Impl.OIt} : Idle (Impl.oNext it : Impl.CM K V _) := by
  refine Idle.bind (fun _ => rfl) fun as => ?_
  split
  · exact .ub
  · split
    · exact .ub
    · exact .pure

theorem uNext_idle {it : Impl.UIt} : Idle (Impl.uNext it : Impl.CM K V _) := by
  refine Idle.bind (fun _ => rfl) fun as => ?_
  split
  · exact .ub
  · split
    · exact .ub
    · exact .pure

theorem oPrev_idle {it : Impl.OIt} : Idle (Impl.oPrev it : Impl.CM K V _) := by
  refine Idle.bind (fun _ => rfl) fun as => ?_
  split
  · split
    · exact .ub
    · exact .pure
  · split
    · exact .pure
    · exact .ub

theorem oBegin_idle : Idle (Impl.oBegin : Impl.CM K V _) := fun _ => rfl
theorem uBegin_idle : Idle (Impl.uBegin : Impl.CM K V _) := fun _ => rfl

theorem eqOU_idle {o : Impl.OIt} {u : Impl.UIt} : Idle (Impl.eqOU o u : Impl.CM K V _) := by
  unfold Impl.eqOU
  refine Idle.noexcept ?_
  split
  · exact .pure
  · exact toOrdered_idle.bind fun _ => .pure

/-! ### Member functions that amount to calls -/

/-- Running the body is like making calls. -/
def Callish (O : Oracle K V) {α : Type} (m : Impl.CM K V α) : Prop :=
  ∀ s, match m s with
    | .ok _ s' => ∃ h, History O s h s'
    | .throw _ s' => ∃ h, History O s h s'
    | _ => True

theorem Idle.callish {α : Type} {m : Impl.CM K V α} (h : Idle m) : Callish O m := by
  intro s
  have := h s
  cases hm : m s with
  | ok a s' => rw [hm] at this; exact this ▸ ⟨[], .nil⟩
  | throw e s' => rw [hm] at this; exact this ▸ ⟨[], .nil⟩
  | ub => trivial
  | terminate => trivial
  | diverge => trivial

theorem step_callish (op : Op K V) : Callish O (Impl.step O op) := by
  intro s
  cases hm : Impl.step O op s with
  | ok a s' => exact ⟨_, .ok .nil hm⟩
  | throw e s' => exact ⟨_, .throw .nil hm⟩
  | ub => trivial
  | terminate => trivial
  | diverge => trivial

/-- A body is callish if it always ends in the same state as some call. -/
theorem callish_of {α : Type} {m : Impl.CM K V α} (op : Op K V) (f : α → Res K V) (h : Impl.step O op = Impl.ret m f) :
    Callish O m := by
  intro s
  have := step_callish (O := O) op s
  rw [h] at this
  unfold Impl.ret at this
  cases hm : m s with
  | ok a s' => rw [bind_ok hm] at this; exact this
  | throw e s' => rw [bind_throw hm] at this; exact this
  | ub => trivial
  | terminate => trivial
  | diverge => trivial

theorem throwIfInvalidO_callish {p : Option Ptr} : Callish O (Impl.throwIfInvalidO O p) := by
  intro s
  cases p with
  | none => exact ⟨[], .nil⟩
  | some p =>
    unfold Impl.throwIfInvalidO
    dsimp only
    rw [bind_ok (m := Impl.getKind) (s := s) rfl]
    cases s.c.kind with
    | basic => exact ⟨[], .nil⟩
    | timed ttl res =>
      dsimp only
      have hc := callish_of (O := O) (.hasExpiredO (some p)) .bool rfl s
      cases hm : Impl.hasExpiredO O (some p) s with
      | ok b s' =>
        rw [bind_ok hm]
        rw [hm] at hc
        cases b with
        | true => exact hc
        | false => exact hc
      | throw e s' => rw [bind_throw hm]; rw [hm] at hc; exact hc
      | ub => rw [bind_ub hm]; trivial
      | terminate => rw [bind_terminate hm]; trivial
      | diverge => rw [bind_diverge hm]; trivial

theorem throwIfInvalidU_callish {p : Option Ptr} : Callish O (Impl.throwIfInvalidU O p) := by
  intro s
  cases p with
  | none => exact ⟨[], .nil⟩
  | some p =>
    unfold Impl.throwIfInvalidU
    dsimp only
    rw [bind_ok (m := Impl.getKind) (s := s) rfl]
    cases s.c.kind with
    | basic => exact ⟨[], .nil⟩
    | timed ttl res =>
      dsimp only
      have hc := callish_of (O := O) (.hasExpiredU (some p)) .bool rfl s
      unfold Impl.hasExpiredU at hc
      dsimp only at hc
      rw [← bind_bind]
      cases hm : (Impl.derefIt (some p) >>= fun n => Impl.hasExpiredInfo O n.info.time) s with
      | ok b s' =>
        rw [bind_ok hm]
        rw [hm] at hc
        cases b with
        | true => exact hc
        | false => exact hc
      | throw e s' => rw [bind_throw hm]; rw [hm] at hc; exact hc
      | ub => rw [bind_ub hm]; trivial
      | terminate => rw [bind_terminate hm]; trivial
      | diverge => rw [bind_diverge hm]; trivial

theorem oKey_callish {p : Option Ptr} : Callish O (Impl.oKey O { pos := p }) := callish_of (.oKey p) .key rfl

theorem write_callish {p : Ptr} {v : V} : Callish O (Impl.write p v : Impl.CM K V Unit) :=
  callish_of (.write p v) (fun _ => .unit) rfl

/-! ### Entries -/

/-- The stored entry is that of the position, as long as it refers to an entry of the cache. -/
def EntryOK (s : St (Cache K V) K V) (it : It) : Prop :=
  ∀ p, it.entry = some p → p < s.g.next ∧
    if it.ordered then ∀ x ∈ elements s.c, x.addr = p → it.Denotes s.c x else it.pos = some (some p)

theorem EntryOK.none {s : St (Cache K V) K V} {it : It} (h : it.entry = none) : EntryOK s it := by
  intro p hp
  rw [h] at hp
  cases hp

theorem EntryOK.history (hO : NoListFault O) {s s' : St (Cache K V) K V} {h : List (Call K V)} (hs : Reachable O s)
    (hh : History O s h s') {it : It} (hi : EntryOK s it) : EntryOK s' it := by
  intro p hp
  obtain ⟨h1, h2⟩ := hi p hp
  refine ⟨Nat.lt_of_lt_of_le h1 (hh.grown hO hs).next, ?_⟩
  cases ho : it.ordered with
  | false => rw [ho] at h2; exact h2
  | true =>
    rw [ho, if_pos rfl] at h2
    rw [if_pos rfl]
    intro x hx hxp
    obtain ⟨q', hq'⟩ := (hh.reachable hO hs).at_of_mem hO hx
    rcases (hh.grown hO hs).at_ q' x hq' with ⟨z, hz, h3, _, _⟩ | h3
    · obtain ⟨q, h4, h5⟩ := h2 z hz.1 (h3.trans hxp)
      rw [ho, if_pos rfl] at h5
      refine ⟨q, h4, ?_⟩
      rw [ho, if_pos rfl]
      exact (C34_iterators_stay_valid hO hs hh h5 hx h3.symm).1
    · rw [hxp] at h3
      exact absurd (Nat.lt_of_lt_of_le h1 h3) (Nat.lt_irrefl _)

/-- As long as the entry at `a` is in the cache, the object `k` denotes it, and its stored entry, if any, is this one. -/
def Track (k : Nat) (a : Ptr) (t : ISt K V) : Prop :=
  a < t.s.g.next ∧ ∀ z ∈ elements t.s.c, z.addr = a →
    (t.its k).Denotes t.s.c z ∧ ((t.its k).entry = none ∨ (t.its k).entry = some a)

/-- Two entries of the cache cannot be at the same list node. -/
theorem Reachable.at_inj (hO : NoListFault O) {s : St (Cache K V) K V} (hs : Reachable O s) {q : Ptr} {x y : MapNode K V}
    (hx : At s.c q x) (hy : At s.c q y) : x = y := by
  obtain ⟨t, hr, ht⟩ := hs.rel hO
  obtain ⟨a, ha, rfl, rfl⟩ := (hr.at_iff ht).1 hx
  obtain ⟨b, hb, rfl, h⟩ := (hr.at_iff ht).1 hy
  rw [map_inj_of_nodup ht.awf.slots a ha b hb h.symm]

theorem Reachable.at_place (hO : NoListFault O) {s : St (Cache K V) K V} (hs : Reachable O s) {p q : Ptr} {x : MapNode K V}
    (hp : At s.c p x) (hq : At s.c q x) : p = q := by
  obtain ⟨t, hr, ht⟩ := hs.rel hO
  obtain ⟨a, ha, h1, rfl⟩ := (hr.at_iff ht).1 hp
  obtain ⟨b, hb, h2, rfl⟩ := (hr.at_iff ht).1 hq
  have h3 : a.id = b.id := congrArg MapNode.addr (h1.trans h2.symm)
  rw [map_inj_of_nodup ht.awf.ids a ha b hb h3]

theorem Reachable.denotes_inj (hO : NoListFault O) {s : St (Cache K V) K V} (hs : Reachable O s) {it : It}
    {x y : MapNode K V} (hx : it.Denotes s.c x) (hy : it.Denotes s.c y) : x = y := by
  obtain ⟨p, h1, h2⟩ := hx
  obtain ⟨q, h3, h4⟩ := hy
  rw [h1] at h3
  injection h3 with h3
  injection h3 with h3
  subst h3
  cases ho : it.ordered with
  | true =>
    rw [ho, if_pos rfl] at h2 h4
    exact hs.at_inj hO h2 h4
  | false =>
    rw [ho, if_neg (by simp)] at h2 h4
    exact hs.addr_inj hO h2.1 h4.1 (h2.2.trans h4.2.symm)

theorem Denotes.history (hO : NoListFault O) {s s' : St (Cache K V) K V} {h : List (Call K V)} (hs : Reachable O s)
    (hh : History O s h s') {it : It} {x y : MapNode K V} (hx : it.Denotes s.c x) (hy : y ∈ elements s'.c)
    (ha : y.addr = x.addr) : it.Denotes s'.c y ∧ y.key = x.key := by
  obtain ⟨p, h1, h2⟩ := hx
  cases ho : it.ordered with
  | true =>
    rw [ho, if_pos rfl] at h2
    obtain ⟨h3, h4⟩ := C34_iterators_stay_valid hO hs hh h2 hy ha
    refine ⟨⟨p, h1, ?_⟩, h4⟩
    rw [ho, if_pos rfl]
    exact h3
  | false =>
    rw [ho, if_neg (by simp)] at h2
    obtain ⟨q, hq⟩ := hs.at_of_mem hO h2.1
    refine ⟨⟨p, h1, ?_⟩, (C34_iterators_stay_valid hO hs hh hq hy ha).2⟩
    rw [ho, if_neg (by simp)]
    exact ⟨hy, ha.trans h2.2⟩

/-- Entries with an old address have been there. -/
theorem History.was_there (hO : NoListFault O) {s s' : St (Cache K V) K V} {h : List (Call K V)} (hs : Reachable O s)
    (hh : History O s h s') {y : MapNode K V} (hy : y ∈ elements s'.c) (hn : y.addr < s.g.next) :
    ∃ x ∈ elements s.c, x.addr = y.addr := by
  obtain ⟨q, hq⟩ := (hh.reachable hO hs).at_of_mem hO hy
  rcases (hh.grown hO hs).at_ q y hq with ⟨z, hz, h3, _, _⟩ | h3
  · exact ⟨z, hz.1, h3⟩
  · exact absurd (Nat.lt_of_lt_of_le hn h3) (Nat.lt_irrefl _)

theorem Track.history (hO : NoListFault O) {t : ISt K V} {s' : St (Cache K V) K V} {h : List (Call K V)}
    (hs : Reachable O t.s) (hh : History O t.s h s') {k : Nat} {a : Ptr} (ht : Track k a t) : Track k a ⟨s', t.its⟩ := by
  refine ⟨Nat.lt_of_lt_of_le ht.1 (hh.grown hO hs).next, fun z hz ha => ?_⟩
  obtain ⟨x, hx, h1⟩ := hh.was_there hO hs hz (ha ▸ ht.1)
  have := ht.2 x hx (h1.trans ha)
  exact ⟨(Denotes.history hO hs hh this.1 hz h1.symm).1, this.2⟩

/-- What every program state satisfies. -/
structure IGood (O : Oracle K V) (t : ISt K V) : Prop where
  reach : Reachable O t.s
  ents : ∀ i, EntryOK t.s (t.its i)

/-- What a step does: the cache sees calls, objects outside `S` stay where they are. -/
structure IStep (O : Oracle K V) (S : List Nat) (t t' : ISt K V) : Prop where
  good : IGood O t'
  hist : ∃ h, History O t.s h t'.s
  same : ∀ k, k ∉ S → (t'.its k).pos = (t.its k).pos ∧ (t'.its k).ordered = (t.its k).ordered
  track : ∀ k, k ∉ S → ∀ a, Track k a t → Track k a t'

theorem IStep.refl {S : List Nat} {t : ISt K V} (h : IGood O t) : IStep O S t t := ⟨h, ⟨[], .nil⟩, fun _ _ => ⟨rfl, rfl⟩, fun _ _ _ h => h⟩

theorem History.trans {s s' s'' : St (Cache K V) K V} {h h' : List (Call K V)} (a : History O s h s')
    (b : History O s' h' s'') : History O s (h' ++ h) s'' := by
  induction b with
  | nil => exact a
  | ok _ hd ih => exact .ok ih hd
  | throw _ hd ih => exact .throw ih hd
  | elsewhere _ he ih => exact .elsewhere ih he

theorem IStep.trans {S : List Nat} {t t' t'' : ISt K V} (h : IStep O S t t') (h' : IStep O S t' t'') : IStep O S t t'' where
  good := h'.good
  hist := by
    obtain ⟨a, ha⟩ := h.hist
    obtain ⟨b, hb⟩ := h'.hist
    exact ⟨_, ha.trans hb⟩
  same k hk := ⟨(h'.same k hk).1.trans (h.same k hk).1, (h'.same k hk).2.trans (h.same k hk).2⟩
  track k hk a ha := h'.track k hk a (h.track k hk a ha)

theorem IGood.after (hO : NoListFault O) {t : ISt K V} (h : IGood O t) {s' : St (Cache K V) K V} {l : List (Call K V)}
    (hh : History O t.s l s') : IGood O ⟨s', t.its⟩ :=
  ⟨hh.reachable hO h.reach, fun i => (h.ents i).history hO h.reach hh⟩

/-- Started in a good state satisfying `P`, the body makes a step; when it returns, `Q` holds. -/
def IHoare (O : Oracle K V) (S : List Nat) {α : Type} (P : ISt K V → Prop) (m : Impl.IM K V α)
    (Q : α → ISt K V → Prop) : Prop :=
  ∀ t, IGood O t → P t → match m t with
    | .ok a t' => IStep O S t t' ∧ Q a t'
    | .throw _ t' => IStep O S t t'
    | _ => True

section hoare

variable {S : List Nat} {α β : Type} {P : ISt K V → Prop} {m : Impl.IM K V α} {f : α → Impl.IM K V β}
  {Q : α → ISt K V → Prop} {R : β → ISt K V → Prop}

theorem IHoare.pure {a : α} : IHoare O S P (Pure.pure a : Impl.IM K V α) (fun b t => b = a ∧ P t) :=
  fun t hg hp => ⟨.refl hg, rfl, hp⟩

theorem IHoare.ub : IHoare O S P (M.ub : Impl.IM K V α) Q := fun _ _ _ => trivial

theorem IHoare.bind (h : IHoare O S P m Q) (hf : ∀ a, IHoare O S (Q a) (f a) R) : IHoare O S P (m >>= f) R := by
  intro t hg hp
  have h1 := h t hg hp
  cases hm : m t with
  | ok a t' =>
    rw [hm] at h1
    rw [bind_ok hm]
    have h2 := hf a t' h1.1.good h1.2
    cases hf' : f a t' with
    | ok b t'' => rw [hf'] at h2; exact ⟨h1.1.trans h2.1, h2.2⟩
    | throw e t'' => rw [hf'] at h2; exact h1.1.trans h2
    | ub => trivial
    | terminate => trivial
    | diverge => trivial
  | throw e t' => rw [hm] at h1; rw [bind_throw hm]; exact h1
  | ub => rw [bind_ub hm]; trivial
  | terminate => rw [bind_terminate hm]; trivial
  | diverge => rw [bind_diverge hm]; trivial

theorem IHoare.post {Q' : α → ISt K V → Prop} (h : IHoare O S P m Q) (hq : ∀ a t, IGood O t → Q a t → Q' a t) :
    IHoare O S P m Q' := by
  intro t hg hp
  have h1 := h t hg hp
  cases hm : m t with
  | ok a t' => rw [hm] at h1; exact ⟨h1.1, hq a t' h1.1.good h1.2⟩
  | throw e t' => rw [hm] at h1; exact h1
  | ub => trivial
  | terminate => trivial
  | diverge => trivial

theorem IHoare.any (h : IHoare O S P m Q) : IHoare O S P m (fun _ _ => True) := h.post fun _ _ _ _ => trivial

theorem IHoare.pre {P' : ISt K V → Prop} (h : IHoare O S P m Q) (hp : ∀ t, IGood O t → P' t → P t) : IHoare O S P' m Q :=
  fun t hg h' => h t hg (hp t hg h')

theorem IHoare.ret {g : α → Res K V} (h : IHoare O S P m Q) : IHoare O S P (Impl.ret m g) (fun _ _ => True) :=
  h.bind fun _ => IHoare.pure.any

theorem IHoare.noexcept (h : IHoare O S P m Q) : IHoare O S P (M.noexcept m) Q := by
  intro t hg hp
  have h1 := h t hg hp
  unfold M.noexcept
  cases hm : m t with
  | ok a t' => rw [hm] at h1; exact h1
  | throw e t' => trivial
  | ub => trivial
  | terminate => trivial
  | diverge => trivial

theorem getIt_h {i : Nat} : IHoare O S P (Impl.getIt i) (fun it t => P t ∧ t.its i = it) :=
  fun t hg hp => ⟨.refl hg, hp, rfl⟩

theorem posOf_h {it : It} : IHoare O S P (Impl.posOf it) (fun p t => P t ∧ it.pos = some p) := by
  unfold Impl.posOf
  split
  · exact .ub
  · rename_i p hp
    exact fun t hg h => ⟨.refl hg, h, hp⟩

theorem setIt_h {i : Nat} {it : It} (he : ∀ t, IGood O t → P t → EntryOK t.s it)
    (hs : i ∈ S ∨ ∀ t, IGood O t → P t → (t.its i).pos = it.pos ∧ (t.its i).ordered = it.ordered ∧
      (it.entry = none ∨ it.entry = (t.its i).entry ∨
        ∀ z, (t.its i).Denotes t.s.c z → it.entry = some z.addr)) :
    IHoare O S P (Impl.setIt i it) (fun _ t => ∃ t', P t' ∧ IGood O t' ∧ t.s = t'.s ∧
      t.its = fun k => if k = i then it else t'.its k) := by
  intro t hg hp
  show IStep O S t { t with its := fun k => if k = i then it else t.its k } ∧ _
  refine ⟨⟨⟨hg.reach, fun k => ?_⟩, ⟨[], .nil⟩, fun k hk => ?_, fun k hk a ha => ?_⟩, t, hp, hg, rfl, rfl⟩
  · show EntryOK t.s (if k = i then it else t.its k)
    split
    · exact he t hg hp
    · exact hg.ents k
  · show (if k = i then it else t.its k).pos = _ ∧ (if k = i then it else t.its k).ordered = _
    split
    · rename_i hki
      subst hki
      rcases hs with hs | hs
      · exact absurd hs hk
      · exact ⟨(hs t hg hp).1.symm, (hs t hg hp).2.1.symm⟩
    · exact ⟨rfl, rfl⟩
  · refine ⟨ha.1, fun z hz hza => ?_⟩
    have h1 := ha.2 z hz hza
    show (if k = i then it else t.its k).Denotes t.s.c z ∧ ((if k = i then it else t.its k).entry = _ ∨
      (if k = i then it else t.its k).entry = _)
    split
    · rename_i hki
      subst hki
      rcases hs with hs | hs
      · exact absurd hs hk
      · obtain ⟨h2, h3, h4⟩ := hs t hg hp
        refine ⟨?_, ?_⟩
        · unfold It.Denotes at h1 ⊢
          rw [← h2, ← h3]
          exact h1.1
        · rcases h4 with h4 | h4 | h4
          · exact .inl h4
          · rw [h4]; exact h1.2
          · rw [h4 z h1.1, hza]; exact .inr rfl
    · exact h1

theorem onS_idle {m : Impl.CM K V α} (h : Idle m) : IHoare O S P (Impl.onS m) (fun a t => P t ∧ m t.s = .ok a t.s) := by
  intro t hg hp
  have h1 := h t.s
  unfold Impl.onS
  cases hm : m t.s with
  | ok a s' => rw [hm] at h1; simp only at h1; subst h1; exact ⟨.refl hg, hp, hm⟩
  | throw e s' => rw [hm] at h1; simp only at h1; subst h1; exact .refl hg
  | ub => trivial
  | terminate => trivial
  | diverge => trivial

theorem onS_call (hO : NoListFault O) {m : Impl.CM K V α} (h : Callish O m) :
    IHoare O S P (Impl.onS m) (fun _ t => ∃ t', P t' ∧ t.its = t'.its) := by
  intro t hg hp
  have h1 := h t.s
  unfold Impl.onS
  cases hm : m t.s with
  | ok a s' =>
    rw [hm] at h1
    obtain ⟨l, hl⟩ := h1
    exact ⟨⟨hg.after hO hl, ⟨l, hl⟩, fun _ _ => ⟨rfl, rfl⟩, fun _ _ _ h => h.history hO hg.reach hl⟩, t, hp, rfl⟩
  | throw e s' =>
    rw [hm] at h1
    obtain ⟨l, hl⟩ := h1
    exact ⟨hg.after hO hl, ⟨l, hl⟩, fun _ _ => ⟨rfl, rfl⟩, fun _ _ _ h => h.history hO hg.reach hl⟩
  | ub => trivial
  | terminate => trivial
  | diverge => trivial

end hoare

/-! ### What the materialised entry is -/

theorem derefIt_ok {p : Option Ptr} {s : St (Cache K V) K V} {n : MapNode K V} (h : Impl.derefIt p s = .ok n s) :
    p = some n.addr ∧ s.c.map.find? (fun m => m.addr == n.addr) = some n := by
  cases p with
  | none => cases h
  | some p =>
    unfold Impl.derefIt at h
    dsimp only at h
    cases hf : s.c.map.find? (fun m => m.addr == p) with
    | none => rw [hf] at h; cases h
    | some m =>
      rw [hf] at h
      injection h with h1 h2
      subst h1
      have := List.find?_some hf
      rw [beq_iff_eq] at this
      rw [this]
      exact ⟨rfl, hf⟩

/-- On a reachable cache, following a map iterator leads to an entry. -/
theorem Reachable.derefIt_mem (hO : NoListFault O) {s : St (Cache K V) K V} (hs : Reachable O s) {p : Option Ptr}
    {n : MapNode K V} (h : Impl.derefIt p s = .ok n s) : n ∈ elements s.c ∧ p = some n.addr := by
  obtain ⟨h1, h2⟩ := derefIt_ok h
  obtain ⟨t, hr, ht⟩ := hs.rel hO
  refine ⟨?_, h1⟩
  rw [hr.rep.find_addr hr.awf] at h2
  rw [hr.elements]
  obtain ⟨e, he, h3⟩ := Option.map_eq_some_iff.1 h2
  exact List.mem_map.2 ⟨e, List.mem_of_find?_eq_some he, h3⟩

/-- On a reachable cache, the lookup of a list position leads to its entry. -/
theorem Reachable.oLookup_at (hO : NoListFault O) {s : St (Cache K V) K V} (hs : Reachable O s) {p : Option Ptr}
    {a : Ptr} (h : Impl.oLookup p s = .ok a s) : ∃ q x, p = some q ∧ At s.c q x ∧ x.addr = a := by
  obtain ⟨t, hr, ht⟩ := hs.rel hO
  cases p with
  | none => cases h
  | some q =>
    have hsim := oLookup_sim (pos := some q) s t hr trivial
    rw [h] at hsim
    by_cases hq : q ∈ t.c.ents.map (·.slot)
    · obtain ⟨e, he, rfl⟩ := List.mem_map.1 hq
      rw [oLookup_own ht he] at hsim
      refine ⟨e.slot, e.node, rfl, (hr.at_iff ht).2 ⟨e, he, rfl, rfl⟩, ?_⟩
      have := hsim.1
      exact this.symm
    · rw [oLookup_not hq] at hsim
      exact hsim.elim

theorem Reachable.toOrdered_at (hO : NoListFault O) {s : St (Cache K V) K V} (hs : Reachable O s) {p : Option Ptr}
    {o : Impl.OIt} (h : Impl.toOrdered { pos := p } s = .ok o s) :
    ∃ q x, p = some x.addr ∧ o.pos = some q ∧ At s.c q x := by
  cases p with
  | none => cases h
  | some p =>
    unfold Impl.toOrdered at h
    dsimp only at h
    obtain ⟨n, s1, h1, h2⟩ := bind_ok_inv h
    have := derefIt_idle.ok h1
    subst this
    obtain ⟨h3, h4⟩ := hs.derefIt_mem hO h1
    obtain ⟨q, hq, hd⟩ := C37_conversion hO hs h3
    obtain ⟨it, h5, h6⟩ := ret_ok_inv hd
    injection h4 with h4
    injection h6 with h6
    refine ⟨q, n, by rw [h4], ?_, hq⟩
    unfold Impl.toOrdered at h5
    dsimp only at h5
    rw [← h4] at h5
    rw [bind_ok h1] at h5
    rw [h2] at h5
    injection h5 with h5
    rw [h5, ← h6]

/-! ### The operations -/

section ops

variable {S : List Nat} {P : ISt K V → Prop}

theorem materialise_h (hO : NoListFault O) {i : Nat} : IHoare O S P (Impl.materialise i) (fun _ _ => True) := by
  refine getIt_h.bind fun it => ?_
  split
  · exact IHoare.pure.any
  · rename_i hn
    refine posOf_h.bind fun p => ?_
    refine IHoare.bind (Q := fun a t => ((P t ∧ t.its i = it) ∧ it.pos = some p) ∧
      ∃ y, it.Denotes t.s.c y ∧ y.addr = a) ?_ fun a => ?_
    · cases ho : it.ordered with
      | true =>
        rw [if_pos rfl]
        refine (onS_idle oLookup_idle).post fun a t hg h => ⟨h.1, ?_⟩
        obtain ⟨q, x, h1, h2, h3⟩ := hg.reach.oLookup_at hO h.2
        refine ⟨x, ⟨q, by rw [h.1.2, h1], ?_⟩, h3⟩
        rw [if_pos ho]
        exact h2
      | false =>
        rw [if_neg (by simp)]
        refine (onS_idle (derefIt_idle.bind fun _ => .pure)).post fun a t hg h => ⟨h.1, ?_⟩
        obtain ⟨n, s1, h1, h2⟩ := bind_ok_inv h.2
        have := derefIt_idle.ok h1
        subst this
        injection h2 with h2 _
        obtain ⟨h3, h4⟩ := hg.reach.derefIt_mem hO h1
        refine ⟨n, ⟨n.addr, by rw [h.1.2, h4], ?_⟩, h2⟩
        rw [if_neg (by rw [ho]; simp)]
        exact ⟨h3, rfl⟩
    · refine (setIt_h (fun t hg h => ?_) (.inr fun t hg h => ?_)).any
      · obtain ⟨y, hy, rfl⟩ := h.2
        intro a' ha'
        injection ha' with ha'
        subst ha'
        obtain ⟨q, h1, h2⟩ := hy
        obtain ⟨u, hr, _⟩ := hg.reach.rel hO
        cases ho : it.ordered with
        | true =>
          rw [ho, if_pos rfl] at h2
          refine ⟨hr.addr_lt h2.1, ?_⟩
          rw [if_pos rfl]
          intro z hz hza
          refine ⟨q, h1, ?_⟩
          rw [if_pos rfl, hg.reach.addr_inj hO hz h2.1 hza]
          exact h2
        | false =>
          rw [ho, if_neg (by simp)] at h2
          refine ⟨hr.addr_lt h2.1, ?_⟩
          rw [if_neg (by simp), h1, h2.2]
      · rw [h.1.1.2]
        refine ⟨rfl, rfl, .inr (.inr fun z hz => ?_)⟩
        obtain ⟨y, hy, rfl⟩ := h.2
        rw [hg.reach.denotes_inj hO hz hy]

theorem entryOf_h (hO : NoListFault O) {i : Nat} : IHoare O S P (Impl.entryOf O i) (fun _ _ => True) := by
  refine getIt_h.bind fun it => ?_
  split
  · exact posOf_h.bind fun p => (onS_call hO throwIfInvalidO_callish).bind fun _ => materialise_h hO
  · exact (materialise_h hO).bind fun _ => posOf_h.bind fun p => (onS_call hO throwIfInvalidU_callish).any

theorem storedNode_h {i : Nat} : IHoare O S P (Impl.storedNode i) (fun _ _ => True) :=
  getIt_h.bind fun _ => (onS_idle derefIt_idle).any

theorem keyI_h (hO : NoListFault O) {i : Nat} : IHoare O S P (Impl.keyI O i) (fun _ _ => True) := by
  refine getIt_h.bind fun it => ?_
  split
  · exact posOf_h.bind fun p => (onS_call hO oKey_callish).any
  · exact (entryOf_h hO).bind fun _ => storedNode_h.bind fun _ => IHoare.pure.any

theorem valueI_h (hO : NoListFault O) {i : Nat} : IHoare O S P (Impl.valueI O i) (fun _ _ => True) :=
  (entryOf_h hO).bind fun _ => storedNode_h.bind fun _ => IHoare.pure.any

theorem setValueI_h (hO : NoListFault O) {i : Nat} {v : V} : IHoare O S P (Impl.setValueI O i v) (fun _ _ => True) :=
  (entryOf_h hO).bind fun _ => storedNode_h.bind fun _ => (onS_call hO write_callish).any

theorem copyI_h {i j : Nat} (hi : i ∈ S) : IHoare O S P (Impl.copyI i j) (fun _ _ => True) := by
  refine getIt_h.bind fun it => ?_
  split
  · exact IHoare.pure.any
  · exact (setIt_h (fun t hg h => .none rfl) (.inl hi)).any

theorem EntryOK.emptied {s : St (Cache K V) K V} {it : It} (h : EntryOK s it) :
    EntryOK s { it with entry := if heap then Option.none else it.entry } := by
  cases heap with
  | true => exact .none rfl
  | false => exact h

theorem moveNewI_h {i j : Nat} (hi : i ∈ S) : IHoare O S P (Impl.moveNewI heap i j) (fun _ _ => True) := by
  refine getIt_h.bind fun it => ?_
  split
  · exact IHoare.pure.any
  · refine (setIt_h (fun t hg h => ?_) (.inr fun t hg h => ?_)).bind fun _ => (setIt_h (fun t hg h => ?_) (.inl hi)).any
    · rw [← h.2]; exact (hg.ents j).emptied
    · rw [h.2]; exact ⟨rfl, rfl, by cases heap with
        | true => exact .inl rfl
        | false => exact .inr (.inl rfl)⟩
    · obtain ⟨t', ⟨_, h2⟩, hg', h3, _⟩ := h
      rw [h3, ← h2]
      exact hg'.ents j

theorem moveToI_h {i j : Nat} (hi : i ∈ S) : IHoare O S P (Impl.moveToI heap i j) (fun _ _ => True) := by
  refine getIt_h.bind fun it => ?_
  split
  · exact moveNewI_h hi
  · exact copyI_h hi

theorem swapI_h {i j : Nat} (hi : i ∈ S) (hj : j ∈ S) : IHoare O S P (Impl.swapI heap i j) (fun _ _ => True) := by
  refine getIt_h.bind fun a => getIt_h.bind fun b => ?_
  split
  · refine (setIt_h (fun t hg h => ?_) (.inl hi)).bind fun _ => (setIt_h (fun t hg h => ?_) (.inl hj)).any
    · rw [← h.2]; exact hg.ents j
    · obtain ⟨t', ⟨⟨_, h1⟩, _⟩, hg', h3, _⟩ := h
      rw [h3, ← h1]
      exact hg'.ents i
  · exact IHoare.pure.any

theorem convertI_h (hO : NoListFault O) {temporary : Bool} {i j : Nat} (hi : i ∈ S) :
    IHoare O S P (Impl.convertI heap temporary i j) (fun _ _ => True) := by
  refine getIt_h.bind fun it => ?_
  split
  · split
    · exact moveNewI_h hi
    · exact copyI_h hi
  · rename_i hord
    refine posOf_h.bind fun p => (onS_idle toOrdered_idle).bind fun o => ?_
    split
    · refine (setIt_h (fun t hg h => ?_) (.inr fun t hg h => ?_)).bind fun _ => (setIt_h (fun t hg h => ?_) (.inl hi)).any
      · rw [← h.1.1.2]; exact (hg.ents j).emptied
      · rw [h.1.1.2]; exact ⟨rfl, rfl, by cases heap with
          | true => exact .inl rfl
          | false => exact .inr (.inl rfl)⟩
      · obtain ⟨t', ⟨⟨⟨_, h2⟩, h4⟩, h5⟩, hg', h3, _⟩ := h
        rw [h3]
        obtain ⟨q, x, h6, h7, h8⟩ := hg'.reach.toOrdered_at hO h5
        intro a ha
        have h9 := hg'.ents j a (by rw [h2]; exact ha)
        refine ⟨h9.1, ?_⟩
        rw [if_pos rfl]
        rw [h2] at h9
        have h10 := h9.2
        rw [if_neg hord, h4, h6] at h10
        injection h10 with h10
        injection h10 with h10
        intro y hy hya
        refine ⟨q, by rw [h7], ?_⟩
        rw [if_pos rfl]
        rw [hg'.reach.addr_inj hO hy h8.1 (hya.trans h10.symm)]
        exact h8
    · exact (setIt_h (fun t hg h => .none rfl) (.inl hi)).any

theorem idle_ite {σ α : Type} {b : Bool} {x y : M σ α} (hx : Idle x) (hy : Idle y) : Idle (if b then x else y) := by
  cases b
  · exact hy
  · exact hx

theorem incI_h {i : Nat} (hi : i ∈ S) : IHoare O S P (Impl.incI i) (fun _ _ => True) :=
  getIt_h.bind fun it => posOf_h.bind fun p =>
    (onS_idle (idle_ite (oNext_idle.bind fun _ => .pure) (uNext_idle.bind fun _ => .pure))).bind fun q =>
      (setIt_h (fun t hg h => .none rfl) (.inl hi)).any

theorem decI_h {i : Nat} (hi : i ∈ S) : IHoare O S P (Impl.decI i) (fun _ _ => True) := by
  refine getIt_h.bind fun it => ?_
  split
  · exact posOf_h.bind fun p => (onS_idle (oPrev_idle.bind fun _ => .pure)).bind fun q =>
      (setIt_h (fun t hg h => .none rfl) (.inl hi)).any
  · exact IHoare.pure.any

theorem postI_h {f : Nat → Impl.IM K V Unit} {i j : Nat} (hi : i ∈ S)
    (hf : ∀ {P : ISt K V → Prop}, IHoare O S P (f j) (fun _ _ => True)) :
    IHoare O S P (Impl.postI f i j) (fun _ _ => True) :=
  getIt_h.bind fun it => hf.bind fun _ => (setIt_h (fun t hg h => .none rfl) (.inl hi)).any

theorem eqI_h {i j : Nat} : IHoare O S P (Impl.eqI i j) (fun _ _ => True) := by
  refine getIt_h.bind fun a => getIt_h.bind fun b => posOf_h.bind fun p => posOf_h.bind fun q => ?_
  split
  · exact IHoare.pure.any
  · split
    · exact (onS_idle eqOU_idle).any
    · exact (onS_idle eqOU_idle).any

end ops

/-- Every step keeps the invariant. -/
theorem istep_h (hO : NoListFault O) (op : IOp K V) :
    IHoare O op.targets (fun _ => True) (Impl.istep O heap op) (fun _ _ => True) := by
  have hsing : ∀ {P : ISt K V → Prop} {i : Nat} {it : It} {S : List Nat}, i ∈ S → it.entry = none →
      IHoare O S P (Impl.setIt i it) (fun _ _ => True) :=
    fun hi he => (setIt_h (fun t hg h => .none he) (.inl hi)).any
  have h1 : ∀ i : Nat, i ∈ [i] := fun i => List.mem_singleton.2 rfl
  have h2 : ∀ i j : Nat, i ∈ [i, j] := fun i j => List.mem_cons_self ..
  have h3 : ∀ i j : Nat, j ∈ [i, j] := fun i j => List.mem_cons_of_mem _ (List.mem_singleton.2 rfl)
  cases op with
  | default i o => exact (hsing (h1 i) rfl).ret
  | begin i o =>
    cases o with
    | true => exact ((onS_idle oBegin_idle).bind fun _ => hsing (h1 i) rfl).ret
    | false => exact ((onS_idle uBegin_idle).bind fun _ => hsing (h1 i) rfl).ret
  | fin i o => exact (hsing (h1 i) rfl).ret
  | find i k =>
    exact (onS_call hO (step_callish _)).bind fun r => IHoare.bind (Q := fun _ _ => True) (hsing (h1 i) rfl) fun _ =>
      IHoare.pure.any
  | insert i k v =>
    exact (onS_call hO (step_callish _)).bind fun r => IHoare.bind (Q := fun _ _ => True) (hsing (h1 i) rfl) fun _ =>
      IHoare.pure.any
  | copy i j => exact (copyI_h (h1 i)).ret
  | moveNew i j => exact (moveNewI_h (h1 i)).ret
  | moveTo i j => exact (moveToI_h (h1 i)).ret
  | swap i j => exact (swapI_h (h2 i j) (h3 i j)).ret
  | convert i j => exact (convertI_h hO (h1 i)).ret
  | convertMove i j => exact (convertI_h hO (h1 i)).ret
  | inc i => exact (incI_h (h1 i)).ret
  | dec i => exact (decI_h (h1 i)).ret
  | postInc i j => exact (postI_h (h2 i j) (incI_h (h3 i j))).ret
  | postDec i j => exact (postI_h (h2 i j) (decI_h (h3 i j))).ret
  | deref i => exact (materialise_h hO).noexcept.ret
  | entry i => exact (entryOf_h hO).ret
  | key i => exact (keyI_h hO).ret
  | value i => exact (valueI_h hO).ret
  | setValue i v => exact (setValueI_h hO).ret
  | eq i j => exact eqI_h.ret
  | call op => exact (onS_call hO (step_callish op)).any

theorem IPerforms.istep (hO : NoListFault O) {op : IOp K V} {t t' : ISt K V} {res : Except Err (Res K V)}
    (hg : IGood O t) (hp : IPerforms O heap op t res t') : IStep O op.targets t t' := by
  have h := istep_h (heap := heap) hO op t hg trivial
  cases res with
  | ok r => rw [show Impl.istep O heap op t = .ok r t' from hp] at h; exact h.1
  | error e => rw [show Impl.istep O heap op t = .throw e t' from hp] at h; exact h

theorem IRun.good (hO : NoListFault O) {t t' : ISt K V} {l : List (IOp K V)} (hg : IGood O t) (h : IRun O heap t l t') :
    IGood O t' := by
  induction h with
  | nil => exact hg
  | step _ hp ih => exact (hp.istep hO ih).good
  | elsewhere _ he ih => exact ih.after hO (.elsewhere .nil he)

theorem IReachable.good (hO : NoListFault O) {t : ISt K V} (h : IReachable O heap t) : IGood O t := by
  obtain ⟨s, l, hs, hr⟩ := h
  exact hr.good hO ⟨hs, fun _ => .none rfl⟩

theorem IRun.history (hO : NoListFault O) {t t' : ISt K V} {l : List (IOp K V)} (hg : IGood O t)
    (h : IRun O heap t l t') : ∃ c, History O t.s c t'.s := by
  induction h with
  | nil => exact ⟨[], .nil⟩
  | step h1 hp ih =>
    obtain ⟨c, hc⟩ := ih
    obtain ⟨d, hd⟩ := (hp.istep hO (h1.good hO hg)).hist
    exact ⟨_, hc.trans hd⟩
  | elsewhere _ he ih =>
    obtain ⟨c, hc⟩ := ih
    exact ⟨_, .elsewhere hc he⟩

theorem IRun.same (hO : NoListFault O) {t t' : ISt K V} {l : List (IOp K V)} (hg : IGood O t) (h : IRun O heap t l t')
    {i : Nat} (hi : ∀ op ∈ l, i ∉ op.targets) :
    (t'.its i).pos = (t.its i).pos ∧ (t'.its i).ordered = (t.its i).ordered := by
  induction h with
  | nil => exact ⟨rfl, rfl⟩
  | step h1 hp ih =>
    have h2 := ih fun op hop => hi op (List.mem_cons_of_mem _ hop)
    have h3 := (hp.istep hO (h1.good hO hg)).same i (hi _ (List.mem_cons_self ..))
    exact ⟨h3.1.trans h2.1, h3.2.trans h2.2⟩
  | elsewhere _ he ih => exact ih hi

theorem IRun.track (hO : NoListFault O) {t t' : ISt K V} {l : List (IOp K V)} (hg : IGood O t) (h : IRun O heap t l t')
    {i : Nat} (hi : ∀ op ∈ l, i ∉ op.targets) {a : Ptr} (ht : Track i a t) : Track i a t' := by
  induction h with
  | nil => exact ht
  | step h1 hp ih =>
    exact (hp.istep hO (h1.good hO hg)).track i (hi _ (List.mem_cons_self ..)) a
      (ih fun op hop => hi op (List.mem_cons_of_mem _ hop))
  | elsewhere h1 he ih => exact (ih hi).history hO (h1.good hO hg).reach (.elsewhere .nil he)

/-! ### Reading -/

theorem Reachable.oLookup_of_at (hO : NoListFault O) {s : St (Cache K V) K V} (hs : Reachable O s) {q : Ptr}
    {x : MapNode K V} (hx : At s.c q x) : Impl.oLookup (some q) s = .ok x.addr s := by
  obtain ⟨t, hr, ht⟩ := hs.rel hO
  obtain ⟨e, he, rfl, rfl⟩ := (hr.at_iff ht).1 hx
  have hsim := oLookup_sim (pos := some e.slot) s t hr trivial
  have hi := oLookup_idle (K := K) (V := V) (p := some e.slot) s
  rw [oLookup_own ht he] at hsim
  cases hm : Impl.oLookup (some e.slot) s with
  | ok a s' =>
    rw [hm] at hsim hi
    rw [hi, show a = e.id from hsim.1]
    rfl
  | throw err s' => rw [hm] at hsim; exact hsim.elim
  | ub => rw [hm] at hsim; exact hsim.elim
  | terminate => rw [hm] at hsim; exact hsim.elim
  | diverge => rw [hm] at hsim; exact hsim.elim

theorem Reachable.derefIt_of_mem (hO : NoListFault O) {s : St (Cache K V) K V} (hs : Reachable O s)
    {x : MapNode K V} (hx : x ∈ elements s.c) : Impl.derefIt (some x.addr) s = .ok x s := by
  obtain ⟨t, hr, ht⟩ := hs.rel hO
  obtain ⟨e, he, rfl, _⟩ := hr.ent_of_mem ht hx
  unfold Impl.derefIt
  dsimp only
  rw [hr.rep.find_addr hr.awf, show (t.c.ents.find? fun y => y.id == e.node.addr) = some e from
    find?_key (f := fun y : Ent K V => y.id) ht.awf.ids he]
  rfl

theorem Idle.still {α : Type} {m : Impl.CM K V α} (h : Idle m) : Still m := by
  intro s
  have := h s
  cases hm : m s with
  | ok a s' => rw [hm] at this; exact this ▸ ⟨rfl, Tame.refl _⟩
  | throw e s' => rw [hm] at this; exact this ▸ ⟨rfl, Tame.refl _⟩
  | ub => trivial
  | terminate => trivial
  | diverge => trivial

theorem hasExpiredO_still {p : Option Ptr} : Still (Impl.hasExpiredO O p) := by
  cases p with
  | none => exact .pure
  | some p =>
    refine oLookup_idle.still.bind fun q => derefIt_still.bind fun n => mapFind_still.bind fun o => ?_
    cases o with
    | none => exact .ub
    | some m => exact hasExpiredInfo_still

theorem throwIfInvalidO_still {p : Option Ptr} : Still (Impl.throwIfInvalidO O p) := by
  cases p with
  | none => exact .throw
  | some p =>
    refine getKind_still.bind fun kind => ?_
    cases kind with
    | basic => exact .pure
    | timed ttl res => exact hasExpiredO_still.bind fun _ => .ite .throw .pure

/-- The objects, after `i` has looked up the entry `x`. -/
def lookedUp (t : ISt K V) (i : Nat) (x : MapNode K V) : Nat → It :=
  fun k => if k = i then { t.its i with entry := some x.addr } else t.its k

theorem materialise_reads (hO : NoListFault O) {t : ISt K V} (hs : Reachable O t.s) {i : Nat} {x : MapNode K V}
    (hd : (t.its i).Denotes t.s.c x) (hl : (t.its i).entry = none ∨ (t.its i).entry = some x.addr) :
    Impl.materialise i t = .ok () ⟨t.s, lookedUp t i x⟩ := by
  unfold Impl.materialise
  rw [bind_ok (m := Impl.getIt i) (s := t) rfl]
  rcases hl with hl | hl
  · obtain ⟨q, h1, h2⟩ := hd
    rw [hl]
    dsimp only
    rw [bind_ok (m := Impl.posOf (t.its i)) (s := t) (a := some q) (s' := t) (by unfold Impl.posOf; rw [h1]; rfl)]
    rw [bind_ok (s := t) (a := x.addr) (s' := t) ?_]
    · rfl
    · unfold Impl.onS
      cases ho : (t.its i).ordered with
      | true =>
        rw [ho, if_pos rfl] at h2
        rw [if_pos rfl, hs.oLookup_of_at hO h2]
      | false =>
        rw [ho, if_neg (by simp)] at h2
        rw [if_neg (by simp), ← h2.2, bind_ok (hs.derefIt_of_mem hO h2.1)]
        rfl
  · rw [hl]
    show Out.ok () t = _
    have : lookedUp t i x = t.its := by
      funext k
      unfold lookedUp
      split
      · rename_i hk
        subst hk
        rw [← hl]
      · rfl
    rw [this]

section reads

variable {t : ISt K V} {i : Nat} {x : MapNode K V} {q : Ptr}

/-- What the check of an iterator leads to. -/
def checked {α : Type} (o : Out (St (Cache K V) K V) Unit) (a : α) (its its' : Nat → It) : Out (ISt K V) α :=
  match o with
  | .ok _ s => .ok a ⟨s, its⟩
  | .throw e s => .throw e ⟨s, its'⟩
  | .ub => .ub
  | .terminate => .terminate
  | .diverge => .diverge

def checkedS {α : Type} (o : Out (St (Cache K V) K V) Unit) (a : α) : Out (St (Cache K V) K V) α :=
  match o with
  | .ok _ s => .ok a s
  | .throw e s => .throw e s
  | .ub => .ub
  | .terminate => .terminate
  | .diverge => .diverge

theorem checked_onCache {α : Type} {o : Out (St (Cache K V) K V) Unit} {a : α} {its its' : Nat → It} :
    (checked o a its its').onCache = checkedS o a := by cases o <;> rfl

/-- The check changes nothing in the cache. -/
theorem check_same {m : Impl.CM K V Unit} (hO : NoListFault O) (hm : Still m) (hc : Callish O m)
    {s s1 : St (Cache K V) K V} {u : Unit} (hs : Reachable O s) (h : m s = .ok u s1) : Reachable O s1 ∧ s1.c = s.c := by
  have h1 := hm s
  have h2 := hc s
  rw [h] at h1 h2
  obtain ⟨l, hl⟩ := h2
  exact ⟨hl.reachable hO hs, h1.1⟩

theorem entryOf_ordered (hO : NoListFault O) (hs : Reachable O t.s) (ho : (t.its i).ordered = true)
    (hp : (t.its i).pos = some (some q)) (hd : At t.s.c q x)
    (hl : (t.its i).entry = none ∨ (t.its i).entry = some x.addr) :
    Impl.entryOf O i t = checked (Impl.throwIfInvalidO O (some q) t.s) () (lookedUp t i x) t.its := by
  unfold Impl.entryOf
  rw [bind_ok (m := Impl.getIt i) (s := t) rfl, if_pos ho]
  rw [bind_ok (m := Impl.posOf (t.its i)) (s := t) (a := some q) (s' := t) (by unfold Impl.posOf; rw [hp]; rfl)]
  cases hv : Impl.throwIfInvalidO O (some q) t.s with
  | ok u s1 =>
    obtain ⟨h1, h2⟩ := check_same hO throwIfInvalidO_still throwIfInvalidO_callish hs hv
    rw [bind_ok (m := Impl.onS _) (a := u) (s' := ⟨s1, t.its⟩) (by unfold Impl.onS; rw [hv])]
    refine materialise_reads (t := ⟨s1, t.its⟩) hO h1 ⟨q, hp, ?_⟩ hl
    rw [if_pos ho]
    show At s1.c q x
    rw [h2]
    exact hd
  | throw e s1 => exact bind_throw (by unfold Impl.onS; rw [hv])
  | ub => exact bind_ub (by unfold Impl.onS; rw [hv])
  | terminate => exact bind_terminate (by unfold Impl.onS; rw [hv])
  | diverge => exact bind_diverge (by unfold Impl.onS; rw [hv])

theorem entryOf_unordered (hO : NoListFault O) (hs : Reachable O t.s) (ho : (t.its i).ordered = false)
    (hp : (t.its i).pos = some (some x.addr)) (hd : x ∈ elements t.s.c)
    (hl : (t.its i).entry = none ∨ (t.its i).entry = some x.addr) :
    Impl.entryOf O i t = checked (Impl.throwIfInvalidU O (some x.addr) t.s) () (lookedUp t i x) (lookedUp t i x) := by
  unfold Impl.entryOf
  rw [bind_ok (m := Impl.getIt i) (s := t) rfl, if_neg (by rw [ho]; simp)]
  rw [bind_ok (materialise_reads hO hs ⟨_, hp, by rw [if_neg (by rw [ho]; simp)]; exact ⟨hd, rfl⟩⟩ hl)]
  rw [bind_ok (m := Impl.posOf (t.its i)) (a := some x.addr) (s' := ⟨t.s, lookedUp t i x⟩)
    (by unfold Impl.posOf; rw [hp]; rfl)]
  unfold Impl.onS checked
  dsimp only
  cases Impl.throwIfInvalidU O (some x.addr) t.s <;> rfl

theorem storedNode_reads (hO : NoListFault O) {s1 : St (Cache K V) K V} (hs : Reachable O s1) (hx : x ∈ elements s1.c) :
    Impl.storedNode i ⟨s1, lookedUp t i x⟩ = .ok x ⟨s1, lookedUp t i x⟩ := by
  unfold Impl.storedNode
  rw [bind_ok (m := Impl.getIt i) (a := { t.its i with entry := some x.addr }) (s' := ⟨s1, lookedUp t i x⟩)
    (by unfold Impl.getIt lookedUp; dsimp only; rw [if_pos rfl])]
  unfold Impl.onS
  dsimp only
  rw [hs.derefIt_of_mem hO hx]

theorem checked_bind {α : Type} {o : Out (St (Cache K V) K V) Unit} {m : Impl.IM K V Unit} {f : Unit → Impl.IM K V α}
    {a : α} {its its' : Nat → It} (hm : m t = checked o () its its')
    (hf : ∀ s1, o = .ok () s1 → f () ⟨s1, its⟩ = .ok a ⟨s1, its⟩) : (m >>= f) t = checked o a its its' := by
  cases o with
  | ok u s1 => rw [bind_ok hm]; exact hf s1 rfl
  | throw e s1 => exact bind_throw hm
  | ub => exact bind_ub hm
  | terminate => exact bind_terminate hm
  | diverge => exact bind_diverge hm

theorem checkedS_bind {α : Type} {o : Out (St (Cache K V) K V) Unit} {s : St (Cache K V) K V} {m : Impl.CM K V Unit}
    {f : Unit → Impl.CM K V α} {a : α} (hm : m s = o) (hf : ∀ s1, o = .ok () s1 → f () s1 = .ok a s1) :
    (m >>= f) s = checkedS o a := by
  subst hm
  cases h : m s with
  | ok u s1 => rw [bind_ok h]; exact hf s1 h
  | throw e s1 => exact bind_throw h
  | ub => exact bind_ub h
  | terminate => exact bind_terminate h
  | diverge => exact bind_diverge h

/-- What reading through an iterator that denotes `x` does: the check, then the answer. -/
theorem valueI_ordered (hO : NoListFault O) (hs : Reachable O t.s) (ho : (t.its i).ordered = true)
    (hp : (t.its i).pos = some (some q)) (hd : At t.s.c q x)
    (hl : (t.its i).entry = none ∨ (t.its i).entry = some x.addr) :
    Impl.valueI O i t = checked (Impl.throwIfInvalidO O (some q) t.s) x.info.value (lookedUp t i x) t.its ∧
    Impl.oValue O { pos := some q } t.s = checkedS (Impl.throwIfInvalidO O (some q) t.s) x.info.value := by
  constructor
  · refine checked_bind (entryOf_ordered hO hs ho hp hd hl) fun s1 h => ?_
    obtain ⟨h1, h2⟩ := check_same hO throwIfInvalidO_still throwIfInvalidO_callish hs h
    rw [bind_ok (storedNode_reads hO h1 (h2 ▸ hd.1))]
    rfl
  · unfold Impl.oValue Impl.oEntry
    rw [bind_bind]
    refine checkedS_bind rfl fun s1 h => ?_
    obtain ⟨h1, h2⟩ := check_same hO throwIfInvalidO_still throwIfInvalidO_callish hs h
    unfold Impl.oDeref
    dsimp only
    rw [bind_bind, bind_ok (h1.oLookup_of_at hO (h2 ▸ hd)), bind_ok (m := pure _) (s := s1) rfl,
      bind_ok (h1.derefIt_of_mem hO (h2 ▸ hd.1))]
    rfl

theorem valueI_unordered (hO : NoListFault O) (hs : Reachable O t.s) (ho : (t.its i).ordered = false)
    (hp : (t.its i).pos = some (some x.addr)) (hd : x ∈ elements t.s.c)
    (hl : (t.its i).entry = none ∨ (t.its i).entry = some x.addr) :
    Impl.valueI O i t =
      checked (Impl.throwIfInvalidU O (some x.addr) t.s) x.info.value (lookedUp t i x) (lookedUp t i x) ∧
    Impl.uValue O { pos := some x.addr } t.s = checkedS (Impl.throwIfInvalidU O (some x.addr) t.s) x.info.value := by
  constructor
  · refine checked_bind (entryOf_unordered hO hs ho hp hd hl) fun s1 h => ?_
    obtain ⟨h1, h2⟩ := check_same hO throwIfInvalidU_still throwIfInvalidU_callish hs h
    rw [bind_ok (storedNode_reads hO h1 (h2 ▸ hd))]
    rfl
  · unfold Impl.uValue Impl.uEntry Impl.uDeref
    dsimp only
    rw [bind_bind, bind_bind, bind_ok (hs.derefIt_of_mem hO hd), bind_ok (m := pure _) (s := t.s) rfl, bind_bind]
    refine checkedS_bind rfl fun s1 h => ?_
    obtain ⟨h1, h2⟩ := check_same hO throwIfInvalidU_still throwIfInvalidU_callish hs h
    rw [bind_ok (m := pure _) (s := s1) rfl, bind_ok (h1.derefIt_of_mem hO (h2 ▸ hd))]
    rfl

theorem keyI_ordered (hp : (t.its i).pos = some (some q)) (ho : (t.its i).ordered = true) :
    (Impl.keyI O i t).onCache = Impl.oKey O { pos := some q } t.s := by
  unfold Impl.keyI
  rw [bind_ok (m := Impl.getIt i) (s := t) rfl, if_pos ho]
  rw [bind_ok (m := Impl.posOf (t.its i)) (s := t) (a := some q) (s' := t) (by unfold Impl.posOf; rw [hp]; rfl)]
  unfold Impl.onS
  cases Impl.oKey O { pos := some q } t.s <;> rfl

theorem keyI_unordered (hO : NoListFault O) (hs : Reachable O t.s) (ho : (t.its i).ordered = false)
    (hp : (t.its i).pos = some (some x.addr)) (hd : x ∈ elements t.s.c)
    (hl : (t.its i).entry = none ∨ (t.its i).entry = some x.addr) :
    Impl.keyI O i t =
      checked (Impl.throwIfInvalidU O (some x.addr) t.s) x.key (lookedUp t i x) (lookedUp t i x) ∧
    Impl.uKey O { pos := some x.addr } t.s = checkedS (Impl.throwIfInvalidU O (some x.addr) t.s) x.key := by
  constructor
  · unfold Impl.keyI
    rw [bind_ok (m := Impl.getIt i) (s := t) rfl, if_neg (by rw [ho]; simp)]
    refine checked_bind (entryOf_unordered hO hs ho hp hd hl) fun s1 h => ?_
    obtain ⟨h1, h2⟩ := check_same hO throwIfInvalidU_still throwIfInvalidU_callish hs h
    rw [bind_ok (storedNode_reads hO h1 (h2 ▸ hd))]
    rfl
  · unfold Impl.uKey Impl.uEntry Impl.uDeref
    dsimp only
    rw [bind_bind, bind_bind, bind_ok (hs.derefIt_of_mem hO hd), bind_ok (m := pure _) (s := t.s) rfl, bind_bind]
    refine checkedS_bind rfl fun s1 h => ?_
    obtain ⟨h1, h2⟩ := check_same hO throwIfInvalidU_still throwIfInvalidU_callish hs h
    rw [bind_ok (m := pure _) (s := s1) rfl, bind_ok (h1.derefIt_of_mem hO (h2 ▸ hd))]
    rfl

end reads

end LRU
