import Verif.Model.LastAccessed
import Verif.Model.World
import Verif.Spec.Demo
import Verif.Proofs.ReenterCalls
/-!
# C81: the class `LastAccessed`

Undefined behaviour includes violated `assert`s. `Alive s p n`: the object at address `p` is alive and is (part of) `n`.
-/

set_option linter.unusedSectionVars false
set_option autoImplicit false

namespace LRU

variable {K V : Type} [KeyEqual K] [DecidableEq K] {l : LastAccessed} {s : St (Cache K V) K V} {k : K} {p : Ptr}
  {n : MapNode K V} {it : Option Ptr}

/-- The objects that a program can make: with a constructor, by assigning an iterator, by `invalidate()`, or as a copy. -/
inductive LastAccessed.Made : LastAccessed → Prop
  | empty : Made .empty
  | ofRefs (key information : Ptr) : Made (.ofRefs key information)
  | ofIterator {K V : Type} [KeyEqual K] [DecidableEq K] {s s' : St (Cache K V) K V} {it : Option Ptr} {l : LastAccessed} :
      LastAccessed.ofIterator it s = .ok l s' → Made l
  | assign {K V : Type} [KeyEqual K] [DecidableEq K] {s s' : St (Cache K V) K V} {it : Option Ptr} {l l' : LastAccessed} :
      Made l → l.assign it s = .ok l' s' → Made l'
  | invalidate {l : LastAccessed} : Made l → Made l.invalidate

/-- The node at address `p` is alive, in this cache or in another one. -/
def Alive (s : St (Cache K V) K V) (p : Ptr) (n : MapNode K V) : Prop := Impl.deref p s = .ok n s

/-- Nothing is alive at address `p`. -/
def Gone (s : St (Cache K V) K V) (p : Ptr) : Prop := ∀ n, ¬ Alive s p n

theorem deref_alive (s : St (Cache K V) K V) (p : Ptr) : (∃ n, Alive s p n) ∨ (Gone s p ∧ Impl.deref p s = .ub) := by
  unfold Gone Alive Impl.deref
  cases s.c.map.find? (fun n => n.addr == p) with
  | some n => exact .inl ⟨n, rfl⟩
  | none =>
    cases s.g.ext.find? (fun n => n.addr == p) with
    | some n => exact .inl ⟨n, rfl⟩
    | none => exact .inr ⟨fun n h => (by cases h), rfl⟩

theorem derefIt_alive {s s' : St (Cache K V) K V} (h : Impl.derefIt it s = .ok n s') : s' = s ∧ it = some n.addr ∧ Alive s n.addr n := by
  cases it with
  | none => cases h
  | some q =>
    unfold Impl.derefIt at h
    cases hf : s.c.map.find? (fun m => m.addr == q) with
    | none => simp only [hf] at h; cases h
    | some m =>
      simp only [hf] at h
      injection h with h1 h2
      subst h1 h2
      have hq : m.addr = q := by simpa using List.find?_some hf
      subst hq
      refine ⟨rfl, rfl, ?_⟩
      unfold Alive Impl.deref
      rw [hf]

/-- C81. The validity flag tells whether the pointers are set: it is true exactly if neither is null, and false exactly if both
are. -/
theorem C81_valid_iff_set (h : l.Made) :
    (l.isValid = true → (∃ p, l.key = some p) ∧ ∃ p, l.information = some p) ∧
    (l.isValid = false → l.key = none ∧ l.information = none) := by
  cases h with
  | empty => exact ⟨fun h => (by cases h), fun _ => ⟨rfl, rfl⟩⟩
  | ofRefs p q => exact ⟨fun _ => ⟨⟨p, rfl⟩, q, rfl⟩, fun h => (by cases h)⟩
  | ofIterator h =>
    simp only [LastAccessed.ofIterator] at h
    obtain ⟨n, s1, h1, h2⟩ := bind_ok_inv h
    injection h2 with h2 h3
    subst h2
    exact ⟨fun _ => ⟨⟨_, rfl⟩, _, rfl⟩, fun h => (by cases h)⟩
  | assign _ h =>
    simp only [LastAccessed.assign] at h
    obtain ⟨n, s1, h1, h2⟩ := bind_ok_inv h
    injection h2 with h2 h3
    subst h2
    exact ⟨fun _ => ⟨⟨_, rfl⟩, _, rfl⟩, fun h => (by cases h)⟩
  | invalidate => exact ⟨fun h => (by cases h), fun _ => ⟨rfl, rfl⟩⟩

theorem follow_live (h : Alive s p n) : LastAccessed.follow (some p) s = .ok n s := h

theorem follow_dead (h : Gone s p) : LastAccessed.follow (K := K) (V := V) (some p) s = .ub := by
  rcases deref_alive s p with ⟨n, hn⟩ | ⟨_, h1⟩
  · exact absurd hn (h n)
  · exact h1

/-- C81. `key()`, `information()`, `iterator()` and `value()` must not be called on an object that is not valid. On a valid one
they are defined exactly as long as what it points to is alive, change nothing, and give the key of the one pointer and the
information of the other. -/
theorem C81_accessors (s : St (Cache K V) K V) (h : l.Made) :
    (l.isValid = false → l.keyOf s = .ub ∧ l.informationOf s = .ub ∧ l.iteratorOf s = .ub ∧ l.valueOf s = .ub) ∧
    (∀ p, l.key = some p → (∀ n, Alive s p n → l.keyOf s = .ok n.key s) ∧ (Gone s p → l.keyOf s = .ub)) ∧
    (∀ p, l.information = some p →
      (∀ n, Alive s p n → l.informationOf s = .ok n.info s ∧ l.iteratorOf s = .ok n.info.order s ∧ l.valueOf s = .ok n.info.value s) ∧
      (Gone s p → l.informationOf s = .ub ∧ l.iteratorOf s = .ub ∧ l.valueOf s = .ub)) := by
  obtain ⟨h1, h2⟩ := C81_valid_iff_set h
  cases hv : l.isValid with
  | false =>
    obtain ⟨h3, h4⟩ := h2 hv
    refine ⟨fun _ => ⟨?_, ?_, ?_, ?_⟩, fun p hp => (by rw [h3] at hp; cases hp), fun p hp => (by rw [h4] at hp; cases hp)⟩
    · unfold LastAccessed.keyOf; rw [hv]; rfl
    · unfold LastAccessed.informationOf; rw [hv]; rfl
    · unfold LastAccessed.iteratorOf; rw [hv]; rfl
    · unfold LastAccessed.valueOf; rw [hv]; rfl
  | true =>
    refine ⟨fun h => (by cases h), fun p hp => ⟨fun n hn => ?_, fun hd => ?_⟩, fun p hp => ⟨fun n hn => ⟨?_, ?_, ?_⟩, fun hd => ⟨?_, ?_, ?_⟩⟩⟩
    · unfold LastAccessed.keyOf; rw [hv, hp]; exact bind_ok (follow_live hn)
    · unfold LastAccessed.keyOf; rw [hv, hp]; exact bind_ub (follow_dead hd)
    · unfold LastAccessed.informationOf; rw [hv, hp]; exact bind_ok (follow_live hn)
    · unfold LastAccessed.iteratorOf; rw [hv, hp]; exact bind_ok (follow_live hn)
    · unfold LastAccessed.valueOf; rw [hv, hp]; exact bind_ok (follow_live hn)
    · unfold LastAccessed.informationOf; rw [hv, hp]; exact bind_ub (follow_dead hd)
    · unfold LastAccessed.iteratorOf; rw [hv, hp]; exact bind_ub (follow_dead hd)
    · unfold LastAccessed.valueOf; rw [hv, hp]; exact bind_ub (follow_dead hd)

/-- C81. Comparing with a key: an object that is not valid differs from every key and nothing is followed. A valid one equals the
keys that are equal to the key it points to, which must be alive. -/
theorem C81_compare_key (s : St (Cache K V) K V) (k : K) (h : l.Made) :
    (l.isValid = false → l.eqKey k s = .ok false s ∧ l.neKey k s = .ok true s) ∧
    (∀ p, l.key = some p →
      (∀ n, Alive s p n → l.eqKey k s = .ok (keq k n.key) s ∧ l.neKey k s = .ok (!keq k n.key) s) ∧
      (Gone s p → l.eqKey k s = .ub ∧ l.neKey k s = .ub)) := by
  obtain ⟨h1, h2⟩ := C81_valid_iff_set h
  obtain ⟨-, h3, -⟩ := C81_accessors s h
  have ne : ∀ b, l.eqKey k s = .ok b s → l.neKey k s = .ok (!b) s := fun b hb => by
    unfold LastAccessed.neKey; exact bind_ok hb
  refine ⟨fun hv => ?_, fun p hp => ⟨fun n hn => ?_, fun hd => ?_⟩⟩
  · have e : l.eqKey k s = .ok false s := by unfold LastAccessed.eqKey; rw [hv]; rfl
    exact ⟨e, ne _ e⟩
  · have hv : l.isValid = true := by
      cases hv : l.isValid with
      | true => rfl
      | false => rw [(h2 hv).1] at hp; cases hp
    have e : l.eqKey k s = .ok (keq k n.key) s := by
      unfold LastAccessed.eqKey; rw [hv]; exact bind_ok ((h3 p hp).1 n hn)
    exact ⟨e, ne _ e⟩
  · have hv : l.isValid = true := by
      cases hv : l.isValid with
      | true => rfl
      | false => rw [(h2 hv).1] at hp; cases hp
    have e : l.eqKey k s = .ub := by
      unfold LastAccessed.eqKey; rw [hv]; exact bind_ub ((h3 p hp).2 hd)
    exact ⟨e, by unfold LastAccessed.neKey; exact bind_ub e⟩

/-- C81. Comparing with an iterator is comparing with its key; the iterator is dereferenced even if the object is not valid. -/
theorem C81_compare_iterator (s : St (Cache K V) K V) (l : LastAccessed) (it : Option Ptr) :
    (∀ n, Impl.derefIt it s = .ok n s → l.eqIterator it s = l.eqKey n.key s ∧ l.neIterator it s = l.neKey n.key s) ∧
    (Impl.derefIt (K := K) (V := V) it s = .ub → l.eqIterator it s = .ub ∧ l.neIterator it s = .ub) := by
  refine ⟨fun n hn => ?_, fun hd => ?_⟩
  · have e : l.eqIterator it s = l.eqKey n.key s := by unfold LastAccessed.eqIterator; exact bind_ok hn
    refine ⟨e, ?_⟩
    unfold LastAccessed.neIterator LastAccessed.neKey
    show M.bind _ _ s = M.bind _ _ s
    unfold M.bind
    rw [e]
  · have e : l.eqIterator it s = .ub := by unfold LastAccessed.eqIterator; exact bind_ub hd
    exact ⟨e, by unfold LastAccessed.neIterator; exact bind_ub e⟩

/-- C81. After the assignment of an iterator to a live node, and after construction from one, the object is valid and refers to
the key and the information of that node; it equals the iterator and exactly the keys that are equal to the node's. -/
theorem C81_assign (s : St (Cache K V) K V) (l : LastAccessed) (hn : Impl.derefIt it s = .ok n s) :
    ∃ l' : LastAccessed, l.assign it s = .ok l' s ∧ LastAccessed.ofIterator it s = .ok l' s ∧ l'.isValid = true ∧
      l'.keyOf s = .ok n.key s ∧ l'.informationOf s = .ok n.info s ∧ l'.eqIterator it s = .ok true s ∧
      ∀ k, l'.eqKey k s = .ok (keq k n.key) s := by
  obtain ⟨-, -, hl⟩ := derefIt_alive hn
  have e1 : (LastAccessed.ofIterator (K := K) (V := V) it) s = .ok (.ofRefs n.addr n.addr) s := by
    unfold LastAccessed.ofIterator; exact bind_ok hn
  have e2 : l.assign it s = .ok (.ofRefs n.addr n.addr) s := by unfold LastAccessed.assign; exact bind_ok hn
  have hm : (LastAccessed.ofRefs n.addr n.addr).Made := .ofIterator e1
  obtain ⟨-, h3, h4⟩ := C81_accessors s hm
  have h5 := fun k => (((C81_compare_key s k hm).2 n.addr rfl).1 n hl).1
  refine ⟨_, e2, e1, rfl, (h3 _ rfl).1 n hl, ((h4 _ rfl).1 n hl).1, ?_, h5⟩
  rw [((C81_compare_iterator s _ it).1 n hn).1, h5, KeyEqual.refl]

/-- C81. Assigning `end()` or an iterator to an erased node is undefined. -/
theorem C81_assign_end (s : St (Cache K V) K V) (l : LastAccessed) (hd : Impl.derefIt (K := K) (V := V) it s = .ub) :
    l.assign it s = .ub ∧ LastAccessed.ofIterator it s = .ub := by
  constructor
  · unfold LastAccessed.assign; exact bind_ub hd
  · unfold LastAccessed.ofIterator; exact bind_ub hd

/-! ### One address is enough -/

/-- What `Model.Cache` keeps of the object `_last_accessed`. -/
def LastAccessed.At (l : LastAccessed) (last : Option Ptr) : Prop :=
  l.isValid = last.isSome ∧ l.key = last ∧ l.information = last

/-- C81. The cache model with one address for `_last_accessed` behaves like the class, for all states of the cache: the object of a new
cache, after assigning an iterator and after `invalidate()` stays at the address that the model keeps; comparing it with a key, and
reading key and information, give what the model gives, undefined behaviour included. -/
theorem C81_one_address (s : St (Cache K V) K V) (h : l.At s.c.last) :
    (∀ kind n, LastAccessed.empty.At (Impl.emptyCache (K := K) (V := V) kind n).last) ∧
    (∀ n, Impl.derefIt (some p) s = .ok n s →
      ∃ l' s', l.assign (some p) s = .ok l' s ∧ Impl.setLast p s = .ok () s' ∧ l'.At s'.c.last) ∧
    (∃ s', Impl.lastInvalidate s = .ok () s' ∧ l.invalidate.At s'.c.last) ∧
    (∀ k, Impl.lastIs k s = l.eqKey k s) ∧
    (∀ n, Impl.lastNode s = .ok n s → l.keyOf s = .ok n.key s ∧ l.informationOf s = .ok n.info s) ∧
    ((∃ n, Impl.lastNode s = .ok n s) ∨ Impl.lastNode s = .ub ∧ l.keyOf s = .ub ∧ l.informationOf s = .ub) := by
  obtain ⟨h1, h2, h3⟩ := h
  refine ⟨fun _ _ => ⟨rfl, rfl, rfl⟩, fun n hn => ?_, ⟨_, rfl, rfl, rfl, rfl⟩, fun k => ?_, fun n hn => ?_, ?_⟩
  · obtain ⟨-, h4, -⟩ := derefIt_alive hn
    injection h4 with h4
    subst h4
    exact ⟨⟨some n.addr, some n.addr, true⟩, _, by unfold LastAccessed.assign; exact bind_ok hn, rfl, rfl, rfl, rfl⟩
  · unfold Impl.lastIs LastAccessed.eqKey LastAccessed.keyOf
    rw [h1, h2]
    cases hl : s.c.last with
    | none => exact bind_ok (m := Impl.getLast) (show _ = Out.ok none s by rw [← hl]; rfl)
    | some p =>
      rw [show (Impl.getLast >>= _) s = _ from bind_ok (m := Impl.getLast) (show _ = Out.ok (some p) s by rw [← hl]; rfl)]
      rcases deref_alive s p with ⟨n, hn⟩ | ⟨_, hd⟩
      · refine (bind_ok hn).trans ?_
        show _ = ((LastAccessed.follow (some p) >>= fun n => pure n.key) >>= fun k' => pure (keq k k')) s
        have e : (LastAccessed.follow (some p) >>= fun n => pure n.key) s = .ok n.key s := bind_ok (m := LastAccessed.follow (some p)) hn
        exact (bind_ok (f := fun k' => pure (keq k k')) e).symm
      · refine (bind_ub hd).trans ?_
        show _ = ((LastAccessed.follow (some p) >>= fun n => pure n.key) >>= fun k' => pure (keq k k')) s
        exact (bind_ub (bind_ub (m := LastAccessed.follow (some p)) hd)).symm
  · unfold Impl.lastNode at hn
    unfold LastAccessed.keyOf LastAccessed.informationOf
    rw [h1, h2, h3]
    cases hl : s.c.last with
    | none =>
      rw [show (Impl.getLast >>= _) s = _ from bind_ok (m := Impl.getLast) (show _ = Out.ok none s by rw [← hl]; rfl)] at hn
      cases hn
    | some p =>
      rw [show (Impl.getLast >>= _) s = _ from bind_ok (m := Impl.getLast) (show _ = Out.ok (some p) s by rw [← hl]; rfl)] at hn
      exact ⟨bind_ok (m := LastAccessed.follow (some p)) hn, bind_ok (m := LastAccessed.follow (some p)) hn⟩
  · unfold Impl.lastNode LastAccessed.keyOf LastAccessed.informationOf
    rw [h1, h2, h3]
    cases hl : s.c.last with
    | none =>
      refine .inr ⟨?_, rfl, rfl⟩
      exact bind_ok (m := Impl.getLast) (show _ = Out.ok none s by rw [← hl]; rfl)
    | some p =>
      have e := fun (f : Option Ptr → Impl.CM K V (MapNode K V)) => bind_ok (m := Impl.getLast (K := K) (V := V)) (f := f) (show _ = Out.ok (some p) s by rw [← hl]; rfl)
      rcases deref_alive s p with ⟨n, hn⟩ | ⟨_, hd⟩
      · exact .inl ⟨n, (e _).trans hn⟩
      · exact .inr ⟨(e _).trans hd, bind_ub (m := LastAccessed.follow (some p)) hd, bind_ub (m := LastAccessed.follow (some p)) hd⟩

/-! ### The hypotheses are met -/

/-- A cache with the entries 1 ↦ 10 and 2 ↦ 20. -/
abbrev laDemo : St (Cache Nat Nat) Nat Nat := demoState calmO [.create .basic (.sized 3), .op 0 (.insert 1 10), .op 0 (.insert 2 20)] 0

/-- Valid and invalid objects, live and dead nodes. -/
example : (LastAccessed.ofRefs 0 2).Made ∧ LastAccessed.empty.Made ∧
    (∃ l s', LastAccessed.ofIterator (some 0) laDemo = .ok l s' ∧ l.Made ∧ l.isValid = true) := by
  refine ⟨.ofRefs _ _, .empty, ?_⟩
  obtain ⟨s', h1, h2⟩ := Out.ok_fact (o := LastAccessed.ofIterator (some 0) laDemo) (a := .ofRefs 0 0) (f := fun _ => 0) (y := 0)
    (by decide +kernel) (by decide +kernel)
  exact ⟨_, s', h1, .ofIterator h1, rfl⟩

example : ∃ n, Alive laDemo 0 n := (deref_alive laDemo 0).resolve_right fun h => by
  have := (Out.isUb_iff (o := Impl.deref 0 laDemo)).2 h.2
  revert this
  decide +kernel

example : Gone laDemo 100 := by
  rcases deref_alive laDemo 100 with ⟨n, h⟩ | h
  · have := (Out.isUb_iff (o := Impl.deref 100 laDemo)).1 (by decide +kernel)
    rw [show Impl.deref 100 laDemo = _ from h] at this
    cases this
  · exact h.1

/-- The object of a cache that was just used. -/
example : (LastAccessed.ofRefs 2 2).At laDemo.c.last := by
  refine ⟨?_, ?_, ?_⟩ <;> decide +kernel

end LRU
