import Verif.Proofs.IterObjects
import Verif.Props.Insert
import Verif.Props.Iterators
import Verif.Props.Lookup
import Verif.Spec.Demo
/-!
# C66: iterator objects
-/

set_option linter.unusedSectionVars false
set_option autoImplicit false

namespace LRU

variable {K V : Type} [KeyEqual K] [DecidableEq K] [DecidableEq V] {O : Oracle K V} {heap : Bool}
  {t t' : ISt K V} {i j : Nat} {x y : MapNode K V}

/-! ### The stored entry -/

/-- C66: the entry an iterator object has stored is the one it denotes, unless this entry has left the cache. -/
theorem C66_stored_entry_is_the_denoted_one (hO : NoListFault O) (h : IReachable O heap t) {p : Ptr}
    (he : (t.its i).entry = some p) (hy : y ∈ elements t.s.c) (hp : y.addr = p) : (t.its i).Denotes t.s.c y := by
  have h1 := ((h.good hO).ents i p he).2
  cases ho : (t.its i).ordered with
  | true =>
    rw [ho, if_pos rfl] at h1
    exact h1 y hy hp
  | false =>
    rw [ho, if_neg (by simp)] at h1
    refine ⟨p, h1, ?_⟩
    rw [if_neg (by rw [ho]; simp)]
    exact ⟨hy, hp⟩

/-- An iterator object denotes at most one entry. -/
theorem C66_denotes_one (hO : NoListFault O) (h : IReachable O heap t) (hx : (t.its i).Denotes t.s.c x)
    (hy : (t.its i).Denotes t.s.c y) : x = y := (h.good hO).reach.denotes_inj hO hx hy

/-! ### Obtaining iterators -/

theorem onS_ok_inv {α : Type} {m : Impl.CM K V α} {a : α} (h : Impl.onS m t = .ok a t') :
    m t.s = .ok a t'.s ∧ t'.its = t.its := by
  unfold Impl.onS at h
  cases hm : m t.s with
  | ok b s1 => rw [hm] at h; cases h; exact ⟨rfl, rfl⟩
  | throw e s1 => rw [hm] at h; cases h
  | ub => rw [hm] at h; cases h
  | terminate => rw [hm] at h; cases h
  | diverge => rw [hm] at h; cases h

/-- C66: the iterator `find` returns denotes an entry with the key asked for. -/
theorem C66_find_denotes (hO : NoListFault O) (hA : NoAssignFault O) (h : IReachable O heap t) {k : K} {p : Ptr}
    (hp : IPerforms O heap (.find i k) t (.ok (.pos (some p))) t') :
    ∃ x, (t'.its i).Denotes t'.s.c x ∧ keq x.key k = true ∧ (t'.its i).entry = none := by
  have hs := (h.good hO).reach
  obtain ⟨r, t1, h1, h2⟩ := bind_ok_inv (show (Impl.onS (Impl.step O (.find k)) >>= _) t = .ok _ t' from hp)
  obtain ⟨u, t2, h3, h4⟩ := bind_ok_inv h2
  cases h4
  cases h3
  obtain ⟨hm, _⟩ := onS_ok_inv h1
  obtain ⟨x, h5, h6, h7, _⟩ := C07_hit_moves_entry_to_most_recent (k := k) hO hA hs (.inr (.inl rfl)) hm (by
    rintro (hf | hf) <;> cases hf)
  refine ⟨x, ⟨p, ?_, ?_⟩, ?_, ?_⟩
  · show (if i = i then (⟨false, some (some p), none⟩ : It) else _).pos = _
    rw [if_pos rfl]
  · show if (if i = i then (⟨false, some (some p), none⟩ : It) else _).ordered = true then _ else _
    rw [if_pos rfl, if_neg (by simp)]
    refine ⟨?_, ?_⟩
    · show x ∈ elements t1.s.c
      rw [h7]
      exact List.mem_append_right _ (List.mem_singleton.2 rfl)
    · injection h6 with h6
      injection h6 with h6
      exact h6.symm
  · exact List.find?_some (p := fun n : MapNode K V => keq n.key k) h5
  · show (if i = i then (⟨false, some (some p), none⟩ : It) else _).entry = _
    rw [if_pos rfl]

/-- C66: the iterator `insert` returns denotes an entry with the key and the value given. -/
theorem C66_insert_denotes (hO : NoListFault O) (h : IReachable O heap t) {k : K} {v : V} {b : Bool} {p : Ptr}
    (hp : IPerforms O heap (.insert i k v) t (.ok (.inserted b (some p))) t') :
    ∃ x, (t'.its i).Denotes t'.s.c x ∧ keq x.key k = true ∧ x.info.value = v ∧ (t'.its i).entry = none := by
  have hs := (h.good hO).reach
  obtain ⟨r, t1, h1, h2⟩ := bind_ok_inv (show (Impl.onS (Impl.step O (.insert k v)) >>= _) t = .ok _ t' from hp)
  obtain ⟨u, t2, h3, h4⟩ := bind_ok_inv h2
  cases h4
  cases h3
  obtain ⟨hm, _⟩ := onS_ok_inv h1
  obtain ⟨w, w', b', p', hr, ht, ho, hr', h5⟩ := hs.inserts (k := k) (v := v) hO (.inl rfl) hm
  injection h5 with h5 h6
  subst h5 h6
  suffices hx : ∃ x ∈ elements t1.s.c, x.addr = p ∧ keq x.key k = true ∧ x.info.value = v by
    obtain ⟨x, hx, h6, h7, h8⟩ := hx
    refine ⟨x, ⟨p, ?_, ?_⟩, h7, h8, ?_⟩
    · show (if i = i then (⟨false, some (some p), none⟩ : It) else _).pos = _
      rw [if_pos rfl]
    · show if (if i = i then (⟨false, some (some p), none⟩ : It) else _).ordered = true then _ else _
      rw [if_pos rfl, if_neg (by simp)]
      exact ⟨hx, h6⟩
    · show (if i = i then (⟨false, some (some p), none⟩ : It) else _).entry = _
      rw [if_pos rfl]
  rw [hr'.elements]
  cases ho with
  | full g' e l n _ hc hl hn _ hlt =>
    exact ⟨_, List.mem_map.2 ⟨_, List.mem_append_right _ (List.mem_singleton.2 rfl), rfl⟩, rfl, KeyEqual.refl _, rfl⟩
  | room g' n q _ hc hl _ _ _ =>
    exact ⟨_, List.mem_map.2 ⟨_, List.mem_append_right _ (List.mem_singleton.2 rfl), rfl⟩, rfl, KeyEqual.refl _, rfl⟩
  | update g' e n hf _ _ =>
    have := List.find?_some hf
    exact ⟨_, List.mem_map.2 ⟨_, List.mem_append_right _ (List.mem_singleton.2 rfl), rfl⟩, rfl, this, rfl⟩

/-- C66: `ordered_begin()` and the prefix operators move an ordered iterator from entry to entry, in both directions. -/
theorem C66_walking (hO : NoListFault O) (h : IReachable O heap t) :
    (∃ t', IPerforms O heap (.begin i true) t (.ok .unit) t' ∧ t'.s = t.s ∧
      t'.its i = ⟨true, some (position t.s.c 0), none⟩) ∧
    ∀ n, n < count t.s.c → (t.its i).ordered = true →
      ((t.its i).pos = some (position t.s.c n) → ∃ t', IPerforms O heap (.inc i) t (.ok .unit) t' ∧ t'.s = t.s ∧
        t'.its i = ⟨true, some (position t.s.c (n + 1)), none⟩) ∧
      ((t.its i).pos = some (position t.s.c (n + 1)) → ∃ t', IPerforms O heap (.dec i) t (.ok .unit) t' ∧ t'.s = t.s ∧
        t'.its i = ⟨true, some (position t.s.c n), none⟩) := by
  have hs := (h.good hO).reach
  obtain ⟨h0, hn⟩ := C35_increment_and_decrement hO hs
  have setIt : ∀ it : It, Impl.setIt i it t = .ok () ⟨t.s, fun k => if k = i then it else t.its k⟩ := fun _ => rfl
  refine ⟨?_, fun n hlt ho => ⟨fun hp => ?_, fun hp => ?_⟩⟩
  · obtain ⟨o, h1, h2⟩ := ret_ok_inv h0
    injection h2 with h2
    refine ⟨⟨t.s, fun k => if k = i then ⟨true, some (position t.s.c 0), none⟩ else t.its k⟩, ?_, rfl, if_pos rfl⟩
    · show Impl.ret _ _ t = _
      unfold Impl.ret
      rw [bind_bind, bind_ok (m := Impl.onS Impl.oBegin) (a := o) (s' := t) (by unfold Impl.onS; rw [h1]), ← h2,
        bind_ok (setIt _)]
      rfl
  · obtain ⟨o, h1, h2⟩ := ret_ok_inv (hn n hlt).1
    injection h2 with h2
    refine ⟨⟨t.s, fun k => if k = i then ⟨true, some (position t.s.c (n + 1)), none⟩ else t.its k⟩, ?_, rfl, if_pos rfl⟩
    · show Impl.ret _ _ t = _
      unfold Impl.ret Impl.incI
      rw [bind_bind, bind_ok (m := Impl.getIt i) (s := t) rfl, bind_bind,
        bind_ok (m := Impl.posOf (t.its i)) (s := t) (a := position t.s.c n) (s' := t)
          (by unfold Impl.posOf; rw [hp]; rfl), bind_bind,
        bind_ok (m := Impl.onS _) (a := o.pos) (s' := t)
          (by unfold Impl.onS; rw [ho, if_pos rfl, bind_ok h1]; rfl), ho, ← h2, bind_ok (setIt _)]
      rfl
  · obtain ⟨o, h1, h2⟩ := ret_ok_inv (hn n hlt).2
    injection h2 with h2
    refine ⟨⟨t.s, fun k => if k = i then ⟨true, some (position t.s.c n), none⟩ else t.its k⟩, ?_, rfl, if_pos rfl⟩
    · show Impl.ret _ _ t = _
      unfold Impl.ret Impl.decI
      rw [bind_bind, bind_ok (m := Impl.getIt i) (s := t) rfl, if_pos ho, bind_bind,
        bind_ok (m := Impl.posOf (t.its i)) (s := t) (a := position t.s.c (n + 1)) (s' := t)
          (by unfold Impl.posOf; rw [hp]; rfl), bind_bind,
        bind_ok (m := Impl.onS _) (a := o.pos) (s' := t)
          (by unfold Impl.onS; rw [bind_ok h1]; rfl), ho, ← h2, bind_ok (setIt _)]
      rfl

/-! ### Reading -/

/-- The call that reads the value at the place of an iterator, using a new iterator object. -/
def It.valueCall (it : It) : Op K V := if it.ordered then .oValue it.pos.join else .uValue it.pos.join

/-- The call that reads the key at the place of an iterator, using a new iterator object. -/
def It.keyCall (it : It) : Op K V := if it.ordered then .oKey it.pos.join else .uKey it.pos.join

/-- The stored entry, if any, is in the cache. -/
def It.Live (it : It) (c : Cache K V) : Prop := ∀ p, it.entry = some p → ∃ y ∈ elements c, y.addr = p

theorem IReachable.entry (hO : NoListFault O) (h : IReachable O heap t) (hd : (t.its i).Denotes t.s.c x)
    (hl : (t.its i).Live t.s.c) : (t.its i).entry = none ∨ (t.its i).entry = some x.addr := by
  cases he : (t.its i).entry with
  | none => exact .inl rfl
  | some p =>
    obtain ⟨y, hy, rfl⟩ := hl p he
    rw [C66_denotes_one hO h hd (C66_stored_entry_is_the_denoted_one hO h he hy rfl)]
    exact .inr rfl

theorem onCacheI_ret {α : Type} {m : Impl.IM K V α} {m' : Impl.CM K V α} {f : α → Res K V}
    {s : St (Cache K V) K V} (h : (m t).onCache = m' s) : (Impl.ret m f t).onCache = Impl.ret m' f s := by
  unfold Impl.ret
  cases hm : m t with
  | ok a u => rw [hm] at h; rw [bind_ok hm, bind_ok h.symm]; rfl
  | throw e u => rw [hm] at h; rw [bind_throw hm, bind_throw h.symm]; rfl
  | ub => rw [hm] at h; rw [bind_ub hm, bind_ub h.symm]; rfl
  | terminate => rw [hm] at h; rw [bind_terminate hm, bind_terminate h.symm]; rfl
  | diverge => rw [hm] at h; rw [bind_diverge hm, bind_diverge h.symm]; rfl

/-- C66: storing the entry cannot be noticed: reading through an iterator object that denotes an entry has the same
outcome as reading through a new iterator at the same place, including exceptions and effects on the cache. -/
theorem C66_reads_like_a_new_iterator (hO : NoListFault O) (h : IReachable O heap t) (hd : (t.its i).Denotes t.s.c x)
    (hl : (t.its i).Live t.s.c) :
    (Impl.istep O heap (.value i) t).onCache = Impl.step O (t.its i).valueCall t.s ∧
    (Impl.istep O heap (.key i) t).onCache = Impl.step O (t.its i).keyCall t.s := by
  have hs := (h.good hO).reach
  have he := h.entry hO hd hl
  obtain ⟨q, h1, h2⟩ := hd
  unfold It.valueCall It.keyCall
  rw [h1]
  cases ho : (t.its i).ordered with
  | true =>
    rw [ho, if_pos rfl] at h2
    rw [if_pos rfl, if_pos rfl]
    obtain ⟨h3, h4⟩ := valueI_ordered hO hs ho h1 h2 he
    exact ⟨onCacheI_ret (by rw [h3, checked_onCache]; exact h4.symm), onCacheI_ret (keyI_ordered h1 ho)⟩
  | false =>
    rw [ho, if_neg (by simp)] at h2
    rw [if_neg (by simp), if_neg (by simp)]
    obtain ⟨h2, rfl⟩ := h2
    obtain ⟨h3, h4⟩ := valueI_unordered hO hs ho h1 h2 he
    obtain ⟨h5, h6⟩ := keyI_unordered hO hs ho h1 h2 he
    exact ⟨onCacheI_ret (by rw [h3, checked_onCache]; exact h4.symm),
      onCacheI_ret (by rw [h5, checked_onCache]; exact h6.symm)⟩

theorem onCacheI_ok {α : Type} {o : Out (ISt K V) α} {a : α} {s : St (Cache K V) K V} (h : o.onCache = .ok a s) :
    ∃ t, o = .ok a t ∧ t.s = s := by
  cases o with
  | ok b u => injection h with h1 h2; exact ⟨u, by rw [h1], h2⟩
  | throw e u => cases h
  | ub => cases h
  | terminate => cases h
  | diverge => cases h

/-- C66: on a plain cache, `value()` and `key()` of an iterator object give the current value and the key of the entry
it denotes. -/
theorem C66_reading (hO : NoListFault O) (h : IReachable O heap t) (hd : (t.its i).Denotes t.s.c x)
    (hl : (t.its i).Live t.s.c) (hb : t.s.c.kind = .basic) :
    (∃ t', IPerforms O heap (.value i) t (.ok (.value x.info.value)) t') ∧
    (∃ t', IPerforms O heap (.key i) t (.ok (.key x.key)) t') := by
  have hs := (h.good hO).reach
  obtain ⟨h3, h4⟩ := C66_reads_like_a_new_iterator hO h hd hl
  obtain ⟨q, h1, h2⟩ := hd
  have hq : ∃ q, At t.s.c q x ∧ ((t.its i).ordered = true → (t.its i).pos = some (some q)) ∧
      ((t.its i).ordered = false → (t.its i).pos = some (some x.addr)) := by
    cases ho : (t.its i).ordered with
    | true =>
      rw [ho, if_pos rfl] at h2
      exact ⟨q, h2, fun _ => h1, fun hf => by cases hf⟩
    | false =>
      rw [ho, if_neg (by simp)] at h2
      obtain ⟨q', hq'⟩ := hs.at_of_mem hO h2.1
      exact ⟨q', hq', (fun hf => by cases hf), fun _ => by rw [h2.2]; exact h1⟩
  obtain ⟨q, hq, hp1, hp2⟩ := hq
  obtain ⟨⟨s1, r1⟩, ⟨s2, r2⟩, ⟨s3, r3⟩, ⟨s4, r4⟩, _⟩ := C34_valid_iterators_can_be_read hO hs hb hq
  unfold It.valueCall at h3
  unfold It.keyCall at h4
  cases ho : (t.its i).ordered with
  | true =>
    rw [ho, if_pos rfl, hp1 ho] at h3 h4
    obtain ⟨t1, e1, _⟩ := onCacheI_ok (h3.trans r2)
    obtain ⟨t2, e2, _⟩ := onCacheI_ok (h4.trans r1)
    exact ⟨⟨t1, e1⟩, ⟨t2, e2⟩⟩
  | false =>
    rw [ho, if_neg (by simp), hp2 ho] at h3 h4
    obtain ⟨t1, e1, _⟩ := onCacheI_ok (h3.trans r4)
    obtain ⟨t2, e2, _⟩ := onCacheI_ok (h4.trans r3)
    exact ⟨⟨t1, e1⟩, ⟨t2, e2⟩⟩

/-! ### Comparing -/

/-- The iterator is past the end. -/
def It.AtEnd (it : It) : Prop := it.pos = some none

theorem It.Denotes.pos {it : It} {c : Cache K V} (h : it.Denotes c x) : ∃ p, it.pos = some (some p) := ⟨_, h.choose_spec.1⟩

/-- The comparison of an ordered iterator object with an unordered one. -/
theorem eqOU_objects (hO : NoListFault O) {s : St (Cache K V) K V} (hs : Reachable O s) {a b : It} (ha : a.ordered = true)
    (hb : b.ordered = false) (hva : a.AtEnd ∨ ∃ x, a.Denotes s.c x) (hvb : b.AtEnd ∨ ∃ x, b.Denotes s.c x) :
    ∃ p q r, a.pos = some p ∧ b.pos = some q ∧ Impl.eqOU { pos := p } { pos := q } s = .ok r s ∧
      (r = true ↔ (a.AtEnd ∧ b.AtEnd) ∨ ∃ x, a.Denotes s.c x ∧ b.Denotes s.c x) := by
  obtain ⟨p, hp, hvp⟩ : ∃ p, a.pos = some p ∧ ValidO s.c p := by
    rcases hva with h | ⟨x, p, h1, h2⟩
    · exact ⟨none, h, .inl rfl⟩
    · rw [ha, if_pos rfl] at h2
      exact ⟨_, h1, .inr ⟨p, x, rfl, h2⟩⟩
  obtain ⟨q, hq, hvq⟩ : ∃ q, b.pos = some q ∧ ValidU s.c q := by
    rcases hvb with h | ⟨x, p, h1, h2⟩
    · exact ⟨none, h, .inl rfl⟩
    · rw [hb, if_neg (by simp)] at h2
      exact ⟨_, h1, .inr ⟨x, h2.1, by rw [h2.2]⟩⟩
  obtain ⟨r, h1, h2⟩ := C37_comparison hO hs hvp hvq
  obtain ⟨r', h3, h4⟩ := ret_ok_inv h1
  cases h4
  refine ⟨p, q, r, hp, hq, h3, h2.trans ?_⟩
  unfold It.AtEnd
  rw [hp, hq]
  constructor
  · rintro (⟨rfl, rfl⟩ | ⟨p', x, rfl, rfl, hx⟩)
    · exact .inl ⟨rfl, rfl⟩
    · refine .inr ⟨x, ⟨p', hp, by rw [ha, if_pos rfl]; exact hx⟩, ⟨x.addr, hq, ?_⟩⟩
      rw [hb, if_neg (by simp)]
      exact ⟨hx.1, rfl⟩
  · rintro (⟨h5, h6⟩ | ⟨x, ⟨p', h5, h6⟩, ⟨q', h7, h8⟩⟩)
    · cases h5; cases h6
      exact .inl ⟨rfl, rfl⟩
    · rw [hp] at h5
      rw [hq] at h7
      cases h5; cases h7
      rw [ha, if_pos rfl] at h6
      rw [hb, if_neg (by simp)] at h8
      exact .inr ⟨p', x, rfl, by rw [h8.2], h6⟩

/-- C66: iterator objects, ordered or not, that denote entries or are past the end compare equal iff they denote the same entry or
are both past the end, whether or not they have stored an entry. Comparing changes neither the cache nor the iterators. -/
theorem C66_equality (hO : NoListFault O) (h : IReachable O heap t) (hi : (t.its i).AtEnd ∨ ∃ x, (t.its i).Denotes t.s.c x)
    (hj : (t.its j).AtEnd ∨ ∃ x, (t.its j).Denotes t.s.c x) :
    ∃ b, IPerforms O heap (.eq i j) t (.ok (.bool b)) t ∧
      (b = true ↔ ((t.its i).AtEnd ∧ (t.its j).AtEnd) ∨ ∃ x, (t.its i).Denotes t.s.c x ∧ (t.its j).Denotes t.s.c x) := by
  have hs := (h.good hO).reach
  have run : ∀ {p q b}, (t.its i).pos = some p → (t.its j).pos = some q →
      ((if (t.its i).ordered == (t.its j).ordered then pure (p == q)
        else if (t.its i).ordered then Impl.onS (Impl.eqOU { pos := p } { pos := q })
        else Impl.onS (Impl.eqOU { pos := q } { pos := p }) : Impl.IM K V Bool) t = .ok b t) →
      IPerforms O heap (.eq i j) t (.ok (.bool b)) t := by
    intro p q b hp hq hb
    refine bind_ok (m := Impl.eqI i j) (a := b) ?_
    unfold Impl.eqI
    rw [bind_ok (m := Impl.getIt i) (s := t) rfl, bind_ok (m := Impl.getIt j) (s := t) rfl,
      bind_ok (m := Impl.posOf (t.its i)) (s := t) (a := p) (s' := t) (by unfold Impl.posOf; rw [hp]; rfl),
      bind_ok (m := Impl.posOf (t.its j)) (s := t) (a := q) (s' := t) (by unfold Impl.posOf; rw [hq]; rfl)]
    exact hb
  cases hoi : (t.its i).ordered <;> cases hoj : (t.its j).ordered
  case true.false =>
    obtain ⟨p, q, r, h1, h2, h3, h4⟩ := eqOU_objects hO hs hoi hoj hi hj
    refine ⟨r, run h1 h2 ?_, h4⟩
    rw [hoi, hoj]
    show Impl.onS (Impl.eqOU { pos := p } { pos := q }) t = _
    unfold Impl.onS
    rw [h3]
  case false.true =>
    obtain ⟨q, p, r, h1, h2, h3, h4⟩ := eqOU_objects hO hs hoj hoi hj hi
    refine ⟨r, run h2 h1 ?_, h4.trans ?_⟩
    · rw [hoi, hoj]
      show Impl.onS (Impl.eqOU { pos := q } { pos := p }) t = _
      unfold Impl.onS
      rw [h3]
    · exact or_congr And.comm (exists_congr fun x => And.comm)
  all_goals
    obtain ⟨p, hp⟩ : ∃ p, (t.its i).pos = some p := by
      rcases hi with h | ⟨x, p, h, _⟩
      · exact ⟨_, h⟩
      · exact ⟨_, h⟩
    obtain ⟨q, hq⟩ : ∃ q, (t.its j).pos = some q := by
      rcases hj with h | ⟨x, p, h, _⟩
      · exact ⟨_, h⟩
      · exact ⟨_, h⟩
    refine ⟨p == q, run hp hq (by rw [hoi, hoj]; rfl), ?_⟩
    rw [beq_iff_eq]
    constructor
    · rintro rfl
      rcases hi with h1 | ⟨x, p', h1, h2⟩
      · exact .inl ⟨h1, by unfold It.AtEnd at h1 ⊢; rw [hq, ← hp, h1]⟩
      · refine .inr ⟨x, ⟨p', h1, h2⟩, p', by rw [hq, ← hp, h1], ?_⟩
        rw [hoi] at h2
        rw [hoj]
        exact h2
    · rintro (⟨h1, h2⟩ | ⟨x, ⟨p', h1, h2⟩, ⟨q', h3, h4⟩⟩)
      · unfold It.AtEnd at h1 h2
        rw [hp] at h1; rw [hq] at h2
        cases h1; cases h2; rfl
      · rw [hp] at h1; rw [hq] at h3
        cases h1; cases h3
        rw [hoi] at h2; rw [hoj] at h4
        first
          | rw [if_pos rfl] at h2 h4
            rw [hs.at_place hO h2 h4]
          | rw [if_neg (by simp)] at h2 h4
            rw [← h2.2, ← h4.2]

/-! ### Copies -/

/-- C66: an iterator that has been copied, moved, assigned or converted from another one denotes what that one denoted; so
does the result of a postfix operator. None of this changes the cache. -/
theorem C66_copies_denote_the_same (hO : NoListFault O) (h : IReachable O heap t) (hij : i ≠ j) {op : IOp K V}
    (hop : op = .copy i j ∨ op = .moveNew i j ∨ op = .moveTo i j ∨ op = .convert i j ∨ op = .convertMove i j ∨
      op = .postInc i j ∨ op = .postDec i j) {r : Res K V} (hp : IPerforms O heap op t (.ok r) t')
    (hx : (t.its j).Denotes t.s.c x) : (t'.its i).Denotes t'.s.c x ∧ t'.s = t.s := by
  have hs := (h.good hO).reach
  have copy : ∀ {u : Unit}, Impl.copyI i j t = .ok u t' → (t'.its i).Denotes t'.s.c x ∧ t'.s = t.s := by
    intro u hc
    unfold Impl.copyI at hc
    rw [bind_ok (m := Impl.getIt j) (s := t) rfl, if_neg hij] at hc
    cases hc
    refine ⟨?_, rfl⟩
    show (if i = i then ({ t.its j with entry := none } : It) else t.its i).Denotes t.s.c x
    rw [if_pos rfl]
    exact hx
  have move : ∀ {u : Unit}, Impl.moveNewI heap i j t = .ok u t' → (t'.its i).Denotes t'.s.c x ∧ t'.s = t.s := by
    intro u hc
    unfold Impl.moveNewI at hc
    rw [bind_ok (m := Impl.getIt j) (s := t) rfl, if_neg hij] at hc
    cases hc
    refine ⟨?_, rfl⟩
    show (if i = i then t.its j else _).Denotes t.s.c x
    rw [if_pos rfl]
    exact hx
  have conv : ∀ {u : Unit} {temporary : Bool}, Impl.convertI heap temporary i j t = .ok u t' →
      (t'.its i).Denotes t'.s.c x ∧ t'.s = t.s := by
    intro u temporary hc
    unfold Impl.convertI at hc
    rw [bind_ok (m := Impl.getIt j) (s := t) rfl] at hc
    cases ho : (t.its j).ordered with
    | true =>
      rw [ho, if_pos rfl] at hc
      cases temporary with
      | true => exact move hc
      | false => exact copy hc
    | false =>
      rw [ho, if_neg (by simp)] at hc
      obtain ⟨p, h1, h2⟩ := hx
      rw [ho, if_neg (by simp)] at h2
      rw [bind_ok (m := Impl.posOf (t.its j)) (s := t) (a := some p) (s' := t)
        (by unfold Impl.posOf; rw [h1]; rfl)] at hc
      obtain ⟨o, t1, h3, h4⟩ := bind_ok_inv hc
      unfold Impl.onS at h3
      cases hm : Impl.toOrdered { pos := some p } t.s with
      | ok o' s' =>
        rw [hm] at h3
        cases h3
        have := toOrdered_idle.ok hm
        subst this
        obtain ⟨q, y, h5, h6, h7⟩ := hs.toOrdered_at hO hm
        injection h5 with h5
        have hxy : x = y := hs.addr_inj hO h2.1 h7.1 (h2.2.trans h5)
        subst hxy
        have fin : ∀ e, It.Denotes ⟨true, some o.pos, e⟩ t.s.c x := by
          intro e
          refine ⟨q, by rw [h6], ?_⟩
          rw [if_pos rfl]
          exact h7
        cases temporary with
        | true =>
          cases h4
          refine ⟨?_, rfl⟩
          show (if i = i then (⟨true, some o.pos, (t.its j).entry⟩ : It) else _).Denotes t.s.c x
          rw [if_pos rfl]
          exact fin _
        | false =>
          cases h4
          refine ⟨?_, rfl⟩
          show (if i = i then (⟨true, some o.pos, none⟩ : It) else _).Denotes t.s.c x
          rw [if_pos rfl]
          exact fin _
      | throw e s' => rw [hm] at h3; cases h3
      | ub => rw [hm] at h3; cases h3
      | terminate => rw [hm] at h3; cases h3
      | diverge => rw [hm] at h3; cases h3
  have post : ∀ {u : Unit} {f : Nat → Impl.IM K V Unit}, (∀ {v : Unit} {t1 : ISt K V}, f j t = .ok v t1 → t1.s = t.s) →
      Impl.postI f i j t = .ok u t' → (t'.its i).Denotes t'.s.c x ∧ t'.s = t.s := by
    intro u f hf hc
    unfold Impl.postI at hc
    rw [bind_ok (m := Impl.getIt j) (s := t) rfl] at hc
    obtain ⟨v, t1, h1, h2⟩ := bind_ok_inv hc
    have h3 := hf h1
    cases h2
    refine ⟨?_, h3⟩
    show (if i = i then ({ t.its j with entry := none } : It) else _).Denotes t1.s.c x
    rw [if_pos rfl, h3]
    exact hx
  have onS : ∀ {α : Type} {m : Impl.CM K V α} {a : α} {t1 t2 : ISt K V}, Idle m → Impl.onS m t1 = .ok a t2 → t2 = t1 := by
    intro α m a t1 t2 hm hc
    unfold Impl.onS at hc
    cases h1 : m t1.s with
    | ok b s' =>
      rw [h1] at hc
      cases hc
      rw [hm.ok h1]
    | throw e s' => rw [h1] at hc; cases hc
    | ub => rw [h1] at hc; cases hc
    | terminate => rw [h1] at hc; cases hc
    | diverge => rw [h1] at hc; cases hc
  have posOf : ∀ {it : It} {p : Option Ptr} {t1 t2 : ISt K V}, Impl.posOf it t1 = .ok p t2 → t2 = t1 := by
    intro it p t1 t2 hc
    unfold Impl.posOf at hc
    cases hp : it.pos with
    | none => rw [hp] at hc; cases hc
    | some q => rw [hp] at hc; cases hc; rfl
  rcases hop with rfl | rfl | rfl | rfl | rfl | rfl | rfl
  · obtain ⟨u, hm, _⟩ := ret_ok_inv hp
    exact copy hm
  · obtain ⟨u, hm, _⟩ := ret_ok_inv hp
    exact move hm
  · obtain ⟨u, hm, _⟩ := ret_ok_inv hp
    unfold Impl.moveToI at hm
    rw [bind_ok (m := Impl.getIt j) (s := t) rfl] at hm
    split at hm
    · exact move hm
    · exact copy hm
  · obtain ⟨u, hm, _⟩ := ret_ok_inv hp
    exact conv hm
  · obtain ⟨u, hm, _⟩ := ret_ok_inv hp
    exact conv hm
  · obtain ⟨u, hm, _⟩ := ret_ok_inv hp
    refine post (fun {v t1} hc => ?_) hm
    unfold Impl.incI at hc
    rw [bind_ok (m := Impl.getIt j) (s := t) rfl] at hc
    obtain ⟨p, t2, h1, h2⟩ := bind_ok_inv hc
    rw [posOf h1] at h2
    obtain ⟨q, t3, h3, h4⟩ := bind_ok_inv h2
    rw [onS (idle_ite (oNext_idle.bind fun _ => .pure) (uNext_idle.bind fun _ => .pure)) h3] at h4
    cases h4
    rfl
  · obtain ⟨u, hm, _⟩ := ret_ok_inv hp
    refine post (fun {v t1} hc => ?_) hm
    unfold Impl.decI at hc
    rw [bind_ok (m := Impl.getIt j) (s := t) rfl] at hc
    split at hc
    · obtain ⟨p, t2, h1, h2⟩ := bind_ok_inv hc
      rw [posOf h1] at h2
      obtain ⟨q, t3, h3, h4⟩ := bind_ok_inv h2
      rw [onS (oPrev_idle.bind fun _ => .pure) h3] at h4
      cases h4
      rfl
    · cases hc
      rfl

/-! ### Stability -/

/-- C66: whatever a program does with the cache and with other iterators, an iterator that is not assigned to or moved goes
on denoting the same entry, with the same key, as long as this entry is in the cache. -/
theorem C66_iterators_stay_put (hO : NoListFault O) (h : IReachable O heap t) {l : List (IOp K V)}
    (hr : IRun O heap t l t') (hi : ∀ op ∈ l, i ∉ op.targets) (hx : (t.its i).Denotes t.s.c x)
    (hy : y ∈ elements t'.s.c) (ha : y.addr = x.addr) : (t'.its i).Denotes t'.s.c y ∧ y.key = x.key := by
  have hg := h.good hO
  obtain ⟨c, hc⟩ := hr.history hO hg
  obtain ⟨h1, h2⟩ := hr.same hO hg hi
  obtain ⟨h3, h4⟩ := Denotes.history hO hg.reach hc hx hy ha
  refine ⟨?_, h4⟩
  unfold It.Denotes at h3 ⊢
  rw [h1, h2]
  exact h3

theorem It.Denotes.mem {it : It} {c : Cache K V} (h : it.Denotes c x) : x ∈ elements c := by
  obtain ⟨p, _, h2⟩ := h
  split at h2
  · exact h2.1
  · exact h2.1

theorem IRun.reachable {l l' : List (IOp K V)} {t'' : ISt K V} (h : IRun O heap t l t') (h' : IRun O heap t' l' t'') :
    IRun O heap t (l' ++ l) t'' := by
  induction h' with
  | nil => exact h
  | step _ hp ih => exact .step ih hp
  | elsewhere _ he ih => exact .elsewhere ih he

theorem IReachable.run {l : List (IOp K V)} (h : IReachable O heap t) (h' : IRun O heap t l t') : IReachable O heap t' := by
  obtain ⟨s, l', hs, hr⟩ := h
  exact ⟨s, _, hs, hr.reachable h'⟩

/-- C66, everything together: an iterator that denotes an entry now can be used after any program that does not assign to it
or move it, as long as the entry is in the cache then: its stored entry has not gone stale, and on a plain cache it gives
the key and the current value. -/
theorem C66_reading_later (hO : NoListFault O) (h : IReachable O heap t) {l : List (IOp K V)}
    (hr : IRun O heap t l t') (hi : ∀ op ∈ l, i ∉ op.targets) (hx : (t.its i).Denotes t.s.c x)
    (hl : (t.its i).Live t.s.c) (hy : y ∈ elements t'.s.c) (ha : y.addr = x.addr) :
    (t'.its i).Live t'.s.c ∧ (t'.s.c.kind = .basic →
      (∃ t'', IPerforms O heap (.value i) t' (.ok (.value y.info.value)) t'') ∧
      (∃ t'', IPerforms O heap (.key i) t' (.ok (.key x.key)) t'')) := by
  have hg := h.good hO
  obtain ⟨h1, h2⟩ := C66_iterators_stay_put hO h hr hi hx hy ha
  have htr : Track i x.addr t := by
    obtain ⟨u, hu, _⟩ := hg.reach.rel hO
    refine ⟨hu.addr_lt hx.mem, fun z hz hza => ?_⟩
    rw [hg.reach.addr_inj hO hz hx.mem hza]
    exact ⟨hx, h.entry hO hx hl⟩
  have hlive : (t'.its i).Live t'.s.c := by
    intro p hp
    rcases ((hr.track hO hg hi htr).2 y hy ha).2 with h3 | h3
    · rw [h3] at hp; cases hp
    · rw [h3] at hp; injection hp with hp; exact ⟨y, hy, ha.trans hp⟩
  refine ⟨hlive, fun hb => ?_⟩
  rw [← h2]
  exact C66_reading hO (h.run hr) h1 hlive hb

/-! ### When the entry leaves the cache -/

/-- Inserting an absent key into a full cache reuses the list node of the least recently used entry: ordered iterators that
denoted this entry denote the new one afterwards. -/
theorem C66_evicted_iterators_denote_the_new_entry (hO : NoListFault O) {s s' : St (Cache K V) K V} (hs : Reachable O s)
    {op : Op K V} {k : K} {v : V} (hi : op.Inserts k v) (hk : ¬ Stored s.c k) (hcap : s.c.capacity = some (count s.c))
    {r : Res K V} (hd : Returns O op s r s') (hx : (elements s.c).head? = some x) {q : Ptr} (hq : At s.c q x) :
    ∃ y, At s'.c q y ∧ Holds y k v ∧ y.addr ≠ x.addr ∧ x ∉ elements s'.c := by
  obtain ⟨t, t', b, p, hr, ht, ho, hr', rfl⟩ := hs.inserts hO hi hd
  rw [hr.not_stored] at hk
  rw [hr.rep.cap, hr.count] at hcap
  rw [hr.elements] at hx
  obtain ⟨a, ha, rfl, rfl⟩ := (hr.at_iff ht).1 hq
  cases ho with
  | zero hc =>
    rw [hc] at hcap; injection hcap with hcap
    rw [List.eq_nil_of_length_eq_zero hcap.symm] at hx; cases hx
  | full g' e l n _ hc hl hn _ hlt =>
    rw [hl] at hx
    injection hx with hx
    have hea : a = e := map_inj_of_nodup ht.awf.ids a ha e (by rw [hl]; exact List.mem_cons_self ..)
      (congrArg MapNode.addr hx).symm
    subst hea
    have hlt : a.id < t.g.next := ht.awf.lt _ ha |>.1
    refine ⟨Ent.node ⟨t.g.next, a.slot, k, v, t.c.kind.stamp (O.clock t.g.ticks), some a.slot⟩, ?_, ⟨rfl, rfl⟩, ?_, ?_⟩
    · refine ⟨?_, ?_⟩
      · rw [hr'.elements, List.map_append]
        exact List.mem_append_right _ (List.mem_singleton.2 rfl)
      · rw [hr'.rep.order, List.map_append]
        exact List.mem_append_right _ (List.mem_singleton.2 rfl)
    · exact (Nat.ne_of_lt hlt).symm
    · rw [hr'.elements]
      intro hm
      obtain ⟨b, hb, hba⟩ := List.mem_map.1 hm
      have hid : b.id = a.id := congrArg MapNode.addr hba
      have hnd := ht.awf.ids
      rw [hl, List.map_cons, List.nodup_cons] at hnd
      rcases List.mem_append.1 hb with hb | hb
      · exact hnd.1 (List.mem_map.2 ⟨b, hb, hid⟩)
      · rw [List.mem_singleton.1 hb] at hid
        exact Nat.ne_of_lt hlt hid.symm
  | room g' n q _ hc hl _ _ _ => rw [hc] at hcap; injection hcap with hcap; omega
  | update g' e n hf _ _ => rw [hf] at hk; cases hk

/-- An ordered iterator of a plain cache that has stored an entry and whose entry has been evicted in this way: `key()` gives
the key of the new entry, `value()` follows the reference to the old one, which is undefined behaviour. -/
theorem C66_stale_entry (hO : NoListFault O) (h : IReachable O heap t) (hb : t.s.c.kind = .basic)
    (ho : (t.its i).ordered = true) (hd : (t.its i).Denotes t.s.c y) {p : Ptr} (he : (t.its i).entry = some p)
    (hp : p ≠ y.addr) :
    (∃ t', IPerforms O heap (.key i) t (.ok (.key y.key)) t') ∧ Impl.istep O heap (.value i) t = .ub := by
  have hs := (h.good hO).reach
  have hd' := hd
  obtain ⟨q, h1, h2⟩ := hd
  rw [ho, if_pos rfl] at h2
  obtain ⟨⟨s1, r1⟩, _⟩ := C34_valid_iterators_can_be_read hO hs hb h2
  have hv : Impl.throwIfInvalidO O (some q) t.s = .ok () t.s := by
    unfold Impl.throwIfInvalidO
    dsimp only
    rw [bind_ok (m := Impl.getKind) (s := t.s) rfl, hb]
    rfl
  refine ⟨?_, ?_⟩
  · have hk : (Impl.istep O heap (.key i) t).onCache = Impl.step O (.oKey (some q)) t.s :=
      onCacheI_ret (keyI_ordered h1 ho)
    obtain ⟨t1, e1, _⟩ := onCacheI_ok (hk.trans r1)
    exact ⟨t1, e1⟩
  · have hm : Impl.materialise i t = .ok () t := by
      unfold Impl.materialise
      rw [bind_ok (m := Impl.getIt i) (s := t) rfl, he]
      rfl
    have he' : Impl.entryOf O i t = .ok () t := by
      unfold Impl.entryOf
      rw [bind_ok (m := Impl.getIt i) (s := t) rfl, if_pos ho]
      rw [bind_ok (m := Impl.posOf (t.its i)) (s := t) (a := some q) (s' := t) (by unfold Impl.posOf; rw [h1]; rfl)]
      rw [bind_ok (m := Impl.onS _) (a := ()) (s' := t) (by unfold Impl.onS; rw [hv])]
      exact hm
    have hn : Impl.storedNode i t = .ub := by
      unfold Impl.storedNode
      rw [bind_ok (m := Impl.getIt i) (s := t) rfl, he]
      unfold Impl.onS
      have hid := derefIt_idle (K := K) (V := V) (p := some p) t.s
      cases hx : Impl.derefIt (some p) t.s with
      | ok n s' =>
        rw [hx] at hid
        simp only at hid
        subst hid
        obtain ⟨h3, h4⟩ := hs.derefIt_mem hO hx
        injection h4 with h4
        exact absurd (congrArg MapNode.addr (C66_denotes_one hO h
          (C66_stored_entry_is_the_denoted_one hO h he h3 h4.symm) hd')) (fun hf => hp (h4.trans hf))
      | throw e s' => unfold Impl.derefIt at hx; dsimp only at hx; split at hx <;> cases hx
      | ub => rfl
      | terminate => unfold Impl.derefIt at hx; dsimp only at hx; split at hx <;> cases hx
      | diverge => unfold Impl.derefIt at hx; dsimp only at hx; split at hx <;> cases hx
    show Impl.ret (Impl.valueI O i) .value t = .ub
    unfold Impl.ret Impl.valueI
    exact bind_ub (by rw [bind_ok he']; exact bind_ub hn)

/-! ### Concrete programs -/

/-- A program on `demo3` (which holds 2, 3, 1 in this order): iterators to 2 and 3, a copy, a conversion, a swap, an update of 3
through one of them; then 4 is inserted, which evicts 2. -/
def iterProg : List (IOp Nat Nat) :=
  [.begin 0 true, .postInc 1 0, .deref 0, .copy 2 0, .find 3 3, .value 3, .convertMove 4 3, .swap 2 0, .setValue 4 31,
   .call (.insert 4 40)]

/-- Iterators 0, 2 and 4 (ordered) and 3 (unordered) all give the new value of 3; iterator 1, whose entry has been evicted,
has key 4. -/
example : let t := idemo calmO true iterProg (demoState calmO demo3 0)
    ([0, 2, 3, 4].map fun i => (Impl.istep calmO true (.value i) t).result) =
      [some (.value 31), some (.value 31), some (.value 31), some (.value 31)] ∧
    (Impl.istep calmO true (.key 1) t).result = some (.key 4) ∧
    (Impl.istep calmO true (.eq 0 4) t).result = some (.bool true) ∧ (t.its 0).entry ≠ (t.its 4).entry ∧
    (Impl.istep calmO true (.eq 3 4) t).result = some (.bool true) ∧
    (Impl.istep calmO true (.eq 1 4) t).result = some (.bool false) := by
  refine ⟨?_, ?_, ?_, ?_, ?_, ?_⟩ <;> decide +kernel

theorem iexec_run {l : List (IOp K V)} (h : iexec O heap l t = some t') : ∃ l', IRun O heap t l' t' := by
  induction l generalizing t with
  | nil => injection h with h; exact ⟨[], h ▸ .nil⟩
  | cons op l ih =>
    unfold iexec at h
    cases hs : Impl.istep O heap op t with
    | ok r u =>
      rw [hs] at h
      obtain ⟨l', hl'⟩ := ih h
      exact ⟨_, (IRun.step .nil (res := .ok r) hs).reachable hl'⟩
    | throw e u =>
      rw [hs] at h
      obtain ⟨l', hl'⟩ := ih h
      exact ⟨_, (IRun.step .nil (res := .error e) hs).reachable hl'⟩
    | ub => rw [hs] at h; cases h
    | terminate => rw [hs] at h; cases h
    | diverge => rw [hs] at h; cases h

theorem idemo_reachable {l : List (IOp K V)} {s : St (Cache K V) K V} (hs : Reachable O s)
    (h : (iexec O heap l ⟨s, fun _ => It.singular true⟩).isSome = true) : IReachable O heap (idemo O heap l s) := by
  unfold idemo
  cases hd : iexec O heap l ⟨s, fun _ => It.singular true⟩ with
  | none => rw [hd] at h; cases h
  | some t =>
    obtain ⟨l', hl'⟩ := iexec_run hd
    exact ⟨s, l', hs, hl'⟩

theorem iterProg_reachable : IReachable calmO true (idemo calmO true iterProg (demoState calmO demo3 0)) :=
  idemo_reachable demo3_reachable (by decide +kernel)

/-- The hypotheses of the theorems are met: after the program above, iterator 4 denotes the entry for 3 and has stored it. -/
example : ∃ t : ISt Nat Nat, IReachable calmO true t ∧ ∃ x, (t.its 4).Denotes t.s.c x ∧ x.key = 3 ∧ (t.its 4).Live t.s.c ∧
    (t.its 4).entry = some x.addr := by
  have h1 := iterProg_reachable
  have h2 : ((idemo calmO true iterProg (demoState calmO demo3 0)).its 4).entry.bind
      (fun p => ((elements (idemo calmO true iterProg (demoState calmO demo3 0)).s.c).find? (fun x => x.addr == p)).map
        (·.key)) = some 3 := by decide +kernel
  generalize idemo calmO true iterProg (demoState calmO demo3 0) = t at h1 h2
  refine ⟨t, h1, ?_⟩
  cases he : (t.its 4).entry with
  | none => rw [he] at h2; cases h2
  | some p =>
    rw [he] at h2
    obtain ⟨x, hx, hk⟩ := Option.map_eq_some_iff.1 h2
    have hp : x.addr = p := by
      have := List.find?_some hx
      rwa [beq_iff_eq] at this
    have hm := List.mem_of_find?_eq_some hx
    refine ⟨x, C66_stored_entry_is_the_denoted_one calmO_calm.noListFault h1 he hm hp, hk, ?_, by rw [hp]⟩
    intro p' hp'
    rw [he] at hp'
    injection hp' with hp'
    exact ⟨x, hm, hp.trans hp'⟩

/-- C66, refuted: an iterator can come to denote another entry without being assigned to or moved. -/
theorem C66_refuted :
    ¬ ∀ (O : Oracle Nat Nat) (heap : Bool) (t t' : ISt Nat Nat) (i : Nat) (l : List (IOp Nat Nat)) (x y : MapNode Nat Nat),
      Calm O → IReachable O heap t → IRun O heap t l t' → (∀ op ∈ l, i ∉ op.targets) →
      (t.its i).Denotes t.s.c x → (t'.its i).Denotes t'.s.c y → y.addr = x.addr ∧ y.key = x.key := by
  intro hall
  have hO := calmO_calm.noListFault
  have hre := demo3_reachable
  have h1 : ((elements (demoState calmO demo3 0).c).all fun x => x.key != 4) = true := by decide +kernel
  have h2 : (demoState calmO demo3 0).c.capacity = some (count (demoState calmO demo3 0).c) := by decide +kernel
  have h3 : 0 < count (demoState calmO demo3 0).c := by decide +kernel
  obtain ⟨s', hd⟩ := Out.ok_of (o := Impl.step calmO (.insert 4 40) (demoState calmO demo3 0))
    (a := .inserted true (some 6)) (by decide +kernel)
  generalize demoState calmO demo3 0 = s at hre h1 h2 h3 hd
  have hi : IReachable calmO true ⟨s, fun _ => It.singular true⟩ := ⟨s, [], hre, .nil⟩
  obtain ⟨⟨t, hp, ht, hit⟩, _⟩ := C66_walking (i := 0) hO hi
  obtain ⟨x, hx⟩ : ∃ x, (elements s.c)[0]? = some x := ⟨_, List.getElem?_eq_getElem h3⟩
  obtain ⟨q, hq1, hq2⟩ := (C35_positions_denote_entries hO hre 0).1 x hx
  have hns : ¬ Stored s.c 4 := by
    rintro ⟨n, hn, hk⟩
    have h5 := List.all_eq_true.1 h1 n hn
    have h6 : n.key = 4 := eq_of_beq hk
    rw [h6] at h5
    cases h5
  obtain ⟨y, hy1, hy2, hy3, _⟩ := C66_evicted_iterators_denote_the_new_entry (op := .insert 4 40) hO hre (.inl rfl) hns h2 hd
    (by rw [List.head?_eq_getElem?]; exact hx) hq2
  have hts : t = ⟨s, t.its⟩ := by cases t; cases ht; rfl
  have hstep : IPerforms calmO true (.call (.insert 4 40)) t (.ok (.inserted true (some 6))) ⟨s', t.its⟩ := by
    show Impl.onS (Impl.step calmO (.insert 4 40)) t = _
    unfold Impl.onS
    rw [show t.s = s from ht, hd]
  have hden : ∀ (c : Cache Nat Nat) z, At c q z → (t.its 0).Denotes c z := by
    intro c z hz
    refine ⟨q, ?_, ?_⟩
    · rw [hit]
      show some (position s.c 0) = _
      rw [hq1]
    · rw [hit, if_pos rfl]
      exact hz
  have := hall calmO true t ⟨s', t.its⟩ 0 [.call (.insert 4 40)] x y calmO_calm
    ⟨s, _, hre, .step .nil hp⟩ (.step .nil hstep)
    (by intro op hop; rw [List.mem_singleton.1 hop]; exact List.not_mem_nil)
    (hden _ _ (by rw [show t.s = s from ht]; exact hq2)) (hden _ _ hy1)
  exact hy3 this.1

/-- Undefined behaviour through a stored entry: iterator 0 has been dereferenced at the least recently used entry, which
is then evicted. -/
example : let t := idemo calmO true [.begin 0 true, .deref 0, .call (.insert 4 40)] (demoState calmO demo3 0)
    (Impl.istep calmO true (.key 0) t).result = some (.key 4) ∧ (Impl.istep calmO true (.value 0) t).isUb = true := by
  constructor
  · decide +kernel
  · decide +kernel

end LRU
