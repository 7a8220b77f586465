import Verif.Proofs.CostPays
import Verif.Proofs.HistoryInv
import Verif.Proofs.Outcomes
import Verif.Proofs.Walk
import Verif.Spec.Cost
/-!
# The cost of calls: lemmas for `Props.Cost`
-/

set_option linter.unusedSectionVars false
set_option autoImplicit false

namespace LRU

open Metered

namespace Cost

variable {K V α β : Type} [KeyEqual K] [DecidableEq K] {O : Oracle K V} {s : St (Cache K V) K V}

theorem NoGrow.noexcept {m : Impl.CM K V α} (h : NoGrow m) : NoGrow (M.noexcept m) := by
  intro s s' hs
  unfold M.noexcept at hs
  cases hm : m s with
  | ok a s1 =>
    rw [hm] at hs
    exact h s s' (by rw [hm]; exact hs)
  | _ => rw [hm] at hs; rcases hs with ⟨_, h⟩ | ⟨_, h⟩ <;> cases h

theorem NoGrow.ret {m : Impl.CM K V α} {f : α → Res K V} (h : NoGrow m) : NoGrow (Impl.ret m f) := h.bind fun _ => .pure

theorem noGrow_uEntry (it : Impl.UIt) : NoGrow (Impl.uEntry O it : Impl.CM K V Impl.UIt) := by
  unfold Impl.uEntry
  refine .bind ?_ fun it => .bind ?_ fun _ => .pure
  · unfold Impl.uDeref
    cases it.entry with
    | some _ => exact .pure
    | none => exact (noGrow_derefIt _).bind fun _ => .pure
  · cases it.pos with
    | none => exact .throw
    | some p =>
      refine .bind .read fun kind => ?_
      cases kind with
      | basic => exact .pure
      | timed => exact (noGrow_derefIt _).bind fun _ => (noGrow_hasExpiredInfo _).bind fun _ => .ite .throw .pure

theorem noGrow_hasExpiredU (pos : Option Ptr) : NoGrow (Impl.hasExpiredU O pos : Impl.CM K V Bool) := by
  cases pos with
  | none => exact .pure
  | some p => exact (noGrow_derefIt _).bind fun _ => noGrow_hasExpiredInfo _

theorem noGrow_toOrdered (it : Impl.UIt) : NoGrow (Impl.toOrdered it : Impl.CM K V Impl.OIt) := by
  unfold Impl.toOrdered
  cases it.pos with
  | none => exact .throw
  | some p =>
    refine (noGrow_derefIt _).bind fun n => ?_
    cases n.info.order with
    | none => exact .ub
    | some q => exact .pure

theorem noGrow_isEmpty : NoGrow (Impl.isEmpty : Impl.CM K V Bool) := .bind .read fun _ => .pure

theorem PaysAt.up {m : CM K V α} {h n : Nat} (hm : PaysAt m s h n) (h1 : h ≤ 4) (h2 : n ≤ 5) : PaysAt m s (4 * 1) (5 * 1) :=
  hm.mono h1 h2

/-- Every call is paid for by the elements that it was given and that it removes. -/
theorem step_pays (op : Op K V) (hs : s.c.order.length ≤ s.c.map.length) :
    PaysAt (step O op) s (4 * op.weight) (5 * op.weight) := by
  cases op with
  | contains k => exact (contains_pays k).ret.up (by decide) (by decide)
  | find k => exact (find_pays k).ret.up (by decide) (by decide)
  | lookup k => exact (lookup_pays k).ret.up (by decide) (by decide)
  | insert k v => exact (insert_pays k v).ret
  | emplace k v => exact (emplace_pays k v).ret
  | insertRange l => exact (insertRange_pays l).ret
  | insertRangeMove l => exact (insertRangeMove_pays l).ret
  | assignRange l => exact (assignRange_pays hs l).ret
  | assignRangeMove l => exact (assignRangeMove_pays hs l).ret
  | erase k => exact (erase_pays k).ret.up (by decide) (by decide)
  | eraseU pos => exact (eraseU_pays pos).ret.up (by decide) (by decide)
  | eraseO pos => exact (eraseO_pays _).ret.up (by decide) (by decide)
  | clear => exact (clear_pays hs).ret.up (by decide) (by decide)
  | shrink n => exact (shrink_pays hs n).ret.up (by decide) (by decide)
  | setCapacity n => exact (setCapacity_pays n).ret.up (by decide) (by decide)
  | allExpired => exact allExpired_pays.ret.up (by decide) (by decide)
  | clearExpired => exact clearExpired_pays.ret.up (by decide) (by decide)
  | hasExpired k => exact (hasExpired_pays k).ret.up (by decide) (by decide)
  | hasExpiredO pos => exact (hasExpiredO_pays pos).ret.up (by decide) (by decide)
  | isValidO pos => exact (isValidO_pays pos).ret.up (by decide) (by decide)
  | oKey pos => exact (oKey_pays _).ret.up (by decide) (by decide)
  | oValue pos => exact (oValue_pays _).ret.up (by decide) (by decide)
  | size => exact .freely (.ret .read)
  | capacity => exact .freely (.ret noGrow_readCapacity)
  | spaceLeft => exact .freely (.ret (noGrow_readCapacity.bind fun _ => .bind .read fun _ => .pure))
  | isEmpty => exact .freely (.ret noGrow_isEmpty)
  | isFull => exact .freely (.ret (.bind .read fun _ => noGrow_readCapacity.bind fun _ => .pure))
  | front =>
    exact .freely (.ret (.noexcept (noGrow_isEmpty.bind fun _ => .ite .throw (noGrow_orderBack.bind fun _ => noGrow_keyOf _))))
  | back =>
    exact .freely (.ret (.noexcept (noGrow_isEmpty.bind fun _ => .ite .throw (noGrow_orderFront.bind fun _ => noGrow_keyOf _))))
  | hasExpiredU pos => exact .freely (.ret (noGrow_hasExpiredU pos))
  | isValidU pos =>
    refine .freely (.ret ?_)
    cases pos with
    | none => exact .pure
    | some p =>
      refine .bind .read fun kind => ?_
      cases kind with
      | basic => exact .pure
      | timed => exact (noGrow_hasExpiredU _).bind fun _ => .pure
  | uKey pos => exact .freely (.ret ((noGrow_uEntry _).bind fun _ => (noGrow_derefIt _).bind fun _ => .pure))
  | uValue pos => exact .freely (.ret ((noGrow_uEntry _).bind fun _ => (noGrow_derefIt _).bind fun _ => .pure))
  | oBegin => exact .freely (.ret (.bind .read fun _ => .pure))
  | oNext pos =>
    refine .freely (.ret (.bind .read fun as => ?_))
    cases pos with
    | none => exact .ub
    | some p =>
      show NoGrow (match Impl.after p as with | none => M.ub | some q => pure { pos := q } : Impl.CM K V Impl.OIt)
      cases Impl.after p as with
      | none => exact .ub
      | some q => exact .pure
  | oPrev pos =>
    refine .freely (.ret (.bind .read fun as => ?_))
    cases pos with
    | none =>
      show NoGrow (match as.getLast? with | none => M.ub | some q => pure { pos := some q } : Impl.CM K V Impl.OIt)
      cases as.getLast? with
      | none => exact .ub
      | some q => exact .pure
    | some p =>
      show NoGrow (match Impl.after p as.reverse with | some (some q) => pure { pos := some q } | _ => M.ub : Impl.CM K V Impl.OIt)
      split
      · exact .pure
      · exact .ub
  | toOrdered pos => exact .freely (.ret (noGrow_toOrdered _))
  | eqOU o u =>
    refine .freely (.ret (.noexcept ?_))
    cases u with
    | none => exact .pure
    | some p => exact (noGrow_toOrdered _).bind fun _ => .pure
  | monitor i => exact .freely (.ret (.set fun _ => Nat.le_refl _))
  | monitorNew ks => exact .freely (.ret (.of fun _ => Nat.le_refl _))
  | stopMonitoring => exact .freely (.ret (.set fun _ => Nat.le_refl _))
  | isMonitoring => exact .freely (.ret (.bind .read fun _ => .pure))
  | stats =>
    refine .freely (.ret (.bind .read fun o => ?_))
    cases o.stats with
    | none => exact .throw
    | some i => exact .pure
  | sharedStats => exact .freely (.ret (.bind .read fun _ => .pure))
  | addHitCallback cb => exact .freely (.ret (.set fun _ => Nat.le_refl _))
  | addMissCallback cb => exact .freely (.ret (.set fun _ => Nat.le_refl _))
  | addAccessCallback cb => exact .freely (.ret (.set fun _ => Nat.le_refl _))
  | clearHitCallbacks => exact .freely (.ret (.set fun _ => Nat.le_refl _))
  | clearMissCallbacks => exact .freely (.ret (.set fun _ => Nat.le_refl _))
  | clearAccessCallbacks => exact .freely (.ret (.set fun _ => Nat.le_refl _))
  | clearAllCallbacks => exact .freely (.ret (.set fun _ => Nat.le_refl _))
  | write p v => exact .freely (.ret ((noGrow_derefIt _).bind fun _ => noGrow_assignValue _ _))
  | read p => exact .freely (.ret ((noGrow_derefIt _).bind fun _ => .pure))

/-- A call that only removes elements is paid for by these, but for one search. -/
theorem drops_pays {op : Op K V} (hd : op.drops = true) (hs : s.c.order.length ≤ s.c.map.length) : PaysAt (step O op) s 1 0 := by
  cases op with
  | clear => exact (clear_pays hs).ret.mono (by decide) (by decide)
  | shrink n => exact (shrink_pays hs n).ret.mono (by decide) (by decide)
  | setCapacity n => exact (setCapacity_pays n).ret.mono (by decide) (by decide)
  | clearExpired => exact clearExpired_pays.ret
  | _ => cases hd

/-- The calls that work on a fixed number of elements. -/
theorem constant_within {op : Op K V} (hc : op.constant = true) : WithinAt (step O op) s ⟨3, 3, audience s.c.obs⟩ := by
  have one : 1 ≤ 3 := by decide
  have le : ∀ {a b : Nat}, a ≤ 3 → b ≤ 3 → (⟨a, b, 0⟩ : Bill) ≤ ⟨3, 3, audience s.c.obs⟩ :=
    fun h h' => ⟨h, h', Nat.zero_le _⟩
  cases op with
  | contains k => exact (contains_within k).ret.mono ⟨one, one, Nat.le_refl _⟩
  | find k => exact (find_within k).ret.mono ⟨one, one, Nat.le_refl _⟩
  | lookup k => exact (lookup_within k).ret.mono ⟨one, one, Nat.le_refl _⟩
  | insert k v => exact (insert_within k v).ret.mono (le (by decide) (by decide))
  | emplace k v => exact (emplace_within k v).ret.mono (le (by decide) (by decide))
  | erase k => exact (erase_within k).ret.mono (le (by decide) (by decide))
  | eraseU pos => exact (eraseU_within pos).ret.mono (le (by decide) (by decide))
  | eraseO pos => exact (eraseO_within _).ret.mono (le (by decide) (by decide))
  | allExpired => exact allExpired_within.ret.mono (le (by decide) (by decide))
  | hasExpired k => exact (hasExpired_within k).ret.mono (le (by decide) (by decide))
  | hasExpiredO pos => exact (hasExpiredO_within pos).ret.mono (le (by decide) (by decide))
  | isValidO pos => exact (isValidO_within pos).ret.mono (le (by decide) (by decide))
  | oKey pos => exact (oKey_within _).ret.mono (le (by decide) (by decide))
  | oValue pos => exact (oValue_within _).ret.mono (le (by decide) (by decide))
  | insertRange l => cases hc
  | insertRangeMove l => cases hc
  | assignRange l => cases hc
  | assignRangeMove l => cases hc
  | clear => cases hc
  | shrink n => cases hc
  | setCapacity n => cases hc
  | clearExpired => cases hc
  | _ => exact WithinAt.freely

/-! ### The element accessed last -/

/-- Only statistics and callbacks: no search, no node. -/
theorem lastHit_within {k : K} (hl : (Impl.lastIs k : Impl.CM K V Bool) s = .ok true s) :
    WithinAt (contains O k : CM K V Bool) s { watch := audience s.c.obs } ∧
      WithinAt (lookup O k : CM K V (Ptr × V)) s { watch := audience s.c.obs } := by
  constructor
  · refine .free fun o s' ho => ?_
    obtain ⟨rfl, rfl⟩ := getObs_inv ho
    refine .free fun b s' hb => ?_
    rw [hl] at hb
    injection hb with hb hs
    subst hb hs
    rw [if_pos rfl]
    refine .free fun _ _ _ => .ite (fun _ => ?_) fun _ => .pure
    exact .free fun _ _ _ => (registerHit_within _ k _).last fun _ _ _ => .pure
  · refine .free fun o s' ho => ?_
    obtain ⟨rfl, rfl⟩ := getObs_inv ho
    refine .free fun b s' hb => ?_
    rw [hl] at hb
    injection hb with hb hs
    subst hb hs
    rw [if_pos rfl]
    exact .free fun _ _ _ => (registerHit_within _ k _).last fun _ _ _ => .pure

end Cost

section last

variable {K V : Type} [KeyEqual K] [DecidableEq K] [DecidableEq V] {O : Oracle K V} {s s' : St (Cache K V) K V} {op : Op K V}
  {k : K} {v : V} {r : Res K V}

theorem Rel.lastIs {t : St (MCache K V) K V} (hr : Rel s t) {e : Ent K V} (he : e ∈ t.c.ents) (hl : t.c.last = some e.id)
    (hk : keq k e.key = true) : (Impl.lastIs k : Impl.CM K V Bool) s = .ok true s := by
  unfold Impl.lastIs
  rw [bind_ok (m := Impl.getLast) (s := s) rfl, hr.rep.last, hl]
  have hd : (Impl.deref e.id : Impl.CM K V _) s = .ok e.node s := by
    unfold Impl.deref
    have hf : s.c.map.find? (fun n => n.addr == e.id) = some e.node := by
      refine find?_of_unique (hr.rep.map.mem_iff.2 (List.mem_map_of_mem he)) (by simp [Ent.node]) fun y hy hya => ?_
      obtain ⟨x, hx, rfl⟩ := List.mem_map.1 (hr.rep.map.mem_iff.1 hy)
      have : x.id = e.id := by simpa [Ent.node] using hya
      rw [map_inj_of_nodup hr.awf.ids x hx e he this]
    rw [hf]
  show (Impl.deref e.id >>= fun n => pure (keq k n.key) : Impl.CM K V Bool) s = _
  rw [bind_ok hd]
  show Out.ok (keq k e.key) s = _
  rw [hk]

omit [DecidableEq K] [DecidableEq V] in
theorem flipped {a b : K} (h : keq a b = true) : keq b a = true := by rw [KeyEqual.symm]; exact h

omit [DecidableEq K] [DecidableEq V] in
theorem joined {a b c : K} (h : keq a b = true) (h' : keq b c = true) : keq a c = true := KeyEqual.trans _ _ _ h h'

/-- An access that found its key, or an insertion that stored its value, leaves the shortcut set. -/
theorem Reachable.lastIs_after_hit (hO : NoListFault O) (h : Reachable O s) (ha : op.Accesses k) (hd : Returns O op s r s')
    (hm : ¬ Miss r) {k' : K} (hk : keq k k' = true) : (Impl.lastIs k' : Impl.CM K V Bool) s' = .ok true s' := by
  obtain ⟨t, t', hr, ht, hacc, hr'⟩ := h.access hO ha hd
  have key : ∀ e : Ent K V, t.c.ents.find? (fun x => keq x.key k) = some e → keq k' e.key = true := fun e hf =>
    flipped (joined (by simpa using List.find?_some hf) hk)
  cases hacc with
  | last e r h1 h2 h3 h4 h5 =>
    obtain ⟨h6, h7⟩ := lastEnt_mem h1
    exact hr'.lastIs h6 h7 (key e h2)
  | hit e r j h1 h2 h3 h4 h5 h6 =>
    have he := List.mem_of_find?_eq_some h1
    refine hr'.lastIs (e := e) ?_ rfl (key e h1)
    show e ∈ (t.c.touch e).ents
    unfold MCache.touch
    simp [toEnd]
  | absent r h1 h2 h3 => exact absurd h2 hm
  | expired e r h1 h2 h3 h4 h5 => exact absurd h4 hm
  | lastExpired e h1 h2 h3 h4 => exact absurd (.inl rfl) hm

theorem Reachable.lastIs_after_insert (hO : NoListFault O) (h : Reachable O s) (hi : op.Inserts k v) {b : Bool} {p : Ptr}
    (hd : Returns O op s (.inserted b (some p)) s') {k' : K} (hk : keq k k' = true) :
    (Impl.lastIs k' : Impl.CM K V Bool) s' = .ok true s' := by
  obtain ⟨t, t', b, q, hr, ht, hin, hr', he⟩ := h.inserts hO hi hd
  injection he with he1 he2
  subst he1 he2
  generalize ho : (Out.ok (b, some p) t' : Out _ _) = o at hin
  cases hin with
  | unset h => cases ho
  | zero h => cases ho
  | fault => cases ho
  | updateFault => cases ho
  | full g' e r n h1 h2 h3 h4 h5 h6 h7 =>
    injection ho with ho1 ho2
    subst ho2
    exact hr'.lastIs (e := ⟨t.g.next, e.slot, k, v, t.c.kind.stamp (O.clock t.g.ticks), some e.slot⟩)
      (by simp) rfl (flipped hk)
  | room g' n q h1 h2 h3 h4 h5 h6 h7 =>
    injection ho with ho1 ho2
    subst ho2
    exact hr'.lastIs (e := ⟨t.g.next, q, k, v, t.c.kind.stamp (O.clock t.g.ticks), some q⟩)
      (by simp) rfl (flipped hk)
  | update g' e n h1 h2 h3 h4 =>
    injection ho with ho1 ho2
    subst ho2
    exact hr'.lastIs (e := { e with val := v }) (by simp) rfl
      (flipped (joined (by simpa using List.find?_some h1) hk))

theorem Reachable.order_le (hO : NoListFault O) (h : Reachable O s) :
    s.c.order.length ≤ s.c.map.length ∧ s.c.map.length = count s.c := by
  obtain ⟨t, hr, _⟩ := h.rel hO
  rw [hr.count_order, hr.map_length, hr.count]
  exact ⟨Nat.le_refl _, rfl⟩

theorem returns_after (hd : Returns O op s r s') : Cost.After (Cost.step O op s).1 s' := by
  rw [show (Cost.step O op s).1 = Impl.step O op s from congrFun (Cost.step_body op) s]
  exact .inl ⟨r, hd⟩

theorem throws_after {e : Err} (hd : Throws O op s e s') : Cost.After (Cost.step O op s).1 s' := by
  rw [show (Cost.step O op s).1 = Impl.step O op s from congrFun (Cost.step_body op) s]
  exact .inr ⟨e, hd⟩

end last

end LRU
