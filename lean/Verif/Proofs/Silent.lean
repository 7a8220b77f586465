import Verif.Proofs.ReadOnly
import Verif.Spec.Classes
/-!
# Calls that register nothing

A direct proof on the model, without any assumption about the state or the environment: all calls but `contains`,
`find`, `lookup` leave statistics and the log of callbacks alone.
-/

set_option linter.unusedSectionVars false
set_option autoImplicit false

namespace LRU

variable {K V : Type}

/-- Nothing was registered, and the cache is of the same class with the same statistics object and callbacks. -/
structure Silent (s s' : St (Cache K V) K V) : Prop where
  log : s'.g.log = s.g.log
  stats : s'.g.stats = s.g.stats
  nextStat : s'.g.nextStat = s.g.nextStat
  ext : s'.g.ext = s.g.ext
  next : s.g.next ≤ s'.g.next
  ticks : s.g.ticks ≤ s'.g.ticks
  obs : s'.c.obs = s.c.obs
  kind : s'.c.kind = s.c.kind

theorem Silent.refl (s : St (Cache K V) K V) : Silent s s := ⟨rfl, rfl, rfl, rfl, Nat.le_refl _, Nat.le_refl _, rfl, rfl⟩

theorem Silent.trans {s s' s'' : St (Cache K V) K V} (h : Silent s s') (h' : Silent s' s'') : Silent s s'' :=
  ⟨h'.log.trans h.log, h'.stats.trans h.stats, h'.nextStat.trans h.nextStat, h'.ext.trans h.ext,
    Nat.le_trans h.next h'.next, Nat.le_trans h.ticks h'.ticks, h'.obs.trans h.obs, h'.kind.trans h.kind⟩

variable {α β : Type}

/-- The function makes only silent transitions. -/
def Quietly (m : Impl.CM K V α) : Prop := ∀ s, (m s).Post (Silent s)

namespace Quietly

theorem bind {m : Impl.CM K V α} {f : α → Impl.CM K V β} (h : Quietly m) (h' : ∀ a, Quietly (f a)) :
    Quietly (m >>= f) := by
  intro s
  have h1 := h s
  show (M.bind m f s).Post _
  unfold M.bind
  cases hm : m s with
  | ok a s' =>
    rw [hm] at h1
    have h2 := h' a s'
    simp only
    cases hf : f a s' <;> rw [hf] at h2 <;> first | trivial | exact Silent.trans h1 h2
  | throw e s' => rw [hm] at h1; exact h1
  | ub => trivial
  | terminate => trivial
  | diverge => trivial

theorem pure {a : α} : Quietly (Pure.pure a : Impl.CM K V α) := fun s => Silent.refl s

theorem pure' {a : α} : Quietly (M.pure a : Impl.CM K V α) := fun s => Silent.refl s

theorem throw {e : Err} : Quietly (M.throw e : Impl.CM K V α) := fun s => Silent.refl s

theorem ub : Quietly (M.ub : Impl.CM K V α) := fun _ => trivial

theorem diverge : Quietly (M.diverge : Impl.CM K V α) := fun _ => trivial

theorem noexcept {m : Impl.CM K V α} (h : Quietly m) : Quietly (M.noexcept m) := by
  intro s
  have h1 := h s
  unfold M.noexcept
  cases hm : m s <;> rw [hm] at h1 <;> first | trivial | exact h1

theorem ret {m : Impl.CM K V α} {f : α → Res K V} (h : Quietly m) : Quietly (Impl.ret m f) := h.bind fun _ => pure

theorem setSelf {f : Cache K V → Cache K V} (h : ∀ c, (f c).obs = c.obs) (h' : ∀ c, (f c).kind = c.kind) :
    Quietly (Impl.setSelf f) := fun _ => ⟨rfl, rfl, rfl, rfl, Nat.le_refl _, Nat.le_refl _, h _, h' _⟩

theorem read {f : St (Cache K V) K V → α} : Quietly (fun s => .ok (f s) s : Impl.CM K V α) := fun s => Silent.refl s

variable {O : Oracle K V}

theorem attempt {site : Site} : Quietly (LRU.attempt O site) := by
  intro s
  unfold LRU.attempt
  simp only
  split <;> exact ⟨rfl, rfl, rfl, rfl, Nat.le_refl _, Nat.le_refl _, rfl, rfl⟩

theorem may {site : Site} : Quietly (LRU.may O site) :=
  fun _ => ⟨rfl, rfl, rfl, rfl, Nat.le_refl _, Nat.le_refl _, rfl, rfl⟩

theorem now : Quietly (LRU.now O) := fun _ => ⟨rfl, rfl, rfl, rfl, Nat.le_refl _, Nat.le_succ _, rfl, rfl⟩

theorem alloc : Quietly (LRU.alloc : Impl.CM K V Ptr) :=
  fun _ => ⟨rfl, rfl, rfl, rfl, Nat.le_succ _, Nat.le_refl _, rfl, rfl⟩

end Quietly

/-- Decomposes a function body. -/
syntax "quietly" : tactic

macro_rules
  | `(tactic| quietly) => `(tactic|
    repeat' first
      | assumption
      | exact Quietly.pure
      | exact Quietly.pure'
      | exact Quietly.throw
      | exact Quietly.ub
      | exact Quietly.diverge
      | exact Quietly.attempt
      | exact Quietly.may
      | exact Quietly.now
      | exact Quietly.alloc
      | exact Quietly.setSelf (fun _ => rfl) (fun _ => rfl)
      | exact Quietly.read
      | refine Quietly.noexcept ?_
      | refine Quietly.bind ?_ (fun _ => ?_)
      | split)

variable [KeyEqual K] [DecidableEq K] {O : Oracle K V}

section prims

theorem deref_q {p : Ptr} : Quietly (Impl.deref p : Impl.CM K V _) := by
  intro s
  unfold Impl.deref
  split
  · exact Silent.refl s
  · split
    · exact Silent.refl s
    · trivial

theorem derefIt_q {p : Option Ptr} : Quietly (Impl.derefIt p : Impl.CM K V _) := by
  cases p with
  | none => exact Quietly.ub
  | some p =>
    intro s
    unfold Impl.derefIt
    simp only
    split
    · exact Silent.refl s
    · trivial

theorem derefOrder_q {p : Ptr} : Quietly (Impl.derefOrder p : Impl.CM K V _) := by
  intro s
  unfold Impl.derefOrder
  split
  · exact Silent.refl s
  · trivial

theorem readCapacity_q : Quietly (Impl.readCapacity : Impl.CM K V _) := by
  intro s
  unfold Impl.readCapacity
  split
  · exact Silent.refl s
  · trivial

theorem getLast_q : Quietly (Impl.getLast : Impl.CM K V _) := fun s => Silent.refl s
theorem getKind_q : Quietly (Impl.getKind : Impl.CM K V _) := fun s => Silent.refl s
theorem getObs_q : Quietly (Impl.getObs : Impl.CM K V _) := fun s => Silent.refl s
theorem orderFirst_q : Quietly (Impl.orderFirst : Impl.CM K V _) := fun s => Silent.refl s
theorem orderLast_q : Quietly (Impl.orderLast : Impl.CM K V _) := fun s => Silent.refl s
theorem orderAddrs_q : Quietly (Impl.orderAddrs : Impl.CM K V _) := fun s => Silent.refl s
theorem size_q : Quietly (Impl.size : Impl.CM K V _) := fun s => Silent.refl s
theorem mapFind_q {k : K} : Quietly (Impl.mapFind k : Impl.CM K V _) := fun s => Silent.refl s

end prims

macro_rules
  | `(tactic| quietly) => `(tactic|
    repeat' first
      | assumption
      | exact Quietly.pure
      | exact Quietly.pure'
      | exact Quietly.throw
      | exact Quietly.ub
      | exact Quietly.diverge
      | exact Quietly.attempt
      | exact Quietly.may
      | exact Quietly.now
      | exact Quietly.alloc
      | exact deref_q
      | exact derefIt_q
      | exact derefOrder_q
      | exact readCapacity_q
      | exact getLast_q
      | exact getKind_q
      | exact getObs_q
      | exact orderFirst_q
      | exact orderLast_q
      | exact orderAddrs_q
      | exact size_q
      | exact mapFind_q
      | exact Quietly.setSelf (fun _ => rfl) (fun _ => rfl)
      | refine Quietly.noexcept ?_
      | refine Quietly.bind ?_ (fun _ => ?_)
      | split)

theorem orderErase_q {it : Option Ptr} : Quietly (Impl.orderErase it : Impl.CM K V _) := by
  unfold Impl.orderErase; quietly

theorem spliceToEnd_q {it : Option Ptr} : Quietly (Impl.spliceToEnd it : Impl.CM K V _) := by
  unfold Impl.spliceToEnd; quietly

theorem lastIs_q {k : K} : Quietly (Impl.lastIs k : Impl.CM K V _) := by
  unfold Impl.lastIs; quietly

theorem lastNode_q : Quietly (Impl.lastNode : Impl.CM K V _) := by
  unfold Impl.lastNode; quietly

theorem hasExpiredInfo_q {t : Int} : Quietly (Impl.hasExpiredInfo O t) := by
  unfold Impl.hasExpiredInfo; quietly

theorem moveToFront_q {it : Option Ptr} : Quietly (Impl.moveToFront it : Impl.CM K V _) := by
  have := spliceToEnd_q (K := K) (V := V) (it := it)
  unfold Impl.moveToFront; quietly

theorem moveToFrontAssign_q {n : MapNode K V} {v : V} : Quietly (Impl.moveToFrontAssign O n v) := by
  have := moveToFront_q (K := K) (V := V) (it := n.info.order)
  unfold Impl.moveToFrontAssign Impl.tryAssign Impl.assignValue Impl.tearValue; quietly

theorem invalidateIf_q {k : K} : Quietly (Impl.invalidateIf k : Impl.CM K V _) := by
  have := lastIs_q (V := V) (k := k)
  unfold Impl.invalidateIf Impl.lastInvalidate; quietly

theorem eraseIt_q {it : Option Ptr} : Quietly (Impl.eraseIt it : Impl.CM K V _) := by
  unfold Impl.eraseIt Impl.mapEraseAt
  refine derefIt_q.bind fun n => invalidateIf_q.bind fun _ => orderErase_q.bind fun _ => ?_
  quietly

theorem eraseKeyInfo_q {n : MapNode K V} : Quietly (Impl.eraseKeyInfo n) := by
  unfold Impl.eraseKeyInfo Impl.mapEraseKey
  refine invalidateIf_q.bind fun _ => orderErase_q.bind fun _ => ?_
  quietly

theorem keyOf_q {l : ListNode} : Quietly (Impl.keyOf l : Impl.CM K V _) := by
  unfold Impl.keyOf; quietly

theorem orderFront_q : Quietly (Impl.orderFront : Impl.CM K V _) := by
  unfold Impl.orderFront; quietly

theorem orderBack_q : Quietly (Impl.orderBack : Impl.CM K V _) := by
  unfold Impl.orderBack; quietly

theorem eraseLru_q : Quietly (Impl.eraseLru : Impl.CM K V _) := by
  unfold Impl.eraseLru
  exact orderFront_q.bind fun _ => keyOf_q.bind fun _ => mapFind_q.bind fun _ => eraseIt_q

theorem evictLruFor_q {p : Ptr} : Quietly (Impl.evictLruFor p : Impl.CM K V _) := by
  unfold Impl.evictLruFor Impl.mapEraseKey
  refine orderFront_q.bind fun _ => keyOf_q.bind fun _ => Quietly.bind ?_ fun _ => Quietly.bind ?_ fun _ => moveToFront_q
  · quietly
  · quietly

theorem orderAppend_q {p : Ptr} : Quietly (Impl.orderAppend O p) := by
  unfold Impl.orderAppend; quietly

theorem insertNewKey_q {p : Ptr} : Quietly (Impl.insertNewKey O p) := by
  unfold Impl.insertNewKey Impl.evictOrAppend
  refine Quietly.bind ?_ fun _ => orderBack_q.bind fun _ => Quietly.pure
  refine size_q.bind fun _ => readCapacity_q.bind fun _ => ?_
  split
  · exact evictLruFor_q
  · exact orderAppend_q

theorem insertionTime_q : Quietly (Impl.insertionTime O) := by
  unfold Impl.insertionTime; quietly

theorem mapEmplace_q {k : K} {v : V} {t : Int} : Quietly (Impl.mapEmplace O k v t) := by
  unfold Impl.mapEmplace; quietly

theorem insertNode_q {k : K} {v : V} {t : Int} : Quietly (Impl.insertNode O k v t) := by
  unfold Impl.insertNode Impl.setOrder
  refine mapEmplace_q.bind fun _ => insertNewKey_q.bind fun _ => ?_
  quietly

theorem setLast_q {p : Ptr} : Quietly (Impl.setLast p : Impl.CM K V _) :=
  Quietly.setSelf (fun _ => rfl) (fun _ => rfl)

theorem insert_q {k : K} {v : V} : Quietly (Impl.insert O k v) := by
  unfold Impl.insert
  refine readCapacity_q.bind fun _ => ?_
  split
  · exact Quietly.pure
  · refine mapFind_q.bind fun r => ?_
    cases r with
    | none =>
      exact insertionTime_q.bind fun _ => Quietly.attempt.bind fun _ => insertNode_q.bind fun _ =>
        setLast_q.bind fun _ => Quietly.pure
    | some n => exact moveToFrontAssign_q.bind fun _ => setLast_q.bind fun _ => Quietly.pure

theorem emplace_q {k : K} {v : V} : Quietly (Impl.emplace O k v) := by
  unfold Impl.emplace
  refine readCapacity_q.bind fun _ => ?_
  split
  · exact Quietly.pure
  · refine Quietly.attempt.bind fun _ => mapFind_q.bind fun r => ?_
    cases r with
    | none =>
      exact Quietly.attempt.bind fun _ => insertionTime_q.bind fun _ => insertNode_q.bind fun _ =>
        setLast_q.bind fun _ => Quietly.pure
    | some n =>
      exact Quietly.attempt.bind fun _ => moveToFrontAssign_q.bind fun _ => setLast_q.bind fun _ => Quietly.pure

theorem insertRange_q {l : List (K × V)} : Quietly (Impl.insertRange O l) := by
  induction l with
  | nil => exact Quietly.pure
  | cons p l ih => exact insert_q.bind fun _ => ih.bind fun _ => Quietly.pure

theorem insertRangeMove_q {l : List (K × V)} : Quietly (Impl.insertRangeMove O l) := by
  induction l with
  | nil => exact Quietly.pure
  | cons p l ih => exact emplace_q.bind fun _ => ih.bind fun _ => Quietly.pure

theorem erase_q {k : K} : Quietly (Impl.erase k : Impl.CM K V _) := by
  unfold Impl.erase
  refine lastIs_q.bind fun _ => ?_
  split
  · exact lastNode_q.bind fun _ => eraseKeyInfo_q.bind fun _ => Quietly.pure
  · refine mapFind_q.bind fun r => ?_
    cases r with
    | none => exact Quietly.pure
    | some n => exact eraseIt_q.bind fun _ => Quietly.pure

theorem clear_q : Quietly (Impl.clear : Impl.CM K V _) := by
  unfold Impl.clear; quietly

theorem eraseLruWhile_q {n fuel : Nat} : Quietly (Impl.eraseLruWhile n fuel : Impl.CM K V _) := by
  induction fuel with
  | zero => exact Quietly.diverge
  | succ fuel ih =>
    unfold Impl.eraseLruWhile
    refine size_q.bind fun _ => ?_
    split
    · exact eraseLru_q.bind fun _ => ih
    · exact Quietly.pure

theorem assignCapacity_q {n : Nat} : Quietly (Impl.assignCapacity n : Impl.CM K V _) := by
  unfold Impl.assignCapacity; quietly

theorem shrink_q {n : Nat} : Quietly (Impl.shrink n : Impl.CM K V _) := by
  unfold Impl.shrink
  refine size_q.bind fun _ => ?_
  split
  · exact Quietly.pure
  · split
    · exact clear_q
    · exact eraseLruWhile_q

theorem setCapacity_q {n : Nat} : Quietly (Impl.setCapacity n : Impl.CM K V _) := by
  unfold Impl.setCapacity
  exact size_q.bind fun _ => eraseLruWhile_q.bind fun _ => assignCapacity_q

theorem clearAndIncreaseCapacity_q {n : Nat} : Quietly (Impl.clearAndIncreaseCapacity n : Impl.CM K V _) := by
  unfold Impl.clearAndIncreaseCapacity
  refine clear_q.bind fun _ => readCapacity_q.bind fun _ => ?_
  split
  · exact assignCapacity_q
  · exact Quietly.pure

theorem isEmpty_q : Quietly (Impl.isEmpty : Impl.CM K V _) := by
  unfold Impl.isEmpty; quietly

theorem front_q : Quietly (Impl.front : Impl.CM K V _) := by
  unfold Impl.front
  refine Quietly.noexcept (isEmpty_q.bind fun _ => ?_)
  split
  · exact Quietly.throw
  · exact orderBack_q.bind fun _ => keyOf_q

theorem back_q : Quietly (Impl.back : Impl.CM K V _) := by
  unfold Impl.back
  refine Quietly.noexcept (isEmpty_q.bind fun _ => ?_)
  split
  · exact Quietly.throw
  · exact orderFront_q.bind fun _ => keyOf_q

theorem allExpired_q : Quietly (Impl.allExpired O) := by
  unfold Impl.allExpired
  refine isEmpty_q.bind fun _ => ?_
  split
  · exact Quietly.pure
  · refine orderBack_q.bind fun _ => keyOf_q.bind fun _ => mapFind_q.bind fun _ => ?_
    split
    · exact Quietly.ub
    · exact hasExpiredInfo_q

theorem clearExpiredLoop_q {n fuel : Nat} : Quietly (Impl.clearExpiredLoop O n fuel) := by
  induction fuel generalizing n with
  | zero => exact Quietly.diverge
  | succ fuel ih =>
    unfold Impl.clearExpiredLoop
    refine orderFirst_q.bind fun _ => ?_
    split
    · exact Quietly.pure
    · refine keyOf_q.bind fun _ => mapFind_q.bind fun _ => ?_
      split
      · exact Quietly.ub
      · refine hasExpiredInfo_q.bind fun _ => ?_
        split
        · exact eraseIt_q.bind fun _ => ih
        · exact Quietly.pure

theorem clearExpired_q : Quietly (Impl.clearExpired O) := by
  unfold Impl.clearExpired
  refine isEmpty_q.bind fun _ => ?_
  split
  · exact Quietly.pure
  · exact size_q.bind fun _ => clearExpiredLoop_q

theorem hasExpired_q {k : K} : Quietly (Impl.hasExpired O k) := by
  unfold Impl.hasExpired
  refine mapFind_q.bind fun _ => ?_
  split
  · exact Quietly.pure
  · exact hasExpiredInfo_q

theorem hasExpiredU_q {it : Option Ptr} : Quietly (Impl.hasExpiredU O it) := by
  unfold Impl.hasExpiredU
  split
  · exact Quietly.pure
  · exact derefIt_q.bind fun _ => hasExpiredInfo_q

theorem isValidU_q {it : Option Ptr} : Quietly (Impl.isValidU O it) := by
  unfold Impl.isValidU
  split
  · exact Quietly.pure
  · refine getKind_q.bind fun _ => ?_
    split
    · exact Quietly.pure
    · exact hasExpiredU_q.bind fun _ => Quietly.pure

theorem throwIfInvalidU_q {it : Option Ptr} : Quietly (Impl.throwIfInvalidU O it) := by
  unfold Impl.throwIfInvalidU
  split
  · exact Quietly.throw
  · refine getKind_q.bind fun _ => ?_
    split
    · exact Quietly.pure
    · refine derefIt_q.bind fun _ => hasExpiredInfo_q.bind fun _ => ?_
      split
      · exact Quietly.throw
      · exact Quietly.pure

theorem uEntry_q {it : Impl.UIt} : Quietly (Impl.uEntry O it) := by
  unfold Impl.uEntry Impl.uDeref
  refine Quietly.bind ?_ fun _ => throwIfInvalidU_q.bind fun _ => Quietly.pure
  split
  · exact Quietly.pure
  · exact derefIt_q.bind fun _ => Quietly.pure

theorem uKey_q {it : Impl.UIt} : Quietly (Impl.uKey O it) := by
  unfold Impl.uKey
  exact uEntry_q.bind fun _ => derefIt_q.bind fun _ => Quietly.pure

theorem uValue_q {it : Impl.UIt} : Quietly (Impl.uValue O it) := by
  unfold Impl.uValue
  exact uEntry_q.bind fun _ => derefIt_q.bind fun _ => Quietly.pure

theorem keyAt_q {pos : Option Ptr} : Quietly (Impl.keyAt pos : Impl.CM K V _) := by
  unfold Impl.keyAt
  split
  · exact Quietly.ub
  · exact derefOrder_q.bind fun _ => keyOf_q

theorem oLookup_q {pos : Option Ptr} : Quietly (Impl.oLookup pos : Impl.CM K V _) := by
  unfold Impl.oLookup
  refine keyAt_q.bind fun _ => mapFind_q.bind fun _ => ?_
  split
  · exact Quietly.ub
  · exact Quietly.pure

theorem hasExpiredO_q {pos : Option Ptr} : Quietly (Impl.hasExpiredO O pos) := by
  unfold Impl.hasExpiredO
  split
  · exact Quietly.pure
  · refine oLookup_q.bind fun _ => derefIt_q.bind fun _ => mapFind_q.bind fun _ => ?_
    split
    · exact Quietly.ub
    · exact hasExpiredInfo_q

theorem isValidO_q {pos : Option Ptr} : Quietly (Impl.isValidO O pos) := by
  unfold Impl.isValidO
  split
  · exact Quietly.pure
  · refine getKind_q.bind fun _ => ?_
    split
    · exact Quietly.pure
    · exact hasExpiredO_q.bind fun _ => Quietly.pure

theorem throwIfInvalidO_q {pos : Option Ptr} : Quietly (Impl.throwIfInvalidO O pos) := by
  unfold Impl.throwIfInvalidO
  split
  · exact Quietly.throw
  · refine getKind_q.bind fun _ => ?_
    split
    · exact Quietly.pure
    · refine hasExpiredO_q.bind fun _ => ?_
      split
      · exact Quietly.throw
      · exact Quietly.pure

theorem oKey_q {it : Impl.OIt} : Quietly (Impl.oKey O it) := by
  unfold Impl.oKey
  exact throwIfInvalidO_q.bind fun _ => keyAt_q

theorem oValue_q {it : Impl.OIt} : Quietly (Impl.oValue O it) := by
  unfold Impl.oValue Impl.oEntry Impl.oDeref
  refine Quietly.bind ?_ fun _ => derefIt_q.bind fun _ => Quietly.pure
  refine throwIfInvalidO_q.bind fun _ => ?_
  split
  · exact Quietly.pure
  · exact oLookup_q.bind fun _ => Quietly.pure

theorem toOrdered_q {it : Impl.UIt} : Quietly (Impl.toOrdered it : Impl.CM K V _) := by
  unfold Impl.toOrdered
  split
  · exact Quietly.throw
  · refine derefIt_q.bind fun _ => ?_
    split
    · exact Quietly.ub
    · exact Quietly.pure

theorem eqOU_q {o : Impl.OIt} {u : Impl.UIt} : Quietly (Impl.eqOU o u : Impl.CM K V _) := by
  unfold Impl.eqOU
  refine Quietly.noexcept ?_
  split
  · exact Quietly.pure
  · exact toOrdered_q.bind fun _ => Quietly.pure

theorem eraseO_q {it : Impl.OIt} : Quietly (Impl.eraseO O it) := by
  unfold Impl.eraseO
  split
  · exact Quietly.throw
  · exact oKey_q.bind fun _ => mapFind_q.bind fun _ => eraseIt_q

/-- All calls but accesses and those that change what is registered where. -/
theorem step_quietly (op : Op K V) (h : op.isAccess = false) (h' : op.configures = false) :
    Quietly (Impl.step O op) := by
  cases op with
  | contains | find | lookup => cases h
  | monitor | monitorNew | stopMonitoring | addHitCallback | addMissCallback | addAccessCallback | clearHitCallbacks
  | clearMissCallbacks | clearAccessCallbacks | clearAllCallbacks => cases h'
  | insert k v => exact insert_q.ret
  | emplace k v => exact emplace_q.ret
  | insertRange l => exact insertRange_q.ret
  | insertRangeMove l => exact insertRangeMove_q.ret
  | assignRange l =>
    exact (clearAndIncreaseCapacity_q.bind fun _ => insertRange_q.bind fun _ => Quietly.pure).ret
  | assignRangeMove l =>
    exact (clearAndIncreaseCapacity_q.bind fun _ => insertRangeMove_q.bind fun _ => Quietly.pure).ret
  | erase k => exact erase_q.ret
  | eraseU pos =>
    refine Quietly.ret ?_
    unfold Impl.eraseU
    split
    · exact Quietly.throw
    · exact eraseIt_q
  | eraseO pos => exact eraseO_q.ret
  | clear => exact clear_q.ret
  | shrink n => exact shrink_q.ret
  | setCapacity n => exact setCapacity_q.ret
  | size => exact size_q.ret
  | capacity => exact readCapacity_q.ret
  | spaceLeft => exact (readCapacity_q.bind fun _ => size_q.bind fun _ => Quietly.pure).ret
  | isEmpty => exact isEmpty_q.ret
  | isFull => exact (size_q.bind fun _ => readCapacity_q.bind fun _ => Quietly.pure).ret
  | front => exact front_q.ret
  | back => exact back_q.ret
  | allExpired => exact allExpired_q.ret
  | clearExpired => exact clearExpired_q.ret
  | hasExpired k => exact hasExpired_q.ret
  | hasExpiredU pos => exact hasExpiredU_q.ret
  | hasExpiredO pos => exact hasExpiredO_q.ret
  | isValidU pos => exact isValidU_q.ret
  | isValidO pos => exact isValidO_q.ret
  | uKey pos => exact uKey_q.ret
  | uValue pos => exact uValue_q.ret
  | oBegin => exact (orderAddrs_q.bind fun _ => Quietly.pure).ret
  | oNext pos =>
    refine Quietly.ret ?_
    unfold Impl.oNext
    quietly
  | oPrev pos =>
    refine Quietly.ret ?_
    unfold Impl.oPrev
    quietly
  | oKey pos => exact oKey_q.ret
  | oValue pos => exact oValue_q.ret
  | toOrdered pos => exact toOrdered_q.ret
  | eqOU o u => exact eqOU_q.ret
  | isMonitoring => exact (getObs_q.bind fun _ => Quietly.pure).ret
  | stats =>
    refine Quietly.ret ?_
    unfold Impl.stats
    quietly
  | sharedStats => exact (getObs_q.bind fun _ => Quietly.pure).ret
  | write p v =>
    refine Quietly.ret ?_
    unfold Impl.write Impl.assignValue
    quietly
  | read p => exact (derefIt_q.bind fun _ => Quietly.pure).ret

end LRU
