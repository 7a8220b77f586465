import Verif.Proofs.Twin
/-!
# Every member function behaves the same under every order of the hash table
-/

set_option linter.unusedSectionVars false
set_option autoImplicit false

namespace LRU

variable {K V : Type} [KeyEqual K] [DecidableEq K] {O O' : Oracle K V}

/-- Decomposes two copies of a function body. -/
syntax "twins" "[" term,* "]" : tactic

macro_rules
  | `(tactic| twins [$ts,*]) => `(tactic|
    repeat' first
      | assumption
      | exact TS.pure
      | exact TS.throw
      | exact TS.ub
      | exact TS.diverge
      | exact getKind_t
      | exact getObs_t
      | exact getLast_t
      | exact orderFirst_t
      | exact orderLast_t
      | exact orderAddrs_t
      | exact size_t
      | exact mapFind_t.ts
      | exact deref_t
      | exact derefIt_t
      | exact derefOrder_t
      | exact readCapacity_t
      | exact assignCapacity_t
      | exact setLast_t
      | exact lastInvalidate_t
      | exact assignValue_t
      | exact setOrder_t
      | exact clear_t
      | exact alloc_t
      | exact setOrderList_t
      | exact filterMap_t
      $[| exact $ts]*
      | refine TS.noexcept ?_
      | refine TS.bind ?_ (fun _ => ?_)
      | refine TS.ite ?_ ?_
      | split)

theorem orderErase_t {it : Option Ptr} : TS (K := K) (V := V) (Impl.orderErase it) (Impl.orderErase it) := by
  unfold Impl.orderErase; twins []

theorem spliceToEnd_t {it : Option Ptr} : TS (K := K) (V := V) (Impl.spliceToEnd it) (Impl.spliceToEnd it) := by
  unfold Impl.spliceToEnd
  cases it with
  | none => exact .ub
  | some p => exact derefOrder_t.bind fun n => setOrderList_t (f := fun o => o.filter (fun n => n.addr != p) ++ [n])

theorem mapEraseAt_t {p : Ptr} : TS (K := K) (V := V) (Impl.mapEraseAt p) (Impl.mapEraseAt p) := filterMap_t

theorem mapEraseKey_t {k : K} : TS (V := V) (Impl.mapEraseKey k) (Impl.mapEraseKey k) := filterMap_t

theorem lastIs_t {k : K} : TS (V := V) (Impl.lastIs k) (Impl.lastIs k) := by
  unfold Impl.lastIs; twins []

theorem lastNode_t : TS (K := K) (V := V) Impl.lastNode Impl.lastNode := by
  unfold Impl.lastNode; twins []

theorem hasExpiredInfo_t (h : SameButOrder O O') {time : Int} : TS (Impl.hasExpiredInfo O time) (Impl.hasExpiredInfo O' time) := by
  unfold Impl.hasExpiredInfo; twins [(now_t h).ts]

theorem lastAccessedIsOk_t (h : SameButOrder O O') : TS (Impl.lastAccessedIsOk O) (Impl.lastAccessedIsOk O') := by
  unfold Impl.lastAccessedIsOk; twins [lastNode_t, hasExpiredInfo_t h]

theorem valueForLastAccessed_t (h : SameButOrder O O') :
    TS (Impl.valueForLastAccessed O) (Impl.valueForLastAccessed O') := by
  unfold Impl.valueForLastAccessed; twins [lastNode_t, hasExpiredInfo_t h]

theorem moveToFront_t {it : Option Ptr} : TS (K := K) (V := V) (Impl.moveToFront it) (Impl.moveToFront it) := by
  unfold Impl.moveToFront; twins [spliceToEnd_t]

theorem moveToFrontAssign_t (h : SameButOrder O O') {n : MapNode K V} {v : V} :
    TS (Impl.moveToFrontAssign O n v) (Impl.moveToFrontAssign O' n v) := by
  unfold Impl.moveToFrontAssign Impl.tryAssign
  rw [h.torn]
  twins [moveToFront_t, (may_t h).ts, tearValue_t]

theorem invalidateIf_t {k : K} : TS (V := V) (Impl.invalidateIf k) (Impl.invalidateIf k) := by
  unfold Impl.invalidateIf; twins [lastIs_t]

theorem eraseIt_t {it : Option Ptr} : TS (K := K) (V := V) (Impl.eraseIt it) (Impl.eraseIt it) := by
  unfold Impl.eraseIt; twins [invalidateIf_t, orderErase_t, mapEraseAt_t]

theorem eraseKeyInfo_t {n : MapNode K V} : TS (Impl.eraseKeyInfo n) (Impl.eraseKeyInfo n) := by
  unfold Impl.eraseKeyInfo; twins [invalidateIf_t, orderErase_t, mapEraseKey_t]

theorem keyOf_t {l : ListNode} : TS (K := K) (V := V) (Impl.keyOf l) (Impl.keyOf l) := by
  unfold Impl.keyOf; twins []

theorem orderFront_t : TS (K := K) (V := V) Impl.orderFront Impl.orderFront := by
  unfold Impl.orderFront; twins []

theorem orderBack_t : TS (K := K) (V := V) Impl.orderBack Impl.orderBack := by
  unfold Impl.orderBack; twins []

theorem eraseLru_t : TS (K := K) (V := V) Impl.eraseLru Impl.eraseLru := by
  unfold Impl.eraseLru; twins [orderFront_t, keyOf_t, eraseIt_t]

theorem evictLruFor_t {p : Ptr} : TS (K := K) (V := V) (Impl.evictLruFor p) (Impl.evictLruFor p) := by
  unfold Impl.evictLruFor
  twins [orderFront_t, keyOf_t, mapEraseKey_t, moveToFront_t, setOrderList_t (f := fun o => match o with
    | [] => []
    | l :: r => { l with ref := p } :: r)]

theorem orderAppend_t (h : SameButOrder O O') {p : Ptr} : TS (Impl.orderAppend O p) (Impl.orderAppend O' p) := by
  unfold Impl.orderAppend
  refine (attempt_t h).ts.bind fun _ => alloc_t.bind fun q => setOrderList_t (f := fun o => o ++ [⟨q, p⟩])

theorem insertNewKey_t (h : SameButOrder O O') {p : Ptr} : TS (Impl.insertNewKey O p) (Impl.insertNewKey O' p) := by
  unfold Impl.insertNewKey Impl.evictOrAppend; twins [evictLruFor_t, orderAppend_t h, orderBack_t]

theorem insertionTime_t (h : SameButOrder O O') {P : Cache K V → Prop} :
    TSim P (Impl.insertionTime O) (Impl.insertionTime O') (fun _ => P) := by
  unfold Impl.insertionTime
  refine TSim.bind (Q := fun _ => P) (fun s t ht hp => ⟨ht.c.kind, ht, hp⟩) fun kind => ?_
  cases kind with
  | basic => exact fun s t ht hp => ⟨rfl, ht, hp⟩
  | timed ttl res => exact now_t h

theorem insertNode_t (h : SameButOrder O O') {k : K} {v : V} {t : Int} :
    TSim (fun c => ∀ n ∈ c.map, keq n.key k = false) (Impl.insertNode O k v t) (Impl.insertNode O' k v t)
      (fun _ _ => True) := by
  refine (mapEmplace_t h).bind fun p => ?_
  exact (insertNewKey_t h).bind fun q => setOrder_t.bind fun _ => .pure

theorem find_t (h : SameButOrder O O') {k : K} : TS (Impl.find O k) (Impl.find O' k) := by
  unfold Impl.find
  twins [registerHit_t h, registerMiss_t h, hasExpiredInfo_t h, moveToFront_t]

theorem contains_t (h : SameButOrder O O') {k : K} : TS (Impl.contains O k) (Impl.contains O' k) := by
  unfold Impl.contains
  twins [registerHit_t h, lastIs_t, lastNode_t, lastAccessedIsOk_t h, find_t h]

theorem throwIfInvalidU_t (h : SameButOrder O O') {it : Option Ptr} :
    TS (Impl.throwIfInvalidU O it) (Impl.throwIfInvalidU O' it) := by
  unfold Impl.throwIfInvalidU; twins [hasExpiredInfo_t h]

theorem entryU_t (h : SameButOrder O O') {it : Option Ptr} : TS (Impl.entryU O it) (Impl.entryU O' it) := by
  unfold Impl.entryU; twins [throwIfInvalidU_t h]

theorem lookup_t (h : SameButOrder O O') {k : K} : TS (Impl.lookup O k) (Impl.lookup O' k) := by
  unfold Impl.lookup
  twins [registerHit_t h, lastIs_t, valueForLastAccessed_t h, find_t h, entryU_t h]

theorem insert_t (h : SameButOrder O O') {k : K} {v : V} : TS (Impl.insert O k v) (Impl.insert O' k v) := by
  unfold Impl.insert
  refine readCapacity_t.bind fun c => TS.ite .pure ?_
  refine TSim.bind mapFind_t fun o => ?_
  cases o with
  | none =>
    refine TSim.mono ?_ (P := fun c => ∀ n ∈ c.map, keq n.key k = false) (fun c hc => hc rfl) (fun _ _ h => h)
    refine (insertionTime_t h).bind fun t => (attempt_t h).bind fun _ => (insertNode_t h).bind fun p => ?_
    exact setLast_t.bind fun _ => .pure
  | some n =>
    refine TS.any ?_
    exact (moveToFrontAssign_t h).bind fun _ => setLast_t.bind fun _ => .pure

theorem emplace_t (h : SameButOrder O O') {k : K} {v : V} : TS (Impl.emplace O k v) (Impl.emplace O' k v) := by
  unfold Impl.emplace
  refine readCapacity_t.bind fun c => TS.ite .pure ?_
  refine (attempt_t h).ts.bind fun _ => ?_
  refine TSim.bind mapFind_t fun o => ?_
  cases o with
  | none =>
    refine TSim.mono ?_ (P := fun c => ∀ n ∈ c.map, keq n.key k = false) (fun c hc => hc rfl) (fun _ _ h => h)
    refine (attempt_t h).bind fun _ => (insertionTime_t h).bind fun t => (insertNode_t h).bind fun p => ?_
    exact setLast_t.bind fun _ => .pure
  | some n =>
    refine TS.any ?_
    exact (attempt_t h).ts.bind fun _ => (moveToFrontAssign_t h).bind fun _ => setLast_t.bind fun _ => .pure

theorem insertRange_t (h : SameButOrder O O') {l : List (K × V)} : TS (Impl.insertRange O l) (Impl.insertRange O' l) := by
  induction l with
  | nil => exact .pure
  | cons a r ih => exact (insert_t h).bind fun _ => ih.bind fun _ => .pure

theorem insertRangeMove_t (h : SameButOrder O O') {l : List (K × V)} :
    TS (Impl.insertRangeMove O l) (Impl.insertRangeMove O' l) := by
  induction l with
  | nil => exact .pure
  | cons a r ih => exact (emplace_t h).bind fun _ => ih.bind fun _ => .pure

theorem erase_t {k : K} : TS (V := V) (Impl.erase k) (Impl.erase k) := by
  unfold Impl.erase; twins [lastIs_t, lastNode_t, eraseKeyInfo_t, eraseIt_t]

theorem eraseU_t {it : Option Ptr} : TS (K := K) (V := V) (Impl.eraseU it) (Impl.eraseU it) := by
  unfold Impl.eraseU; twins [eraseIt_t]

theorem eraseLruWhile_t {n m : Nat} : TS (K := K) (V := V) (Impl.eraseLruWhile n m) (Impl.eraseLruWhile n m) := by
  induction m with
  | zero => exact .diverge
  | succ m ih => unfold Impl.eraseLruWhile; twins [eraseLru_t]

theorem shrink_t {n : Nat} : TS (K := K) (V := V) (Impl.shrink n) (Impl.shrink n) := by
  unfold Impl.shrink; twins [eraseLruWhile_t]

theorem setCapacity_t {n : Nat} : TS (K := K) (V := V) (Impl.setCapacity n) (Impl.setCapacity n) := by
  unfold Impl.setCapacity; twins [eraseLruWhile_t]

theorem isEmpty_t : TS (K := K) (V := V) Impl.isEmpty Impl.isEmpty := by unfold Impl.isEmpty; twins []

theorem clearAndIncreaseCapacity_t {n : Nat} :
    TS (K := K) (V := V) (Impl.clearAndIncreaseCapacity n) (Impl.clearAndIncreaseCapacity n) := by
  unfold Impl.clearAndIncreaseCapacity; twins []

theorem clearExpiredLoop_t (h : SameButOrder O O') {c m : Nat} :
    TS (Impl.clearExpiredLoop O c m) (Impl.clearExpiredLoop O' c m) := by
  induction m generalizing c with
  | zero => exact .diverge
  | succ m ih => unfold Impl.clearExpiredLoop; twins [keyOf_t, hasExpiredInfo_t h, eraseIt_t, ih]

theorem hasExpiredU_t (h : SameButOrder O O') {it : Option Ptr} : TS (Impl.hasExpiredU O it) (Impl.hasExpiredU O' it) := by
  unfold Impl.hasExpiredU; twins [hasExpiredInfo_t h]

theorem uEntry_t (h : SameButOrder O O') {it : Impl.UIt} : TS (Impl.uEntry O it) (Impl.uEntry O' it) := by
  unfold Impl.uEntry Impl.uDeref; twins [throwIfInvalidU_t h]

theorem keyAt_t {it : Option Ptr} : TS (K := K) (V := V) (Impl.keyAt it) (Impl.keyAt it) := by
  unfold Impl.keyAt; twins [keyOf_t]

theorem oLookup_t {it : Option Ptr} : TS (K := K) (V := V) (Impl.oLookup it) (Impl.oLookup it) := by
  unfold Impl.oLookup; twins [keyAt_t]

theorem hasExpiredO_t (h : SameButOrder O O') {it : Option Ptr} : TS (Impl.hasExpiredO O it) (Impl.hasExpiredO O' it) := by
  unfold Impl.hasExpiredO; twins [hasExpiredInfo_t h, oLookup_t]

theorem throwIfInvalidO_t (h : SameButOrder O O') {it : Option Ptr} :
    TS (Impl.throwIfInvalidO O it) (Impl.throwIfInvalidO O' it) := by
  unfold Impl.throwIfInvalidO; twins [hasExpiredO_t h]

theorem oKey_t (h : SameButOrder O O') {it : Impl.OIt} : TS (Impl.oKey O it) (Impl.oKey O' it) := by
  unfold Impl.oKey; twins [throwIfInvalidO_t h, keyAt_t]

theorem toOrdered_t {it : Impl.UIt} : TS (K := K) (V := V) (Impl.toOrdered it) (Impl.toOrdered it) := by
  unfold Impl.toOrdered; twins []

/-- Every call. -/
theorem step_t (h : SameButOrder O O') (op : Op K V) : TS (Impl.step O op) (Impl.step O' op) := by
  cases op with
  | contains k => exact (contains_t h).ret
  | find k => exact (find_t h).ret
  | lookup k => exact (lookup_t h).ret
  | insert k v => exact (insert_t h).ret
  | emplace k v => exact (emplace_t h).ret
  | insertRange l => exact (insertRange_t h).ret
  | insertRangeMove l => exact (insertRangeMove_t h).ret
  | assignRange l =>
    exact (clearAndIncreaseCapacity_t.bind fun _ => (insertRange_t h).bind fun _ => TS.pure).ret
  | assignRangeMove l =>
    exact (clearAndIncreaseCapacity_t.bind fun _ => (insertRangeMove_t h).bind fun _ => TS.pure).ret
  | erase k => exact erase_t.ret
  | eraseU pos => exact eraseU_t.ret
  | eraseO pos =>
    refine TS.ret ?_
    unfold Impl.eraseO
    twins [oKey_t h, eraseIt_t]
  | clear => exact clear_t.ret
  | shrink n => exact shrink_t.ret
  | setCapacity n => exact setCapacity_t.ret
  | size => exact size_t.ret
  | capacity => exact readCapacity_t.ret
  | spaceLeft => refine TS.ret ?_; unfold Impl.spaceLeft; twins []
  | isEmpty => exact isEmpty_t.ret
  | isFull => refine TS.ret ?_; unfold Impl.isFull; twins []
  | front => refine TS.ret ?_; unfold Impl.front; twins [isEmpty_t, orderBack_t, keyOf_t]
  | back => refine TS.ret ?_; unfold Impl.back; twins [isEmpty_t, orderFront_t, keyOf_t]
  | allExpired => refine TS.ret ?_; unfold Impl.allExpired; twins [isEmpty_t, orderBack_t, keyOf_t, hasExpiredInfo_t h]
  | clearExpired => refine TS.ret ?_; unfold Impl.clearExpired; twins [isEmpty_t, clearExpiredLoop_t h]
  | hasExpired k => refine TS.ret ?_; unfold Impl.hasExpired; twins [hasExpiredInfo_t h]
  | hasExpiredU pos => exact (hasExpiredU_t h).ret
  | hasExpiredO pos => exact (hasExpiredO_t h).ret
  | isValidU pos => refine TS.ret ?_; unfold Impl.isValidU; twins [hasExpiredU_t h]
  | isValidO pos => refine TS.ret ?_; unfold Impl.isValidO; twins [hasExpiredO_t h]
  | uKey pos => refine TS.ret ?_; unfold Impl.uKey; twins [uEntry_t h]
  | uValue pos => refine TS.ret ?_; unfold Impl.uValue; twins [uEntry_t h]
  | oBegin => refine TS.ret ?_; unfold Impl.oBegin; twins []
  | oNext pos => refine TS.ret ?_; unfold Impl.oNext; twins []
  | oPrev pos => refine TS.ret ?_; unfold Impl.oPrev; twins []
  | oKey pos => exact (oKey_t h).ret
  | oValue pos => refine TS.ret ?_; unfold Impl.oValue Impl.oEntry Impl.oDeref; twins [throwIfInvalidO_t h, oLookup_t]
  | toOrdered pos => exact toOrdered_t.ret
  | eqOU o u => refine TS.ret ?_; unfold Impl.eqOU; twins [toOrdered_t]
  | monitor i => exact (setObs_t (f := fun o => { o with stats := i })).ret
  | monitorNew ks => exact monitorNew_t.ret
  | stopMonitoring => exact (setObs_t (f := fun o => { o with stats := none })).ret
  | isMonitoring => refine TS.ret ?_; unfold Impl.isMonitoring; twins []
  | stats => refine TS.ret ?_; unfold Impl.stats; twins []
  | sharedStats => refine TS.ret ?_; unfold Impl.sharedStats; twins []
  | addHitCallback cb => exact (setObs_t (f := fun o => { o with hitCbs := o.hitCbs ++ [cb] })).ret
  | addMissCallback cb => exact (setObs_t (f := fun o => { o with missCbs := o.missCbs ++ [cb] })).ret
  | addAccessCallback cb => exact (setObs_t (f := fun o => { o with accCbs := o.accCbs ++ [cb] })).ret
  | clearHitCallbacks => exact (setObs_t (f := fun o => { o with hitCbs := [] })).ret
  | clearMissCallbacks => exact (setObs_t (f := fun o => { o with missCbs := [] })).ret
  | clearAccessCallbacks => exact (setObs_t (f := fun o => { o with accCbs := [] })).ret
  | clearAllCallbacks => exact (setObs_t (f := fun o => { o with hitCbs := [], missCbs := [], accCbs := [] })).ret
  | write p v => refine TS.ret ?_; unfold Impl.write; twins []
  | read p => refine TS.ret ?_; unfold Impl.read; twins []

end LRU
