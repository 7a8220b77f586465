import Verif.Proofs.InsertSim
/-!
# Exact simulation of every call by the list machine
-/

set_option linter.unusedSectionVars false

namespace LRU

variable {K V : Type} [KeyEqual K]

/-- The invariant of the list machine may be used in a precondition. -/
theorem RSim.awf {α : Type} {P : St (MCache K V) K V → Prop} {m : M (St (Cache K V) K V) α}
    {m'} {Q : α → St (MCache K V) K V → Prop}
    (h : RSim (fun t => P t ∧ AWF t.c t.g) m m' Q) : RSim P m m' Q :=
  fun s t hr hp => h s t hr ⟨hp, hr.awf⟩

section

variable {P : MCache K V → Prop}

theorem lastIs_sim {k : K} :
    RSim (fun t => P t.c) (Impl.lastIs (V := V) k) (Mid.lastIs k) (fun _ t => P t.c) := by
  refine getLast_sim.bind fun p => ?_
  cases p with
  | none => exact RSim.pure (fun _ h => h.1)
  | some p =>
    refine ((deref_sim (P := P)).pre (fun _ h => h.1)).bind fun n => ?_
    exact RSim.pure (fun _ h => h.1)

theorem lastNode_sim :
    RSim (fun t => P t.c) (Impl.lastNode (K := K) (V := V)) Mid.lastNode
      (fun n t => P t.c ∧ ∃ p, t.c.last = some p ∧ DerefOk p n t) := by
  refine getLast_sim.bind fun p => ?_
  cases p with
  | none => exact RSim.ub
  | some p =>
    refine ((deref_sim (P := fun c => P c ∧ some p = c.last)).post ?_).pre (fun _ h => h)
    intro n t h
    exact ⟨h.1.1, p, h.1.2.symm, h.2⟩

variable (O : Oracle K V)

theorem hasExpiredInfo_sim {time : Int} :
    RSim (fun t => P t.c) (Impl.hasExpiredInfo (K := K) (V := V) O time) (Mid.hasExpiredInfo O time)
      (fun _ t => P t.c) := by
  refine getKind_sim.bind fun kind => ?_
  cases kind with
  | basic => exact RSim.pure (fun _ h => h.1)
  | timed ttl res =>
    refine ((now_sim (P := P) O).pre (fun _ h => h.1)).bind fun _ => ?_
    exact RSim.pure (fun _ h => h)

theorem lastAccessedIsOk_sim :
    RSim (fun t => P t.c) (Impl.lastAccessedIsOk (K := K) (V := V) O) (Mid.lastAccessedIsOk O)
      (fun _ t => P t.c) := by
  refine getKind_sim.bind fun kind => ?_
  cases kind with
  | basic => exact RSim.pure (fun _ h => h.1)
  | timed ttl res =>
    refine ((lastNode_sim (P := P)).pre (fun _ h => h.1)).bind fun n => ?_
    refine ((hasExpiredInfo_sim (P := P) O).pre (fun _ h => h.1)).bind fun _ => ?_
    exact RSim.pure (fun _ h => h)

theorem valueForLastAccessed_sim :
    RSim (fun t => P t.c) (Impl.valueForLastAccessed (K := K) (V := V) O) (Mid.valueForLastAccessed O)
      (fun _ t => P t.c) := by
  refine (lastNode_sim (P := P)).bind fun n => ?_
  refine ((getKind_sim (P := P)).pre (fun _ h => h.1)).bind fun kind => ?_
  cases kind with
  | basic => exact RSim.pure (fun _ h => h.1)
  | timed ttl res =>
    refine ((hasExpiredInfo_sim (P := P) O).pre (fun _ h => h.1)).bind fun b => ?_
    exact RSim.ite (fun _ => RSim.throw) (fun _ => RSim.pure (fun _ h => h))

theorem insertionTime_sim :
    RSim (fun t => P t.c) (Impl.insertionTime (K := K) (V := V) O) (Mid.insertionTime O)
      (fun _ t => P t.c) := by
  refine getKind_sim.bind fun kind => ?_
  cases kind with
  | basic => exact RSim.pure (fun _ h => h.1)
  | timed ttl res => exact (now_sim (P := P) O).pre (fun _ h => h.1)

theorem orderFront_sim :
    RSim (fun t => P t.c) (Impl.orderFront (K := K) (V := V)) Mid.orderFront (fun _ t => P t.c) := by
  refine orderFirst_sim.bind fun l => ?_
  cases l with
  | none => exact RSim.ub
  | some l => exact RSim.pure (fun _ h => h.1)

theorem orderBack_sim :
    RSim (fun t => P t.c) (Impl.orderBack (K := K) (V := V)) Mid.orderBack (fun _ t => P t.c) := by
  refine orderLast_sim.bind fun l => ?_
  cases l with
  | none => exact RSim.ub
  | some l => exact RSim.pure (fun _ h => h.1)

theorem keyOf_sim {l : ListNode} :
    RSim (fun t => P t.c) (Impl.keyOf (K := K) (V := V) l) (Mid.keyOf l) (fun _ t => P t.c) := by
  refine (deref_sim (P := P)).bind fun n => ?_
  exact RSim.pure (fun _ h => h.1)

theorem isEmpty_sim :
    RSim (fun t => P t.c) (Impl.isEmpty (K := K) (V := V)) Mid.isEmpty (fun _ t => P t.c) := by
  refine (size_sim (P := P)).bind fun n => ?_
  exact RSim.pure (fun _ h => h.1)

end

theorem tryAssign_sim {O : Oracle K V} {p : Ptr} {v : V} {Q : Ptr} :
    RSim (fun t => Own Q t.c) (Impl.tryAssign O p v) (Mid.tryAssign O p v) (fun _ t => Own Q t.c) := by
  refine (may_sim (P := Own Q) O).bind fun r => ?_
  cases r with
  | none => exact assignValue_sim
  | some n => exact tearValue_sim.bind fun _ => RSim.throw

theorem moveToFrontAssign_sim {O : Oracle K V} {n : MapNode K V} {v : V} :
    RSim (fun t => Own n.addr t.c) (Impl.moveToFrontAssign O n v) (Mid.moveToFrontAssign O n v)
      (fun _ t => Own n.addr t.c) :=
  moveToFront_sim.bind fun _ => tryAssign_sim

/-- `invalidateIf` keeps what is known about the entries. -/
theorem invalidateIf_sim {k : K} {P : List (Ent K V) → Prop} :
    RSim (fun t => P t.c.ents) (Impl.invalidateIf (V := V) k) (Mid.invalidateIf k) (fun _ t => P t.c.ents) := by
  refine (lastIs_sim (P := fun c => P c.ents)).bind fun b => ?_
  exact RSim.ite (fun _ => lastInvalidate_sim) (fun _ => RSim.pure (fun _ h => h))

theorem eraseIt_sim {it : Option Ptr} : Sim (Impl.eraseIt (K := K) (V := V) it) (Mid.eraseIt it) := by
  refine (derefIt_sim (P := fun _ => True)).bind fun n => ?_
  refine ((invalidateIf_sim (P := fun l => ∃ e ∈ l, e.node = n)).pre (fun _ h => h.2.1)).bind fun _ => ?_
  exact eraseAt_sim

theorem eraseKeyInfo_sim {n : MapNode K V} :
    RSim (fun t => OwnNode n t.c ∨ ∀ q, n.info.order = some q → q ∉ t.c.ents.map (·.slot))
      (Impl.eraseKeyInfo n) (Mid.eraseKeyInfo n) (fun _ _ => True) := by
  refine (invalidateIf_sim (P := fun l => (∃ e ∈ l, e.node = n) ∨
    ∀ q, n.info.order = some q → q ∉ l.map (·.slot))).bind fun _ => ?_
  exact eraseKey_sim

theorem eraseLru_sim : Sim (Impl.eraseLru (K := K) (V := V)) Mid.eraseLru := by
  refine (orderFront_sim (P := fun _ => True)).bind fun l => ?_
  refine (keyOf_sim (P := fun _ => True)).bind fun k => ?_
  refine (mapFind_sim (P := fun _ => True)).bind fun it => ?_
  exact eraseIt_sim.weaken

theorem erase_sim {k : K} : Sim (Impl.erase (V := V) k) (Mid.erase k) := by
  refine (lastIs_sim (P := fun _ => True)).bind fun b => ?_
  refine RSim.ite (fun _ => ?_) (fun _ => ?_)
  · refine (lastNode_sim (P := fun _ => True)).bind fun n => ?_
    refine RSim.bind (Q := fun _ _ => True) (RSim.awf ?_) (fun _ => RSim.pure (fun _ _ => trivial))
    refine eraseKeyInfo_sim.pre ?_
    rintro t ⟨⟨-, p, hp, hn, h⟩, w⟩
    rcases h with h | ⟨h1, h2⟩
    · exact .inl h
    · exact .inr (fun q hq => (w.foreign p n q hp h1 h2 hn hq).1)
  · refine (mapFind_sim (P := fun _ => True)).bind fun it => ?_
    cases it with
    | none => exact RSim.pure (fun _ _ => trivial)
    | some n => exact eraseIt_sim.weaken.bind fun _ => RSim.pure (fun _ _ => trivial)

theorem eraseU_sim {it : Option Ptr} : Sim (Impl.eraseU (K := K) (V := V) it) (Mid.eraseU it) := by
  cases it with
  | none => exact RSim.throw
  | some p => exact eraseIt_sim

theorem eraseLruWhile_sim {n fuel : Nat} :
    RSim (fun _ => True) (Impl.eraseLruWhile (K := K) (V := V) n fuel) (Mid.eraseLruWhile n fuel)
      (fun _ t => t.c.ents.length ≤ n) := by
  induction fuel with
  | zero => exact RSim.diverge
  | succ f ih =>
    refine (size_sim (P := fun _ => True)).bind fun m => ?_
    refine RSim.ite (fun _ => ?_) (fun h => ?_)
    · exact eraseLru_sim.weaken.bind fun _ => ih
    · exact RSim.pure (fun t ht => by have := ht.2; omega)

theorem shrink_sim {n : Nat} : Sim (Impl.shrink (K := K) (V := V) n) (Mid.shrink n) := by
  refine (size_sim (P := fun _ => True)).bind fun m => ?_
  refine RSim.ite (fun _ => RSim.pure (fun _ _ => trivial)) (fun _ => ?_)
  refine RSim.ite (fun _ => clear_sim.weaken.sim) (fun _ => eraseLruWhile_sim.weaken.sim)

theorem setCapacity_sim {n : Nat} : Sim (Impl.setCapacity (K := K) (V := V) n) (Mid.setCapacity n) := by
  refine (size_sim (P := fun _ => True)).bind fun m => ?_
  exact eraseLruWhile_sim.weaken.bind fun _ => assignCapacity_sim

theorem spaceLeft_sim : Sim (Impl.spaceLeft (K := K) (V := V)) Mid.spaceLeft := by
  refine (readCapacity_sim (P := fun _ => True)).bind fun m => ?_
  refine ((size_sim (P := fun _ => True)).pre (fun _ _ => trivial)).bind fun n => ?_
  exact RSim.pure (fun _ _ => trivial)

theorem isFull_sim : Sim (Impl.isFull (K := K) (V := V)) Mid.isFull := by
  refine (size_sim (P := fun _ => True)).bind fun m => ?_
  refine ((readCapacity_sim (P := fun _ => True)).pre (fun _ _ => trivial)).bind fun n => ?_
  exact RSim.pure (fun _ _ => trivial)

theorem clearAndIncreaseCapacity_sim {n : Nat} :
    Sim (Impl.clearAndIncreaseCapacity (K := K) (V := V) n) (Mid.clearAndIncreaseCapacity n) := by
  refine clear_sim.bind fun _ => ?_
  refine ((readCapacity_sim (P := fun c => c.ents = [])).pre (fun _ h => h.1)).bind fun c => ?_
  refine RSim.ite (fun _ => ?_) (fun _ => RSim.pure (fun _ _ => trivial))
  exact assignCapacity_sim.pre (fun t h => by rw [h.1]; simp)

theorem front_sim : Sim (Impl.front (K := K) (V := V)) Mid.front := by
  refine RSim.noexcept ?_
  refine (isEmpty_sim (P := fun _ => True)).bind fun b => ?_
  refine RSim.ite (fun _ => RSim.throw) (fun _ => ?_)
  exact (orderBack_sim (P := fun _ => True)).bind fun l => keyOf_sim (P := fun _ => True)

theorem back_sim : Sim (Impl.back (K := K) (V := V)) Mid.back := by
  refine RSim.noexcept ?_
  refine (isEmpty_sim (P := fun _ => True)).bind fun b => ?_
  refine RSim.ite (fun _ => RSim.throw) (fun _ => ?_)
  exact (orderFront_sim (P := fun _ => True)).bind fun l => keyOf_sim (P := fun _ => True)

section

variable (O : Oracle K V)

theorem allExpired_sim : Sim (Impl.allExpired (K := K) (V := V) O) (Mid.allExpired O) := by
  refine (isEmpty_sim (P := fun _ => True)).bind fun b => ?_
  refine RSim.ite (fun _ => RSim.pure (fun _ _ => trivial)) (fun _ => ?_)
  refine (orderBack_sim (P := fun _ => True)).bind fun l => ?_
  refine (keyOf_sim (P := fun _ => True)).bind fun k => ?_
  refine (mapFind_sim (P := fun _ => True)).bind fun it => ?_
  cases it with
  | none => exact RSim.ub
  | some n => exact (hasExpiredInfo_sim (P := fun _ => True) O).weaken

theorem clearExpiredLoop_sim {c fuel : Nat} :
    Sim (Impl.clearExpiredLoop (K := K) (V := V) O c fuel) (Mid.clearExpiredLoop O c fuel) := by
  induction fuel generalizing c with
  | zero => exact RSim.diverge
  | succ f ih =>
    refine (orderFirst_sim (P := fun _ => True)).bind fun l => ?_
    cases l with
    | none => exact RSim.pure (fun _ _ => trivial)
    | some l =>
      refine ((keyOf_sim (P := fun _ => True)).pre (fun _ _ => trivial)).bind fun k => ?_
      refine (mapFind_sim (P := fun _ => True)).bind fun it => ?_
      cases it with
      | none => exact RSim.ub
      | some n =>
        refine ((hasExpiredInfo_sim (P := fun _ => True) O).pre (fun _ _ => trivial)).bind fun b => ?_
        refine RSim.ite (fun _ => ?_) (fun _ => RSim.pure (fun _ _ => trivial))
        exact eraseIt_sim.bind fun _ => ih

theorem clearExpired_sim : Sim (Impl.clearExpired (K := K) (V := V) O) (Mid.clearExpired O) := by
  refine (isEmpty_sim (P := fun _ => True)).bind fun b => ?_
  refine RSim.ite (fun _ => RSim.pure (fun _ _ => trivial)) (fun _ => ?_)
  refine (size_sim (P := fun _ => True)).bind fun n => ?_
  exact (clearExpiredLoop_sim O).weaken

theorem hasExpired_sim {k : K} : Sim (Impl.hasExpired (V := V) O k) (Mid.hasExpired O k) := by
  refine (mapFind_sim (P := fun _ => True)).bind fun it => ?_
  cases it with
  | none => exact RSim.pure (fun _ _ => trivial)
  | some n => exact (hasExpiredInfo_sim (P := fun _ => True) O).weaken

theorem throwIfInvalidU_sim {it : Option Ptr} :
    Sim (Impl.throwIfInvalidU (K := K) (V := V) O it) (Mid.throwIfInvalidU O it) := by
  cases it with
  | none => exact RSim.throw
  | some p =>
    refine (getKind_sim (P := fun _ => True)).bind fun kind => ?_
    cases kind with
    | basic => exact RSim.pure (fun _ _ => trivial)
    | timed ttl res =>
      refine ((derefIt_sim (P := fun _ => True)).pre (fun _ _ => trivial)).bind fun n => ?_
      refine ((hasExpiredInfo_sim (P := fun _ => True) O).pre (fun _ _ => trivial)).bind fun b => ?_
      exact RSim.ite (fun _ => RSim.throw) (fun _ => RSim.pure (fun _ _ => trivial))

theorem entryU_sim {it : Option Ptr} :
    Sim (Impl.entryU (K := K) (V := V) O it) (Mid.entryU O it) := by
  refine (derefIt_sim (P := fun _ => True)).bind fun n => ?_
  exact (throwIfInvalidU_sim O).weaken.bind fun _ => RSim.pure (fun _ _ => trivial)

theorem hasExpiredU_sim {it : Option Ptr} :
    Sim (Impl.hasExpiredU (K := K) (V := V) O it) (Mid.hasExpiredU O it) := by
  cases it with
  | none => exact RSim.pure (fun _ _ => trivial)
  | some p =>
    refine (derefIt_sim (P := fun _ => True)).bind fun n => ?_
    exact (hasExpiredInfo_sim (P := fun _ => True) O).weaken

theorem isValidU_sim {it : Option Ptr} :
    Sim (Impl.isValidU (K := K) (V := V) O it) (Mid.isValidU O it) := by
  cases it with
  | none => exact RSim.pure (fun _ _ => trivial)
  | some p =>
    refine (getKind_sim (P := fun _ => True)).bind fun kind => ?_
    cases kind with
    | basic => exact RSim.pure (fun _ _ => trivial)
    | timed ttl res => exact (hasExpiredU_sim O).weaken.bind fun _ => RSim.pure (fun _ _ => trivial)

theorem uDeref_sim {it : Impl.UIt} : Sim (Impl.uDeref (K := K) (V := V) it) (Mid.uDeref it) := by
  obtain ⟨pos, entry⟩ := it
  cases entry with
  | some p => exact RSim.pure (fun _ _ => trivial)
  | none => exact (derefIt_sim (P := fun _ => True)).bind fun n => RSim.pure (fun _ _ => trivial)

theorem uEntry_sim {it : Impl.UIt} : Sim (Impl.uEntry (K := K) (V := V) O it) (Mid.uEntry O it) :=
  uDeref_sim.bind fun _ => (throwIfInvalidU_sim O).bind fun _ => RSim.pure (fun _ _ => trivial)

theorem uKey_sim {it : Impl.UIt} : Sim (Impl.uKey (K := K) (V := V) O it) (Mid.uKey O it) :=
  (uEntry_sim O).bind fun _ => (derefIt_sim (P := fun _ => True)).bind fun _ => RSim.pure (fun _ _ => trivial)

theorem uValue_sim {it : Impl.UIt} : Sim (Impl.uValue (K := K) (V := V) O it) (Mid.uValue O it) :=
  (uEntry_sim O).bind fun _ => (derefIt_sim (P := fun _ => True)).bind fun _ => RSim.pure (fun _ _ => trivial)

theorem oBegin_sim : Sim (Impl.oBegin (K := K) (V := V)) Mid.oBegin :=
  (orderAddrs_sim (P := fun _ => True)).bind fun _ => RSim.pure (fun _ _ => trivial)

theorem oNext_sim {it : Impl.OIt} : Sim (Impl.oNext (K := K) (V := V) it) (Mid.oNext it) := by
  refine (orderAddrs_sim (P := fun _ => True)).bind fun as => ?_
  obtain ⟨pos, entry⟩ := it
  cases pos with
  | none => exact RSim.ub
  | some p =>
    dsimp only
    cases Impl.after p as with
    | none => exact RSim.ub
    | some q => exact RSim.pure (fun _ _ => trivial)

theorem oPrev_sim {it : Impl.OIt} : Sim (Impl.oPrev (K := K) (V := V) it) (Mid.oPrev it) := by
  refine (orderAddrs_sim (P := fun _ => True)).bind fun as => ?_
  obtain ⟨pos, entry⟩ := it
  cases pos with
  | none =>
    dsimp only
    cases as.getLast? with
    | none => exact RSim.ub
    | some q => exact RSim.pure (fun _ _ => trivial)
  | some p =>
    dsimp only
    rcases Impl.after p as.reverse with _ | _ | q
    · exact RSim.ub
    · exact RSim.ub
    · exact RSim.pure (fun _ _ => trivial)

theorem keyAt_sim {pos : Option Ptr} : Sim (Impl.keyAt (K := K) (V := V) pos) (Mid.keyAt pos) := by
  cases pos with
  | none => exact RSim.ub
  | some p =>
    exact (derefOrder_sim (P := fun _ => True)).bind fun l => (keyOf_sim (P := fun _ => True)).weaken

theorem oLookup_sim {pos : Option Ptr} : Sim (Impl.oLookup (K := K) (V := V) pos) (Mid.oLookup pos) := by
  refine keyAt_sim.bind fun k => ?_
  refine (mapFind_sim (P := fun _ => True)).bind fun it => ?_
  cases it with
  | none => exact RSim.ub
  | some n => exact RSim.pure (fun _ _ => trivial)

theorem oDeref_sim {it : Impl.OIt} : Sim (Impl.oDeref (K := K) (V := V) it) (Mid.oDeref it) := by
  obtain ⟨pos, entry⟩ := it
  cases entry with
  | some p => exact RSim.pure (fun _ _ => trivial)
  | none => exact oLookup_sim.bind fun n => RSim.pure (fun _ _ => trivial)

theorem hasExpiredO_sim {pos : Option Ptr} :
    Sim (Impl.hasExpiredO (K := K) (V := V) O pos) (Mid.hasExpiredO O pos) := by
  cases pos with
  | none => exact RSim.pure (fun _ _ => trivial)
  | some p =>
    refine oLookup_sim.bind fun q => ?_
    refine (derefIt_sim (P := fun _ => True)).bind fun n => ?_
    refine ((mapFind_sim (P := fun _ => True)).pre (fun _ _ => trivial)).bind fun it => ?_
    cases it with
    | none => exact RSim.ub
    | some m => exact (hasExpiredInfo_sim (P := fun _ => True) O).weaken

theorem isValidO_sim {pos : Option Ptr} :
    Sim (Impl.isValidO (K := K) (V := V) O pos) (Mid.isValidO O pos) := by
  cases pos with
  | none => exact RSim.pure (fun _ _ => trivial)
  | some p =>
    refine (getKind_sim (P := fun _ => True)).bind fun kind => ?_
    cases kind with
    | basic => exact RSim.pure (fun _ _ => trivial)
    | timed ttl res => exact (hasExpiredO_sim O).weaken.bind fun _ => RSim.pure (fun _ _ => trivial)

theorem throwIfInvalidO_sim {pos : Option Ptr} :
    Sim (Impl.throwIfInvalidO (K := K) (V := V) O pos) (Mid.throwIfInvalidO O pos) := by
  cases pos with
  | none => exact RSim.throw
  | some p =>
    refine (getKind_sim (P := fun _ => True)).bind fun kind => ?_
    cases kind with
    | basic => exact RSim.pure (fun _ _ => trivial)
    | timed ttl res =>
      refine (hasExpiredO_sim O).weaken.bind fun b => ?_
      exact RSim.ite (fun _ => RSim.throw) (fun _ => RSim.pure (fun _ _ => trivial))

theorem oValue_sim {it : Impl.OIt} : Sim (Impl.oValue (K := K) (V := V) O it) (Mid.oValue O it) :=
  ((throwIfInvalidO_sim O).bind fun _ => oDeref_sim).bind fun _ =>
    (derefIt_sim (P := fun _ => True)).bind fun _ => RSim.pure (fun _ _ => trivial)

theorem oKey_sim {it : Impl.OIt} : Sim (Impl.oKey (K := K) (V := V) O it) (Mid.oKey O it) :=
  (throwIfInvalidO_sim O).bind fun _ => keyAt_sim

theorem toOrdered_sim {it : Impl.UIt} : Sim (Impl.toOrdered (K := K) (V := V) it) (Mid.toOrdered it) := by
  obtain ⟨pos, entry⟩ := it
  cases pos with
  | none => exact RSim.throw
  | some p =>
    refine (derefIt_sim (P := fun _ => True)).bind fun n => ?_
    obtain ⟨a, k, v, o, t⟩ := n
    cases o with
    | none => exact RSim.ub
    | some q => exact RSim.pure (fun _ _ => trivial)

theorem eqOU_sim {o : Impl.OIt} {u : Impl.UIt} : Sim (Impl.eqOU (K := K) (V := V) o u) (Mid.eqOU o u) := by
  refine RSim.noexcept ?_
  obtain ⟨pos, entry⟩ := u
  cases pos with
  | none => exact RSim.pure (fun _ _ => trivial)
  | some p => exact toOrdered_sim.bind fun _ => RSim.pure (fun _ _ => trivial)

theorem eraseO_sim {it : Impl.OIt} : Sim (Impl.eraseO (K := K) (V := V) O it) (Mid.eraseO O it) := by
  obtain ⟨pos, entry⟩ := it
  cases pos with
  | none => exact RSim.throw
  | some p =>
    refine (oKey_sim O).bind fun k => ?_
    exact (mapFind_sim (P := fun _ => True)).bind fun n => eraseIt_sim.weaken

theorem write_sim {p : Ptr} {v : V} : Sim (Impl.write (K := K) p v) (Mid.write p v) := by
  refine (derefIt_sim (P := fun _ => True)).bind fun n => ?_
  exact ((assignValue_sim (Q := n.addr)).pre (fun _ h => h.2.1.own)).sim

theorem read_sim {p : Ptr} : Sim (Impl.read (K := K) (V := V) p) (Mid.read p) :=
  (derefIt_sim (P := fun _ => True)).bind fun _ => RSim.pure (fun _ _ => trivial)

variable [DecidableEq K]

theorem find_sim {k : K} : Sim (Impl.find O k) (Mid.find O k) := by
  refine (getObs_sim (P := fun _ => True)).bind fun o => ?_
  refine ((mapFind_sim (P := fun _ => True)).pre (fun _ _ => trivial)).bind fun it => ?_
  cases it with
  | none =>
    refine ((registerMiss_sim (P := fun _ => True) O).pre (fun _ _ => trivial)).bind fun _ => ?_
    exact RSim.pure (fun _ _ => trivial)
  | some n =>
    refine ((hasExpiredInfo_sim (P := Own n.addr) O).pre ?_).bind fun b => ?_
    · rintro t ⟨-, h⟩
      obtain ⟨e, he, rfl, -⟩ := mapFind_some h
      exact ⟨e, he, rfl⟩
    · refine RSim.ite (fun _ => ?_) (fun _ => ?_)
      · refine ((registerMiss_sim (P := fun _ => True) O).pre (fun _ _ => trivial)).bind fun _ => ?_
        exact RSim.pure (fun _ _ => trivial)
      · refine (registerHit_sim (P := Own n.addr) O).bind fun _ => ?_
        refine moveToFront_sim.bind fun _ => ?_
        exact setLast_sim.bind fun _ => RSim.pure (fun _ _ => trivial)

theorem contains_sim {k : K} : Sim (Impl.contains O k) (Mid.contains O k) := by
  refine (getObs_sim (P := fun _ => True)).bind fun o => ?_
  refine ((lastIs_sim (P := fun _ => True)).pre (fun _ _ => trivial)).bind fun b => ?_
  refine RSim.ite (fun _ => ?_) (fun _ => ?_)
  · refine (lastAccessedIsOk_sim (P := fun _ => True) O).bind fun b => ?_
    refine RSim.ite (fun _ => ?_) (fun _ => RSim.pure (fun _ _ => trivial))
    refine (lastNode_sim (P := fun _ => True)).bind fun n => ?_
    refine ((registerHit_sim (P := fun _ => True) O).pre (fun _ _ => trivial)).bind fun _ => ?_
    exact RSim.pure (fun _ _ => trivial)
  · exact (find_sim O).bind fun _ => RSim.pure (fun _ _ => trivial)

theorem lookup_sim {k : K} : Sim (Impl.lookup O k) (Mid.lookup O k) := by
  refine (getObs_sim (P := fun _ => True)).bind fun o => ?_
  refine ((lastIs_sim (P := fun _ => True)).pre (fun _ _ => trivial)).bind fun b => ?_
  refine RSim.ite (fun _ => ?_) (fun _ => ?_)
  · refine (valueForLastAccessed_sim (P := fun _ => True) O).bind fun n => ?_
    refine ((registerHit_sim (P := fun _ => True) O).pre (fun _ _ => trivial)).bind fun _ => ?_
    exact RSim.pure (fun _ _ => trivial)
  · refine (find_sim O).bind fun it => ?_
    cases it with
    | none => exact RSim.throw
    | some p => exact (entryU_sim O).bind fun _ => RSim.pure (fun _ _ => trivial)

end

section insertion

variable {O : Oracle K V} (hO : NoListFault O)
include hO

theorem insert_sim {k : K} {v : V} : Sim (Impl.insert O k v) (Mid.insert O k v) := by
  refine (readCapacity_sim (P := fun _ => True)).bind fun c => ?_
  refine RSim.ite (fun _ => RSim.pure (fun _ _ => trivial)) (fun _ => ?_)
  refine ((mapFind_sim (P := fun _ => True)).pre (fun _ _ => trivial)).bind fun it => ?_
  cases it with
  | none =>
    refine ((insertionTime_sim (P := fun c => ∀ e ∈ c.ents, keq e.key k = false) O).pre
      (fun t h => mapFind_none h.2)).bind fun t => ?_
    refine (attempt_sim (P := fun c => ∀ e ∈ c.ents, keq e.key k = false) O).bind fun _ => ?_
    refine (insertNode_sim hO).bind fun p => ?_
    exact setLast_sim.bind fun _ => RSim.pure (fun _ _ => trivial)
  | some n =>
    refine (moveToFrontAssign_sim.pre ?_).bind fun _ => ?_
    · rintro t ⟨-, h⟩
      obtain ⟨e, he, rfl, -⟩ := mapFind_some h
      exact ⟨e, he, rfl⟩
    · exact setLast_sim.bind fun _ => RSim.pure (fun _ _ => trivial)

theorem emplace_sim {k : K} {v : V} : Sim (Impl.emplace O k v) (Mid.emplace O k v) := by
  refine (readCapacity_sim (P := fun _ => True)).bind fun c => ?_
  refine RSim.ite (fun _ => RSim.pure (fun _ _ => trivial)) (fun _ => ?_)
  refine ((attempt_sim (P := fun _ => True) O).pre (fun _ _ => trivial)).bind fun _ => ?_
  refine (mapFind_sim (P := fun _ => True)).bind fun it => ?_
  cases it with
  | none =>
    refine ((attempt_sim (P := fun c => ∀ e ∈ c.ents, keq e.key k = false) O).pre
      (fun t h => mapFind_none h.2)).bind fun _ => ?_
    refine (insertionTime_sim (P := fun c => ∀ e ∈ c.ents, keq e.key k = false) O).bind fun t => ?_
    refine (insertNode_sim hO).bind fun p => ?_
    exact setLast_sim.bind fun _ => RSim.pure (fun _ _ => trivial)
  | some n =>
    refine ((attempt_sim (P := Own n.addr) O).pre ?_).bind fun _ => ?_
    · rintro t ⟨-, h⟩
      obtain ⟨e, he, rfl, -⟩ := mapFind_some h
      exact ⟨e, he, rfl⟩
    · refine moveToFrontAssign_sim.bind fun _ => ?_
      exact setLast_sim.bind fun _ => RSim.pure (fun _ _ => trivial)

theorem insertRange_sim {l : List (K × V)} : Sim (Impl.insertRange O l) (Mid.insertRange O l) := by
  induction l with
  | nil => exact RSim.pure (fun _ _ => trivial)
  | cons p r ih =>
    obtain ⟨k, v⟩ := p
    exact (insert_sim hO).bind fun _ => ih.bind fun _ => RSim.pure (fun _ _ => trivial)

theorem insertRangeMove_sim {l : List (K × V)} :
    Sim (Impl.insertRangeMove O l) (Mid.insertRangeMove O l) := by
  induction l with
  | nil => exact RSim.pure (fun _ _ => trivial)
  | cons p r ih =>
    obtain ⟨k, v⟩ := p
    exact (emplace_sim hO).bind fun _ => ih.bind fun _ => RSim.pure (fun _ _ => trivial)

theorem assignRange_sim {l : List (K × V)} : Sim (Impl.assignRange O l) (Mid.assignRange O l) :=
  clearAndIncreaseCapacity_sim.bind fun _ => (insertRange_sim hO).bind fun _ =>
    RSim.pure (fun _ _ => trivial)

theorem assignRangeMove_sim {l : List (K × V)} :
    Sim (Impl.assignRangeMove O l) (Mid.assignRangeMove O l) :=
  clearAndIncreaseCapacity_sim.bind fun _ => (insertRangeMove_sim hO).bind fun _ =>
    RSim.pure (fun _ _ => trivial)

end insertion

theorem monitorNew_sim [DecidableEq K] {ks : List K} :
    Sim (Impl.monitorNew (V := V) ks) (Mid.monitorNew ks) := by
  intro s t hr _
  unfold Impl.monitorNew Mid.monitorNew
  refine ⟨by rw [hr.g], ⟨?_, ?_, ?_⟩, trivial⟩
  · exact { order := hr.rep.order, map := hr.rep.map, last := hr.rep.last, cap := hr.rep.cap,
            kind := hr.rep.kind, obs := by simp [hr.rep.obs, hr.g] }
  · simp [hr.g]
  · have := hr.awf.mono (g' := { t.g with
      nextStat := t.g.nextStat + 1
      stats := fun j => if j = t.g.nextStat then Statistics.ofKeys ks else t.g.stats j }) rfl (Nat.le_refl _)
    exact { this with }

/-- Every call of the model has exactly the outcome of the list machine. -/
theorem step_sim [DecidableEq K] {O : Oracle K V} (hO : NoListFault O) (op : Op K V) :
    Sim (Impl.step O op) (Mid.step O op) := by
  cases op with
  | contains k => exact (contains_sim O).ret
  | find k => exact (find_sim O).ret
  | lookup k => exact (lookup_sim O).ret
  | insert k v => exact (insert_sim hO).ret
  | emplace k v => exact (emplace_sim hO).ret
  | insertRange l => exact (insertRange_sim hO).ret
  | insertRangeMove l => exact (insertRangeMove_sim hO).ret
  | assignRange l => exact (assignRange_sim hO).ret
  | assignRangeMove l => exact (assignRangeMove_sim hO).ret
  | erase k => exact erase_sim.ret
  | eraseU pos => exact eraseU_sim.ret
  | eraseO pos => exact (eraseO_sim O).ret
  | clear => exact clear_sim.ret
  | shrink n => exact shrink_sim.ret
  | setCapacity n => exact setCapacity_sim.ret
  | size => exact (size_sim (P := fun _ => True)).ret
  | capacity => exact (readCapacity_sim (P := fun _ => True)).ret
  | spaceLeft => exact spaceLeft_sim.ret
  | isEmpty => exact (isEmpty_sim (P := fun _ => True)).ret
  | isFull => exact isFull_sim.ret
  | front => exact front_sim.ret
  | back => exact back_sim.ret
  | allExpired => exact (allExpired_sim O).ret
  | clearExpired => exact (clearExpired_sim O).ret
  | hasExpired k => exact (hasExpired_sim O).ret
  | hasExpiredU pos => exact (hasExpiredU_sim O).ret
  | hasExpiredO pos => exact (hasExpiredO_sim O).ret
  | isValidU pos => exact (isValidU_sim O).ret
  | isValidO pos => exact (isValidO_sim O).ret
  | uKey pos => exact (uKey_sim O).ret
  | uValue pos => exact (uValue_sim O).ret
  | oBegin => exact oBegin_sim.ret
  | oNext pos => exact oNext_sim.ret
  | oPrev pos => exact oPrev_sim.ret
  | oKey pos => exact (oKey_sim O).ret
  | oValue pos => exact (oValue_sim O).ret
  | toOrdered pos => exact toOrdered_sim.ret
  | eqOU o u => exact eqOU_sim.ret
  | monitor i => exact (setObs_sim (f := fun o => { o with stats := i })).ret
  | monitorNew ks => exact monitorNew_sim.ret
  | stopMonitoring => exact (setObs_sim (f := fun o => { o with stats := none })).ret
  | isMonitoring =>
    exact ((getObs_sim (P := fun _ => True)).bind
      (Q' := fun _ _ => True) fun _ => RSim.pure (fun _ _ => trivial)).ret
  | stats =>
    refine ((getObs_sim (P := fun _ => True)).bind (Q' := fun _ _ => True) fun o => ?_).ret
    cases o.stats with
    | none => exact RSim.throw
    | some i => exact RSim.pure (fun _ _ => trivial)
  | sharedStats =>
    exact ((getObs_sim (P := fun _ => True)).bind
      (Q' := fun _ _ => True) fun _ => RSim.pure (fun _ _ => trivial)).ret
  | addHitCallback cb => exact (setObs_sim (f := fun o => { o with hitCbs := o.hitCbs ++ [cb] })).ret
  | addMissCallback cb => exact (setObs_sim (f := fun o => { o with missCbs := o.missCbs ++ [cb] })).ret
  | addAccessCallback cb => exact (setObs_sim (f := fun o => { o with accCbs := o.accCbs ++ [cb] })).ret
  | clearHitCallbacks => exact (setObs_sim (f := fun o => { o with hitCbs := [] })).ret
  | clearMissCallbacks => exact (setObs_sim (f := fun o => { o with missCbs := [] })).ret
  | clearAccessCallbacks => exact (setObs_sim (f := fun o => { o with accCbs := [] })).ret
  | clearAllCallbacks =>
    exact (setObs_sim (f := fun o => { o with hitCbs := [], missCbs := [], accCbs := [] })).ret
  | write p v => exact write_sim.ret
  | read p => exact read_sim.ret

end LRU
