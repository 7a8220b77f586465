import Verif.Proofs.Closed
/-!
# Calls that change nothing
-/

set_option linter.unusedSectionVars false

namespace LRU

/-- A property of the state a call leaves behind, if it returns or throws. -/
def Out.Post {σ α : Type} (P : σ → Prop) : Out σ α → Prop
  | .ok _ s => P s
  | .throw _ s => P s
  | _ => True

variable {K V : Type} [KeyEqual K] {α β : Type}

/-- The cache is left alone and nothing observable happens to the shared state. -/
def ReadOnly (m : Mid.CM K V α) : Prop := ∀ t, (m t).Post (fun t' => t'.c = t.c ∧ Quiet t.g t'.g)

section rules

theorem ReadOnly.bind {m : Mid.CM K V α} {f : α → Mid.CM K V β} (h : ReadOnly m) (h' : ∀ a, ReadOnly (f a)) :
    ReadOnly (m >>= f) := by
  intro t
  have h1 := h t
  show (M.bind m f t).Post _
  unfold M.bind
  cases hm : m t with
  | ok a t' =>
    rw [hm] at h1
    simp only [Out.Post] at h1 ⊢
    have h2 := h' a t'
    cases hf : f a t' with
    | ok b t'' =>
      rw [hf] at h2
      exact ⟨h2.1.trans h1.1, h1.2.trans h2.2⟩
    | throw e t'' =>
      rw [hf] at h2
      exact ⟨h2.1.trans h1.1, h1.2.trans h2.2⟩
    | ub => trivial
    | terminate => trivial
    | diverge => trivial
  | throw e t' => rw [hm] at h1; exact h1
  | ub => trivial
  | terminate => trivial
  | diverge => trivial

theorem ReadOnly.pure {a : α} : ReadOnly (Pure.pure a : Mid.CM K V α) := fun t => ⟨rfl, Quiet.refl _⟩

theorem ReadOnly.throw {e : Err} : ReadOnly (M.throw e : Mid.CM K V α) := fun t => ⟨rfl, Quiet.refl _⟩

theorem ReadOnly.ub : ReadOnly (M.ub : Mid.CM K V α) := fun _ => trivial

theorem ReadOnly.ite {c : Prop} [Decidable c] {m m' : Mid.CM K V α} (h : ReadOnly m) (h' : ReadOnly m') :
    ReadOnly (if c then m else m') := by
  split
  · exact h
  · exact h'

theorem ReadOnly.noexcept {m : Mid.CM K V α} (h : ReadOnly m) : ReadOnly (M.noexcept m) := by
  intro t
  have := h t
  unfold M.noexcept
  cases hm : m t <;> rw [hm] at this <;> first | exact this | trivial

theorem ReadOnly.ret {m : Mid.CM K V α} {f : α → Res K V} (h : ReadOnly m) : ReadOnly (Impl.ret m f) :=
  h.bind fun _ => .pure

theorem ReadOnly.of_ok {m : Mid.CM K V α} {f : St (MCache K V) K V → α} (h : ∀ t, m t = .ok (f t) t) :
    ReadOnly m := by
  intro t
  rw [h]
  exact ⟨rfl, Quiet.refl _⟩

end rules

section ops

variable [DecidableEq K] {O : Oracle K V}

theorem size_ro : ReadOnly (Mid.size : Mid.CM K V Nat) := .of_ok fun _ => rfl
theorem getKind_ro : ReadOnly (Mid.getKind : Mid.CM K V Kind) := .of_ok fun _ => rfl
theorem getObs_ro : ReadOnly (Mid.getObs : Mid.CM K V Obs) := .of_ok fun _ => rfl
theorem getLast_ro : ReadOnly (Mid.getLast : Mid.CM K V _) := .of_ok fun _ => rfl
theorem orderFirst_ro : ReadOnly (Mid.orderFirst : Mid.CM K V _) := .of_ok fun _ => rfl
theorem orderLast_ro : ReadOnly (Mid.orderLast : Mid.CM K V _) := .of_ok fun _ => rfl
theorem orderAddrs_ro : ReadOnly (Mid.orderAddrs : Mid.CM K V _) := .of_ok fun _ => rfl
theorem mapFind_ro {k : K} : ReadOnly (Mid.mapFind k : Mid.CM K V _) := .of_ok fun _ => rfl

theorem deref_ro {p : Ptr} : ReadOnly (Mid.deref p : Mid.CM K V _) := by
  intro t
  unfold Mid.deref
  cases t.c.ents.find? (fun e => e.id == p) with
  | some e => exact ⟨rfl, Quiet.refl _⟩
  | none =>
    simp only
    cases t.g.ext.find? (fun n => n.addr == p) with
    | some e => exact ⟨rfl, Quiet.refl _⟩
    | none => trivial

theorem derefIt_ro {it : Option Ptr} : ReadOnly (Mid.derefIt it : Mid.CM K V _) := by
  cases it with
  | none => exact .ub
  | some p =>
    intro t
    unfold Mid.derefIt
    simp only
    cases t.c.ents.find? (fun e => e.id == p) with
    | some e => exact ⟨rfl, Quiet.refl _⟩
    | none => trivial

theorem derefOrder_ro {p : Ptr} : ReadOnly (Mid.derefOrder p : Mid.CM K V _) := by
  intro t
  unfold Mid.derefOrder
  cases t.c.ents.find? (fun e => e.slot == p) with
  | some e => exact ⟨rfl, Quiet.refl _⟩
  | none => trivial

theorem readCapacity_ro : ReadOnly (Mid.readCapacity : Mid.CM K V _) := by
  intro t
  unfold Mid.readCapacity
  cases t.c.cap with
  | some e => exact ⟨rfl, Quiet.refl _⟩
  | none => trivial

theorem hasExpiredInfo_ro {time : Int} : ReadOnly (Mid.hasExpiredInfo O time) := by
  intro t
  rw [hasExpiredInfo_eq]
  exact ⟨rfl, quiet_tick _ _ _⟩

theorem keyOf_ro {l : ListNode} : ReadOnly (Mid.keyOf l : Mid.CM K V _) := deref_ro.bind fun _ => .pure

theorem orderFront_ro : ReadOnly (Mid.orderFront : Mid.CM K V _) :=
  orderFirst_ro.bind fun o => by cases o with
    | none => exact .ub
    | some _ => exact .pure

theorem orderBack_ro : ReadOnly (Mid.orderBack : Mid.CM K V _) :=
  orderLast_ro.bind fun o => by cases o with
    | none => exact .ub
    | some _ => exact .pure

theorem throwIfInvalidU_ro {it : Option Ptr} : ReadOnly (Mid.throwIfInvalidU O it) := by
  cases it with
  | none => exact .throw
  | some p => exact getKind_ro.bind fun kd => by cases kd with
    | basic => exact .pure
    | timed _ _ => exact derefIt_ro.bind fun _ => hasExpiredInfo_ro.bind fun _ => .ite .throw .pure

theorem spaceLeft_ro : ReadOnly (Mid.spaceLeft : Mid.CM K V _) :=
  readCapacity_ro.bind fun _ => size_ro.bind fun _ => .pure

theorem isEmpty_ro : ReadOnly (Mid.isEmpty : Mid.CM K V _) := size_ro.bind fun _ => .pure

theorem isFull_ro : ReadOnly (Mid.isFull : Mid.CM K V _) :=
  size_ro.bind fun _ => readCapacity_ro.bind fun _ => .pure

theorem front_ro : ReadOnly (Mid.front : Mid.CM K V _) :=
  .noexcept (isEmpty_ro.bind fun _ => .ite .throw (orderBack_ro.bind fun _ => keyOf_ro))

theorem back_ro : ReadOnly (Mid.back : Mid.CM K V _) :=
  .noexcept (isEmpty_ro.bind fun _ => .ite .throw (orderFront_ro.bind fun _ => keyOf_ro))

theorem allExpired_ro : ReadOnly (Mid.allExpired O) :=
  isEmpty_ro.bind fun _ => .ite .pure (orderBack_ro.bind fun _ => keyOf_ro.bind fun _ =>
    mapFind_ro.bind fun o => by cases o with
    | none => exact .ub
    | some _ => exact hasExpiredInfo_ro)

theorem hasExpired_ro {k : K} : ReadOnly (Mid.hasExpired O k) :=
  mapFind_ro.bind fun o => by cases o with
    | none => exact .pure
    | some _ => exact hasExpiredInfo_ro

theorem hasExpiredU_ro {it : Option Ptr} : ReadOnly (Mid.hasExpiredU O it) := by
  cases it with
  | none => exact .pure
  | some p => exact derefIt_ro.bind fun _ => hasExpiredInfo_ro

theorem isValidU_ro {it : Option Ptr} : ReadOnly (Mid.isValidU O it) := by
  cases it with
  | none => exact .pure
  | some p => exact getKind_ro.bind fun kd => by cases kd with
    | basic => exact .pure
    | timed _ _ => exact hasExpiredU_ro.bind fun _ => .pure

theorem uDeref_ro {it : Impl.UIt} : ReadOnly (Mid.uDeref it : Mid.CM K V _) := by
  unfold Mid.uDeref
  cases it.entry with
  | some _ => exact .pure
  | none => exact derefIt_ro.bind fun _ => .pure

theorem uEntry_ro {it : Impl.UIt} : ReadOnly (Mid.uEntry O it) :=
  uDeref_ro.bind fun _ => throwIfInvalidU_ro.bind fun _ => .pure

theorem uKey_ro {it : Impl.UIt} : ReadOnly (Mid.uKey O it) :=
  uEntry_ro.bind fun _ => derefIt_ro.bind fun _ => .pure

theorem uValue_ro {it : Impl.UIt} : ReadOnly (Mid.uValue O it) :=
  uEntry_ro.bind fun _ => derefIt_ro.bind fun _ => .pure

theorem oBegin_ro : ReadOnly (Mid.oBegin : Mid.CM K V _) := orderAddrs_ro.bind fun _ => .pure

theorem oNext_ro {it : Impl.OIt} : ReadOnly (Mid.oNext it : Mid.CM K V _) :=
  orderAddrs_ro.bind fun as => by
    cases it.pos with
    | none => exact .ub
    | some p =>
      simp only
      cases Impl.after p as with
      | none => exact .ub
      | some q => exact .pure

theorem oPrev_ro {it : Impl.OIt} : ReadOnly (Mid.oPrev it : Mid.CM K V _) :=
  orderAddrs_ro.bind fun as => by
    cases it.pos with
    | none =>
      simp only
      cases as.getLast? with
      | none => exact .ub
      | some q => exact .pure
    | some p =>
      simp only
      rcases Impl.after p as.reverse with _ | _ | q
      · exact .ub
      · exact .ub
      · exact .pure

theorem keyAt_ro {it : Option Ptr} : ReadOnly (Mid.keyAt it : Mid.CM K V _) := by
  cases it with
  | none => exact .ub
  | some p => exact derefOrder_ro.bind fun _ => keyOf_ro

theorem oLookup_ro {it : Option Ptr} : ReadOnly (Mid.oLookup it : Mid.CM K V _) :=
  keyAt_ro.bind fun _ => mapFind_ro.bind fun o => by cases o with
    | none => exact .ub
    | some _ => exact .pure

theorem oDeref_ro {it : Impl.OIt} : ReadOnly (Mid.oDeref it : Mid.CM K V _) := by
  unfold Mid.oDeref
  cases it.entry with
  | some _ => exact .pure
  | none => exact oLookup_ro.bind fun _ => .pure

theorem hasExpiredO_ro {it : Option Ptr} : ReadOnly (Mid.hasExpiredO O it) := by
  cases it with
  | none => exact .pure
  | some p => exact oLookup_ro.bind fun _ => derefIt_ro.bind fun _ => mapFind_ro.bind fun o => by cases o with
    | none => exact .ub
    | some _ => exact hasExpiredInfo_ro

theorem isValidO_ro {it : Option Ptr} : ReadOnly (Mid.isValidO O it) := by
  cases it with
  | none => exact .pure
  | some p => exact getKind_ro.bind fun kd => by cases kd with
    | basic => exact .pure
    | timed _ _ => exact hasExpiredO_ro.bind fun _ => .pure

theorem throwIfInvalidO_ro {it : Option Ptr} : ReadOnly (Mid.throwIfInvalidO O it) := by
  cases it with
  | none => exact .throw
  | some p => exact getKind_ro.bind fun kd => by cases kd with
    | basic => exact .pure
    | timed _ _ => exact hasExpiredO_ro.bind fun _ => .ite .throw .pure

theorem oEntry_ro {it : Impl.OIt} : ReadOnly (Mid.oEntry O it) :=
  throwIfInvalidO_ro.bind fun _ => oDeref_ro

theorem oValue_ro {it : Impl.OIt} : ReadOnly (Mid.oValue O it) :=
  oEntry_ro.bind fun _ => derefIt_ro.bind fun _ => .pure

theorem oKey_ro {it : Impl.OIt} : ReadOnly (Mid.oKey O it) :=
  throwIfInvalidO_ro.bind fun _ => keyAt_ro

theorem toOrdered_ro {it : Impl.UIt} : ReadOnly (Mid.toOrdered it : Mid.CM K V _) := by
  unfold Mid.toOrdered
  cases it.pos with
  | none => exact .throw
  | some p =>
    refine derefIt_ro.bind fun n => ?_
    cases n.info.order with
    | none => exact .ub
    | some q => exact .pure

theorem eqOU_ro {o : Impl.OIt} {u : Impl.UIt} : ReadOnly (Mid.eqOU o u : Mid.CM K V _) := by
  unfold Mid.eqOU
  cases u.pos with
  | none => exact .noexcept .pure
  | some p => exact .noexcept (toOrdered_ro.bind fun _ => .pure)

theorem isMonitoring_ro : ReadOnly (Mid.isMonitoring : Mid.CM K V _) := getObs_ro.bind fun _ => .pure

theorem stats_ro : ReadOnly (Mid.stats : Mid.CM K V _) := getObs_ro.bind fun o => by
  cases o.stats with
  | none => exact .throw
  | some q => exact .pure

theorem sharedStats_ro : ReadOnly (Mid.sharedStats : Mid.CM K V _) := getObs_ro.bind fun _ => .pure

theorem read_ro {p : Ptr} : ReadOnly (Mid.read p : Mid.CM K V _) := derefIt_ro.bind fun _ => .pure

end ops

end LRU
