import Verif.Proofs.Cost
/-!
# Bounds on the cost of a call: lemmas for `Props.Cost`

`Within`: a bound for every state. `PaysAt`: a bound in which the elements that leave the cache pay for their removal.
-/

set_option linter.unusedSectionVars false
set_option autoImplicit false

namespace LRU

open Metered

namespace Cost

variable {K V α β : Type} [KeyEqual K] [DecidableEq K] {O : Oracle K V} {s : St (Cache K V) K V}

/-! ### Worst case -/

/-- The call costs no more than this. -/
def WithinAt (m : CM K V α) (s : St (Cache K V) K V) (b : Bill) : Prop := (m s).2 ≤ b

theorem WithinAt.bind {m : CM K V α} {f : α → CM K V β} {a b : Bill} (h : WithinAt m s a)
    (hf : ∀ x s', (m s).1 = .ok x s' → WithinAt (f x) s' b) : WithinAt (m >>= f) s (a + b) := by
  unfold WithinAt at h ⊢
  show (Metered.bind m f s).2 ≤ _
  unfold Metered.bind
  rcases hm : m s with ⟨o, c⟩
  rw [hm] at h hf
  cases o with
  | ok x s' => exact Bill.add_le_add h (hf x s' rfl)
  | _ => exact Bill.le_trans h (Bill.le_add_right _ _)

theorem WithinAt.free {m : Impl.CM K V α} {f : α → CM K V β} {b : Bill} (hf : ∀ x s', m s = .ok x s' → WithinAt (f x) s' b) :
    WithinAt (Metered.free m >>= f) s b := by
  have := WithinAt.bind (a := 0) (m := Metered.free m) (Bill.le_refl 0) hf
  rwa [Bill.zero_add] at this

theorem WithinAt.freely {m : Impl.CM K V α} {b : Bill} : WithinAt (Metered.free m) s b := Bill.zero_le _

theorem WithinAt.pure {x : α} {b : Bill} : WithinAt (Pure.pure x : CM K V α) s b := Bill.zero_le _

theorem WithinAt.mono {m : CM K V α} {a b : Bill} (h : WithinAt m s a) (hab : a ≤ b) : WithinAt m s b := Bill.le_trans h hab

theorem WithinAt.charge {p : St (Cache K V) K V → Bill} {m : Impl.CM K V α} : WithinAt (Metered.charge p m) s (p s) := Bill.le_refl _

/-- Then free steps only. -/
theorem WithinAt.last {m : CM K V α} {f : α → CM K V β} {b : Bill} (h : WithinAt m s b)
    (hf : ∀ x s', (m s).1 = .ok x s' → WithinAt (f x) s' 0) : WithinAt (m >>= f) s b := by
  have := h.bind hf
  rwa [Bill.add_zero] at this

theorem WithinAt.ite {c : Prop} [Decidable c] {m n : CM K V α} {b : Bill} (h : c → WithinAt m s b) (h' : ¬ c → WithinAt n s b) :
    WithinAt (if c then m else n) s b := by
  split
  · next hc => exact h hc
  · next hc => exact h' hc

theorem WithinAt.ret {m : CM K V α} {f : α → Res K V} {b : Bill} (h : WithinAt m s b) : WithinAt (Cost.ret m f) s b :=
  h.last fun _ _ _ => .pure

theorem moveToFront_within (it : Option Ptr) : WithinAt (moveToFront it : CM K V Unit) s { nodes := 1 } :=
  .free fun _ _ _ => .ite (fun _ => .pure) fun _ => .charge

theorem moveToFrontAssign_within (n : MapNode K V) (v : V) : WithinAt (moveToFrontAssign O n v) s { nodes := 1 } :=
  (moveToFront_within _).last fun _ _ _ => .freely

theorem eraseIt_within (it : Option Ptr) : WithinAt (eraseIt it : CM K V Unit) s { nodes := 2 } :=
  .free fun _ _ _ => .free fun _ _ _ => WithinAt.bind (a := { nodes := 1 }) (b := { nodes := 1 }) .charge fun _ _ _ => .charge

theorem eraseKeyInfo_within (n : MapNode K V) : WithinAt (eraseKeyInfo n : CM K V Unit) s { hash := 1, nodes := 2 } :=
  .free fun _ _ _ =>
    WithinAt.bind (a := { nodes := 1 }) (b := { hash := 1, nodes := 1 }) .charge fun _ _ _ => .charge

theorem evictLruFor_within (p : Ptr) : WithinAt (evictLruFor p : CM K V Unit) s { hash := 1, nodes := 2 } :=
  .free fun _ _ _ => .free fun _ _ _ =>
    WithinAt.bind (a := { hash := 1, nodes := 1 }) (b := { nodes := 1 }) .charge fun _ _ _ =>
      .free fun _ _ _ => moveToFront_within _

theorem evictOrAppend_within (p : Ptr) : WithinAt (evictOrAppend O p) s { hash := 1, nodes := 2 } :=
  .free fun _ _ _ => .free fun _ _ _ => .ite (fun _ => evictLruFor_within p) fun _ =>
    WithinAt.mono (a := { nodes := 1 }) .charge (by decide)

theorem insertNode_within (k : K) (v : V) (t : Int) : WithinAt (insertNode O k v t) s { hash := 2, nodes := 3 } :=
  WithinAt.bind (a := { hash := 1, nodes := 1 }) (b := { hash := 1, nodes := 2 }) .charge fun _ _ _ =>
    WithinAt.last ((evictOrAppend_within _).last fun _ _ _ => .free fun _ _ _ => .pure) fun _ _ _ => .free fun _ _ _ => .pure

theorem insert_within (k : K) (v : V) : WithinAt (insert O k v) s { hash := 3, nodes := 3 } := by
  refine .free fun n s' _ => .ite (fun _ => .pure) fun _ => ?_
  refine WithinAt.bind (a := { hash := 1 }) (b := { hash := 2, nodes := 3 }) .charge fun x s' _ => ?_
  cases x with
  | none =>
    exact .free fun _ _ _ => .free fun _ _ _ => (insertNode_within k v _).last fun _ _ _ => .free fun _ _ _ => .pure
  | some n =>
    exact WithinAt.mono ((moveToFrontAssign_within n v).last fun _ _ _ => .free fun _ _ _ => .pure) (by decide)

theorem emplace_within (k : K) (v : V) : WithinAt (emplace O k v) s { hash := 3, nodes := 3 } := by
  refine .free fun n s' _ => .ite (fun _ => .pure) fun _ => .free fun _ _ _ => ?_
  refine WithinAt.bind (a := { hash := 1 }) (b := { hash := 2, nodes := 3 }) .charge fun x s' _ => ?_
  cases x with
  | none =>
    exact .free fun _ _ _ => .free fun _ _ _ => (insertNode_within k v _).last fun _ _ _ => .free fun _ _ _ => .pure
  | some n =>
    exact .free fun _ _ _ =>
      WithinAt.mono ((moveToFrontAssign_within n v).last fun _ _ _ => .free fun _ _ _ => .pure) (by decide)

theorem erase_within (k : K) : WithinAt (erase k : CM K V Bool) s { hash := 1, nodes := 2 } := by
  refine .free fun b s' _ => .ite (fun _ => ?_) fun _ => ?_
  · exact .free fun _ _ _ => (eraseKeyInfo_within _).last fun _ _ _ => .pure
  · refine WithinAt.bind (a := { hash := 1 }) (b := { nodes := 2 }) .charge fun x s' _ => ?_
    cases x with
    | none => exact .pure
    | some n => exact (eraseIt_within _).last fun _ _ _ => .pure

theorem eraseU_within (it : Option Ptr) : WithinAt (eraseU it : CM K V Unit) s { nodes := 2 } := by
  cases it with
  | none => exact .freely
  | some p => exact eraseIt_within _

/-- The most that statistics and callbacks can cost. -/
def watchers (o : Obs) : Nat := o.stats.toList.length + o.hitCbs.length + o.missCbs.length + o.accCbs.length

theorem registerHit_within (o : Obs) (k : K) (v : V) : WithinAt (registerHit O o k v) s { watch := watchers o } :=
  .mono .charge ⟨Nat.le_refl _, Nat.le_refl _, by simp only [watchers]; omega⟩

theorem registerMiss_within (o : Obs) (k : K) : WithinAt (registerMiss O o k : CM K V Unit) s { watch := watchers o } :=
  .mono .charge ⟨Nat.le_refl _, Nat.le_refl _, by simp only [watchers]; omega⟩

theorem find_within (k : K) :
    WithinAt (find O k : CM K V (Option Ptr)) s { hash := 1, nodes := 1, watch := watchers s.c.obs } := by
  refine .free fun o s' ho => ?_
  obtain ⟨rfl, rfl⟩ : s.c.obs = o ∧ s = s' := by injection ho with h1 h2; exact ⟨h1, h2⟩
  have h0 : (⟨1, 1, watchers s.c.obs⟩ : Bill) = { hash := 1 } + { nodes := 1, watch := watchers s.c.obs } := by
    show _ = Bill.mk _ _ _
    simp
  rw [h0]
  refine WithinAt.bind .charge fun x s' _ => ?_
  have hmiss : ∀ s', WithinAt (registerMiss O s.c.obs k >>= fun _ => Pure.pure none : CM K V (Option Ptr)) s'
      { nodes := 1, watch := watchers s.c.obs } := fun s' =>
    WithinAt.mono ((registerMiss_within _ k).last fun _ _ _ => .pure) ⟨Nat.le_refl _, Nat.zero_le _, Nat.le_refl _⟩
  cases x with
  | none => exact hmiss s'
  | some n =>
    refine .free fun b s'' _ => .ite (fun _ => hmiss s'') fun _ => ?_
    have h1 : (⟨0, 1, watchers s.c.obs⟩ : Bill) = { watch := watchers s.c.obs } + { nodes := 1 } := by
      show _ = Bill.mk _ _ _
      simp
    rw [h1]
    exact WithinAt.bind (registerHit_within _ k _) fun _ _ _ =>
      (moveToFront_within _).last fun _ _ _ => .free fun _ _ _ => .pure

theorem getObs_inv {o : Obs} {s' : St (Cache K V) K V} (h : (Impl.getObs : Impl.CM K V Obs) s = .ok o s') : s.c.obs = o ∧ s = s' := by
  injection h with h1 h2; exact ⟨h1, h2⟩

theorem lastIs_state {k : K} {b : Bool} {s' : St (Cache K V) K V} (h : (Impl.lastIs k : Impl.CM K V Bool) s = .ok b s') : s' = s := by
  unfold Impl.lastIs at h
  rw [bind_ok (m := Impl.getLast) (s := s) rfl] at h
  cases hl : s.c.last with
  | none => rw [hl] at h; injection h with _ h; exact h.symm
  | some p =>
    rw [hl] at h
    obtain ⟨n, s1, h1, h2⟩ := bind_ok_inv h
    have : s1 = s := by
      unfold Impl.deref at h1
      split at h1
      · injection h1 with _ h1; exact h1.symm
      · split at h1
        · injection h1 with _ h1; exact h1.symm
        · cases h1
    injection h2 with _ h2
    rw [← h2, this]

theorem contains_within (k : K) :
    WithinAt (contains O k : CM K V Bool) s { hash := 1, nodes := 1, watch := watchers s.c.obs } := by
  refine .free fun o s' ho => ?_
  obtain ⟨rfl, rfl⟩ := getObs_inv ho
  refine .free fun b s' hb => ?_
  obtain rfl := lastIs_state hb
  refine .ite (fun _ => .free fun _ _ _ => .ite (fun _ => ?_) fun _ => .pure) fun _ => ?_
  · exact .free fun _ _ _ => WithinAt.mono ((registerHit_within _ k _).last fun _ _ _ => .pure)
      ⟨Nat.zero_le _, Nat.zero_le _, Nat.le_refl _⟩
  · exact (find_within k).last fun _ _ _ => .pure

theorem lookup_within (k : K) :
    WithinAt (lookup O k : CM K V (Ptr × V)) s { hash := 1, nodes := 1, watch := watchers s.c.obs } := by
  refine .free fun o s' ho => ?_
  obtain ⟨rfl, rfl⟩ := getObs_inv ho
  refine .free fun b s' hb => ?_
  obtain rfl := lastIs_state hb
  refine .ite (fun _ => ?_) fun _ => ?_
  · exact .free fun _ _ _ => WithinAt.mono ((registerHit_within _ k _).last fun _ _ _ => .pure)
      ⟨Nat.zero_le _, Nat.zero_le _, Nat.le_refl _⟩
  · refine (find_within k).last fun x _ _ => ?_
    cases x with
    | none => exact .freely
    | some p => exact .free fun _ _ _ => .pure

theorem hasExpired_within (k : K) : WithinAt (hasExpired O k : CM K V Bool) s { hash := 1 } := by
  refine WithinAt.last (b := { hash := 1 }) .charge fun x _ _ => ?_
  cases x with
  | none => exact .pure
  | some n => exact .freely

theorem allExpired_within : WithinAt (allExpired O : CM K V Bool) s { hash := 1 } := by
  refine .free fun b _ _ => .ite (fun _ => .pure) fun _ => .free fun _ _ _ => .free fun _ _ _ => ?_
  refine WithinAt.last (b := { hash := 1 }) .charge fun x _ _ => ?_
  cases x with
  | none => exact .freely
  | some n => exact .freely

theorem oLookup_within (pos : Option Ptr) : WithinAt (oLookup pos : CM K V Ptr) s { hash := 1 } := by
  refine .free fun k _ _ => WithinAt.last (b := { hash := 1 }) .charge fun x _ _ => ?_
  cases x with
  | none => exact .freely
  | some n => exact .pure

theorem hasExpiredO_within (pos : Option Ptr) : WithinAt (hasExpiredO O pos : CM K V Bool) s { hash := 2 } := by
  cases pos with
  | none => exact .pure
  | some p =>
    refine WithinAt.bind (a := { hash := 1 }) (b := { hash := 1 }) (oLookup_within _) fun _ _ _ => .free fun _ _ _ => ?_
    refine WithinAt.last (b := { hash := 1 }) .charge fun x _ _ => ?_
    cases x with
    | none => exact .freely
    | some n => exact .freely

theorem isValidO_within (pos : Option Ptr) : WithinAt (isValidO O pos : CM K V Bool) s { hash := 2 } := by
  cases pos with
  | none => exact .pure
  | some p =>
    refine .free fun kind _ _ => ?_
    cases kind with
    | basic => exact .pure
    | timed => exact (hasExpiredO_within _).last fun _ _ _ => .pure

theorem throwIfInvalidO_within (pos : Option Ptr) : WithinAt (throwIfInvalidO O pos : CM K V Unit) s { hash := 2 } := by
  cases pos with
  | none => exact .freely
  | some p =>
    refine .free fun kind _ _ => ?_
    cases kind with
    | basic => exact .pure
    | timed => exact (hasExpiredO_within _).last fun _ _ _ => .ite (fun _ => .freely) fun _ => .pure

theorem oKey_within (it : Impl.OIt) : WithinAt (oKey O it : CM K V K) s { hash := 2 } :=
  (throwIfInvalidO_within _).last fun _ _ _ => .freely

theorem oDeref_within (it : Impl.OIt) : WithinAt (oDeref it : CM K V Impl.OIt) s { hash := 1 } := by
  unfold oDeref
  cases it.entry with
  | some _ => exact .pure
  | none => exact (oLookup_within _).last fun _ _ _ => .pure

theorem oValue_within (it : Impl.OIt) : WithinAt (oValue O it : CM K V V) s { hash := 3 } :=
  WithinAt.last (WithinAt.bind (a := { hash := 2 }) (b := { hash := 1 }) (throwIfInvalidO_within _) fun _ _ _ => oDeref_within _)
    fun _ _ _ => .free fun _ _ _ => .pure

theorem eraseO_within (it : Impl.OIt) : WithinAt (eraseO O it : CM K V Unit) s { hash := 3, nodes := 2 } := by
  unfold eraseO
  cases it.pos with
  | none => exact .freely
  | some p =>
    exact WithinAt.bind (a := { hash := 2 }) (b := { hash := 1, nodes := 2 }) (oKey_within _) fun _ _ _ =>
      WithinAt.bind (a := { hash := 1 }) (b := { nodes := 2 }) .charge fun _ _ _ => eraseIt_within _

end Cost

end LRU
