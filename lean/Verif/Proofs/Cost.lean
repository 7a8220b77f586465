import Verif.Model.Cost
import Verif.Proofs.Outcomes
import Verif.Proofs.ReenterCalls
/-!
# Costs: lemmas for `Props.Cost`
-/

set_option linter.unusedSectionVars false
set_option autoImplicit false

namespace LRU

/-! ### Bills -/

namespace Bill

theorem le_def {a b : Bill} : a ≤ b ↔ a.hash ≤ b.hash ∧ a.nodes ≤ b.nodes ∧ a.watch ≤ b.watch := Iff.rfl

@[simp] theorem add_hash (a b : Bill) : (a + b).hash = a.hash + b.hash := rfl
@[simp] theorem add_nodes (a b : Bill) : (a + b).nodes = a.nodes + b.nodes := rfl
@[simp] theorem add_watch (a b : Bill) : (a + b).watch = a.watch + b.watch := rfl
@[simp] theorem zero_hash : (0 : Bill).hash = 0 := rfl
@[simp] theorem zero_nodes : (0 : Bill).nodes = 0 := rfl
@[simp] theorem zero_watch : (0 : Bill).watch = 0 := rfl

instance (a b : Bill) : Decidable (a ≤ b) :=
  inferInstanceAs (Decidable (a.hash ≤ b.hash ∧ a.nodes ≤ b.nodes ∧ a.watch ≤ b.watch))

theorem le_trans {a b c : Bill} (h : a ≤ b) (h' : b ≤ c) : a ≤ c :=
  ⟨Nat.le_trans h.1 h'.1, Nat.le_trans h.2.1 h'.2.1, Nat.le_trans h.2.2 h'.2.2⟩

theorem le_refl (a : Bill) : a ≤ a := ⟨Nat.le_refl _, Nat.le_refl _, Nat.le_refl _⟩

theorem zero_le (a : Bill) : (0 : Bill) ≤ a := ⟨Nat.zero_le _, Nat.zero_le _, Nat.zero_le _⟩

theorem add_le_add {a b c d : Bill} (h : a ≤ c) (h' : b ≤ d) : a + b ≤ c + d :=
  ⟨Nat.add_le_add h.1 h'.1, Nat.add_le_add h.2.1 h'.2.1, Nat.add_le_add h.2.2 h'.2.2⟩

theorem le_add_right (a b : Bill) : a ≤ a + b := ⟨Nat.le_add_right _ _, Nat.le_add_right _ _, Nat.le_add_right _ _⟩

theorem zero_add (a : Bill) : 0 + a = a := by
  show Bill.mk _ _ _ = a
  simp

theorem add_zero (a : Bill) : a + 0 = a := by
  show Bill.mk _ _ _ = a
  simp

end Bill

/-! ### Bodies -/

namespace Metered

variable {σ α β : Type}

theorem body_bind (m : Metered σ α) (f : α → Metered σ β) : (m >>= f).body = m.body >>= fun a => (f a).body := by
  funext s
  show (Metered.bind m f s).1 = M.bind m.body (fun a => (f a).body) s
  unfold Metered.bind M.bind body
  rcases m s with ⟨o, c⟩
  cases o <;> rfl

theorem body_pure (a : α) : (pure a : Metered σ α).body = pure a := rfl

theorem body_charge (p : σ → Bill) (m : M σ α) : (charge p m).body = m := rfl

theorem body_free (m : M σ α) : (free m).body = m := rfl

theorem body_ite {c : Prop} [Decidable c] (m n : Metered σ α) : (if c then m else n).body = if c then m.body else n.body := by
  split <;> rfl

end Metered

namespace Cost

open Metered

variable {K V : Type} [KeyEqual K] [DecidableEq K] {O : Oracle K V}

theorem moveToFront_body (it : Option Ptr) : (moveToFront it : CM K V Unit).body = Impl.moveToFront it := by
  unfold moveToFront Impl.moveToFront
  simp only [body_bind, body_ite, body_pure, body_free]
  rfl

theorem moveToFrontAssign_body (n : MapNode K V) (v : V) : (moveToFrontAssign O n v).body = Impl.moveToFrontAssign O n v := by
  unfold moveToFrontAssign Impl.moveToFrontAssign
  simp only [body_bind, body_free, moveToFront_body]

theorem eraseIt_body (it : Option Ptr) : (eraseIt it : CM K V Unit).body = Impl.eraseIt it := by
  unfold eraseIt Impl.eraseIt
  simp only [body_bind, body_free]
  rfl

theorem eraseKeyInfo_body (n : MapNode K V) : (eraseKeyInfo n).body = Impl.eraseKeyInfo n := by
  unfold eraseKeyInfo Impl.eraseKeyInfo
  simp only [body_bind, body_free]
  rfl

theorem eraseLru_body : (eraseLru : CM K V Unit).body = Impl.eraseLru := by
  unfold eraseLru Impl.eraseLru
  simp only [body_bind, body_free, eraseIt_body]
  rfl

theorem evictLruFor_body (p : Ptr) : (evictLruFor p : CM K V Unit).body = Impl.evictLruFor p := by
  unfold evictLruFor Impl.evictLruFor
  simp only [body_bind, body_free, moveToFront_body]
  rfl

theorem evictOrAppend_body (p : Ptr) : (evictOrAppend O p : CM K V Unit).body = Impl.evictOrAppend O p := by
  unfold evictOrAppend Impl.evictOrAppend
  simp only [body_bind, body_free, body_ite, evictLruFor_body]
  rfl

theorem insertNewKey_body (p : Ptr) : (insertNewKey O p : CM K V Ptr).body = Impl.insertNewKey O p := by
  unfold insertNewKey Impl.insertNewKey
  simp only [body_bind, body_free, body_pure, evictOrAppend_body]

theorem insertNode_body (k : K) (v : V) (t : Int) : (insertNode O k v t).body = Impl.insertNode O k v t := by
  unfold insertNode Impl.insertNode
  simp only [body_bind, body_free, body_pure, insertNewKey_body]
  rfl

theorem find_body (k : K) : (find O k : CM K V (Option Ptr)).body = Impl.find O k := by
  unfold find Impl.find
  simp only [body_bind, body_free]
  congr 1; funext o
  congr 1; funext x
  cases x <;> simp only [body_bind, body_free, body_pure, body_ite, moveToFront_body] <;> rfl

theorem contains_body (k : K) : (contains O k : CM K V Bool).body = Impl.contains O k := by
  unfold contains Impl.contains
  simp only [body_bind, body_free, body_pure, body_ite, find_body]
  rfl

theorem lookup_body (k : K) : (lookup O k : CM K V (Ptr × V)).body = Impl.lookup O k := by
  unfold lookup Impl.lookup
  simp only [body_bind, body_free, body_pure, body_ite, find_body]
  congr 1; funext o
  congr 1; funext b
  split
  · rfl
  · congr 1; funext x
    cases x <;> simp only [body_bind, body_free, body_pure]

theorem insert_body (k : K) (v : V) : (insert O k v).body = Impl.insert O k v := by
  unfold insert Impl.insert
  simp only [body_bind, body_free, body_pure, body_ite]
  congr 1; funext n
  split
  · rfl
  · congr 1; funext x
    cases x <;> simp only [body_bind, body_free, body_pure, insertNode_body, moveToFrontAssign_body]

theorem emplace_body (k : K) (v : V) : (emplace O k v).body = Impl.emplace O k v := by
  unfold emplace Impl.emplace
  simp only [body_bind, body_free, body_pure, body_ite]
  congr 1; funext n
  split
  · rfl
  · congr 1; funext _
    congr 1; funext x
    cases x <;> simp only [body_bind, body_free, body_pure, insertNode_body, moveToFrontAssign_body]

theorem insertRange_body (l : List (K × V)) : (insertRange O l).body = Impl.insertRange O l := by
  induction l with
  | nil => rfl
  | cons p l ih =>
    obtain ⟨k, v⟩ := p
    unfold insertRange Impl.insertRange
    simp only [body_bind, body_pure, insert_body, ih]

theorem insertRangeMove_body (l : List (K × V)) : (insertRangeMove O l).body = Impl.insertRangeMove O l := by
  induction l with
  | nil => rfl
  | cons p l ih =>
    obtain ⟨k, v⟩ := p
    unfold insertRangeMove Impl.insertRangeMove
    simp only [body_bind, body_pure, emplace_body, ih]

theorem erase_body (k : K) : (erase k : CM K V Bool).body = Impl.erase k := by
  unfold erase Impl.erase
  simp only [body_bind, body_free, body_pure, body_ite, eraseKeyInfo_body]
  congr 1; funext b
  split
  · rfl
  · congr 1; funext x
    cases x <;> simp only [body_bind, body_pure, eraseIt_body]

theorem eraseU_body (it : Option Ptr) : (eraseU it : CM K V Unit).body = Impl.eraseU it := by
  cases it
  · rfl
  · exact eraseIt_body _

theorem eraseLruWhile_body (n fuel : Nat) : (eraseLruWhile n fuel : CM K V Unit).body = Impl.eraseLruWhile n fuel := by
  induction fuel with
  | zero => rfl
  | succ fuel ih =>
    unfold eraseLruWhile Impl.eraseLruWhile
    simp only [body_bind, body_free, body_pure, body_ite, eraseLru_body, ih]

theorem shrink_body (n : Nat) : (shrink n : CM K V Unit).body = Impl.shrink n := by
  unfold shrink Impl.shrink
  simp only [body_bind, body_free, body_pure, body_ite, eraseLruWhile_body]
  rfl

theorem setCapacity_body (n : Nat) : (setCapacity n : CM K V Unit).body = Impl.setCapacity n := by
  unfold setCapacity Impl.setCapacity
  simp only [body_bind, body_free, eraseLruWhile_body]

theorem clearAndIncreaseCapacity_body (n : Nat) :
    (clearAndIncreaseCapacity n : CM K V Unit).body = Impl.clearAndIncreaseCapacity n := by
  unfold clearAndIncreaseCapacity Impl.clearAndIncreaseCapacity
  simp only [body_bind, body_free, body_ite, body_pure]
  rfl

theorem assignRange_body (l : List (K × V)) : (assignRange O l).body = Impl.assignRange O l := by
  unfold assignRange Impl.assignRange
  simp only [body_bind, body_pure, clearAndIncreaseCapacity_body, insertRange_body]

theorem assignRangeMove_body (l : List (K × V)) : (assignRangeMove O l).body = Impl.assignRangeMove O l := by
  unfold assignRangeMove Impl.assignRangeMove
  simp only [body_bind, body_pure, clearAndIncreaseCapacity_body, insertRangeMove_body]

theorem allExpired_body : (allExpired O : CM K V Bool).body = Impl.allExpired O := by
  unfold allExpired Impl.allExpired
  simp only [body_bind, body_free, body_pure, body_ite]
  congr 1; funext b
  split
  · rfl
  · congr 1; funext l
    congr 1; funext k
    congr 1; funext x
    cases x <;> rfl

theorem clearExpiredLoop_body (c fuel : Nat) : (clearExpiredLoop O c fuel : CM K V Nat).body = Impl.clearExpiredLoop O c fuel := by
  induction fuel generalizing c with
  | zero => rfl
  | succ fuel ih =>
    unfold clearExpiredLoop Impl.clearExpiredLoop
    simp only [body_bind, body_free]
    congr 1; funext l
    cases l with
    | none => rfl
    | some l =>
      simp only [body_bind, body_free]
      congr 1; funext k
      congr 1; funext x
      cases x with
      | none => rfl
      | some n => simp only [body_bind, body_free, body_ite, eraseIt_body, ih, body_pure]

theorem clearExpired_body : (clearExpired O : CM K V Nat).body = Impl.clearExpired O := by
  unfold clearExpired Impl.clearExpired
  simp only [body_bind, body_free, body_pure, body_ite, clearExpiredLoop_body]

theorem hasExpired_body (k : K) : (hasExpired O k : CM K V Bool).body = Impl.hasExpired O k := by
  unfold hasExpired Impl.hasExpired
  simp only [body_bind]
  congr 1; funext x
  cases x <;> rfl

theorem oLookup_body (pos : Option Ptr) : (oLookup pos : CM K V Ptr).body = Impl.oLookup pos := by
  unfold oLookup Impl.oLookup mapFind
  simp only [body_bind, body_free, body_charge]
  congr 1; funext k
  congr 1; funext x
  cases x <;> rfl

theorem oDeref_body (it : Impl.OIt) : (oDeref it : CM K V Impl.OIt).body = Impl.oDeref it := by
  unfold oDeref Impl.oDeref
  cases it.entry with
  | some _ => rfl
  | none => simp only [body_bind, body_pure, oLookup_body]

theorem hasExpiredO_body (pos : Option Ptr) : (hasExpiredO O pos : CM K V Bool).body = Impl.hasExpiredO O pos := by
  unfold hasExpiredO Impl.hasExpiredO
  cases pos with
  | none => rfl
  | some p =>
    simp only [body_bind, body_free, oLookup_body]
    congr 1; funext q
    congr 1; funext n
    unfold mapFind
    rw [body_charge]
    congr 1; funext x
    cases x <;> rfl

theorem isValidO_body (pos : Option Ptr) : (isValidO O pos : CM K V Bool).body = Impl.isValidO O pos := by
  unfold isValidO Impl.isValidO
  cases pos with
  | none => rfl
  | some p =>
    simp only [body_bind, body_free]
    congr 1; funext kind
    cases kind with
    | basic => rfl
    | timed => simp only [body_bind, body_pure, hasExpiredO_body]

theorem throwIfInvalidO_body (pos : Option Ptr) : (throwIfInvalidO O pos : CM K V Unit).body = Impl.throwIfInvalidO O pos := by
  unfold throwIfInvalidO Impl.throwIfInvalidO
  cases pos with
  | none => rfl
  | some p =>
    simp only [body_bind, body_free]
    congr 1; funext kind
    cases kind with
    | basic => rfl
    | timed => simp only [body_bind, body_pure, body_free, body_ite, hasExpiredO_body]

theorem oEntry_body (it : Impl.OIt) : (oEntry O it : CM K V Impl.OIt).body = Impl.oEntry O it := by
  unfold oEntry Impl.oEntry
  simp only [body_bind, throwIfInvalidO_body, oDeref_body]

theorem oValue_body (it : Impl.OIt) : (oValue O it : CM K V V).body = Impl.oValue O it := by
  unfold oValue Impl.oValue
  simp only [body_bind, body_free, body_pure, oEntry_body]

theorem oKey_body (it : Impl.OIt) : (oKey O it : CM K V K).body = Impl.oKey O it := by
  unfold oKey Impl.oKey
  simp only [body_bind, body_free, throwIfInvalidO_body]

theorem eraseO_body (it : Impl.OIt) : (eraseO O it : CM K V Unit).body = Impl.eraseO O it := by
  unfold eraseO Impl.eraseO
  cases it.pos with
  | none => rfl
  | some p =>
    simp only [body_bind, oKey_body, eraseIt_body]
    rfl

theorem ret_body {α : Type} (m : CM K V α) (f : α → Res K V) : (ret m f).body = Impl.ret m.body f := by
  unfold ret Impl.ret
  simp only [body_bind, body_pure]

theorem step_body (op : Op K V) : (step O op).body = Impl.step O op := by
  cases op <;> unfold step <;> first
    | rfl
    | (rw [ret_body, contains_body]; rfl)
    | (rw [ret_body, find_body]; rfl)
    | (rw [ret_body, lookup_body]; rfl)
    | (rw [ret_body, insert_body]; rfl)
    | (rw [ret_body, emplace_body]; rfl)
    | (rw [ret_body, insertRange_body]; rfl)
    | (rw [ret_body, insertRangeMove_body]; rfl)
    | (rw [ret_body, assignRange_body]; rfl)
    | (rw [ret_body, assignRangeMove_body]; rfl)
    | (rw [ret_body, erase_body]; rfl)
    | (rw [ret_body, eraseU_body]; rfl)
    | (rw [ret_body, eraseO_body]; rfl)
    | (rw [ret_body, shrink_body]; rfl)
    | (rw [ret_body, setCapacity_body]; rfl)
    | (rw [ret_body, allExpired_body]; rfl)
    | (rw [ret_body, clearExpired_body]; rfl)
    | (rw [ret_body, hasExpired_body]; rfl)
    | (rw [ret_body, hasExpiredO_body]; rfl)
    | (rw [ret_body, isValidO_body]; rfl)
    | (rw [ret_body, oKey_body]; rfl)
    | (rw [ret_body, oValue_body]; rfl)

end Cost

end LRU
