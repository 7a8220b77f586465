import Verif.Model.Moves
import Verif.Proofs.Outcomes
import Verif.Proofs.ReenterCalls
import Verif.Proofs.Table
import Verif.Proofs.Ranges
import Verif.Proofs.HashFault
/-!
# Ledgers: lemmas for `Props.Moves`
-/

set_option linter.unusedSectionVars false
set_option autoImplicit false

namespace LRU

/-! ### Ledgers -/

namespace Ledger

@[simp] theorem zero_add (a : Ledger) : 0 + a = a := by
  show Ledger.mk _ _ _ _ _ _ _ _ = a
  simp [show (0 : Ledger) = {} from rfl]

@[simp] theorem add_zero (a : Ledger) : a + 0 = a := by
  show Ledger.mk _ _ _ _ _ _ _ _ = a
  simp [show (0 : Ledger) = {} from rfl]

theorem add_def (a b : Ledger) : a + b = ⟨a.kMade + b.kMade, a.kCopied + b.kCopied, a.kMoved + b.kMoved, a.vMade + b.vMade,
  a.vCopied + b.vCopied, a.vMoved + b.vMoved, a.kTaken + b.kTaken, a.vTaken + b.vTaken⟩ := rfl

theorem zero_def : (0 : Ledger) = ⟨0, 0, 0, 0, 0, 0, 0, 0⟩ := rfl

end Ledger

/-! ### Bodies -/

namespace Kept

variable {σ α β : Type}

theorem body_bind (m : Kept σ α) (f : α → Kept σ β) : (m >>= f).body = m.body >>= fun a => (f a).body := by
  funext s
  show (Kept.bind m f s).1 = M.bind m.body (fun a => (f a).body) s
  unfold Kept.bind M.bind body
  rcases m s with ⟨o, c⟩
  cases o <;> rfl

theorem body_pure (a : α) : (pure a : Kept σ α).body = pure a := rfl

theorem body_note (l : Ledger) (m : M σ α) : (note l m).body = m := by
  funext s
  unfold body note
  cases m s <;> rfl

theorem body_plain (m : M σ α) : (plain m).body = m := body_note 0 m

theorem body_ite {c : Prop} [Decidable c] (m n : Kept σ α) : (if c then m else n).body = if c then m.body else n.body := by
  split <;> rfl

/-- If the body returns, its result and ledger are as stated. -/
def Costs (m : Kept σ α) (Q : α → Ledger → Prop) : Prop := ∀ s a s', (m s).1 = .ok a s' → Q a (m s).2

theorem Costs.pure {a : α} {Q : α → Ledger → Prop} (h : Q a 0) : Costs (pure a : Kept σ α) Q := by
  intro s b s' hb
  injection hb with hb
  exact hb ▸ h

theorem Costs.note {l : Ledger} {m : M σ α} : Costs (note l m) (fun _ l' => l' = l) := by
  intro s a s' h
  unfold Kept.note at h ⊢
  cases hm : m s <;> rw [hm] at h <;> first | cases h | rfl

theorem bind_ok_inv' {m : Kept σ α} {f : α → Kept σ β} {s s' : σ} {b : β} (h : ((m >>= f) s).1 = .ok b s') :
    ∃ a s1, (m s).1 = .ok a s1 ∧ (f a s1).1 = .ok b s' ∧ ((m >>= f) s).2 = (m s).2 + (f a s1).2 := by
  have h' : (Kept.bind m f s).1 = .ok b s' := h
  show ∃ a s1, _ ∧ _ ∧ (Kept.bind m f s).2 = _
  unfold Kept.bind at h' ⊢
  rcases hm : m s with ⟨o, c⟩
  rw [hm] at h'
  cases o with
  | ok a s1 => exact ⟨a, s1, rfl, h', rfl⟩
  | throw e s1 => cases h'
  | ub => cases h'
  | terminate => cases h'
  | diverge => cases h'

theorem Costs.next {m : Kept σ α} {f : α → Kept σ β} {l : Ledger} {R : β → Ledger → Prop} (hm : Costs m (fun _ l' => l' = l))
    (hf : ∀ a, Costs (f a) (fun b l' => R b (l + l'))) : Costs (m >>= f) R := by
  intro s b s' h
  obtain ⟨a, s1, h1, h2, h3⟩ := bind_ok_inv' h
  rw [h3, hm s a s1 h1]
  exact hf a s1 b s' h2

theorem Costs.skip {m : M σ α} {f : α → Kept σ β} {R : β → Ledger → Prop} (hf : ∀ a, Costs (f a) R) :
    Costs (plain m >>= f) R :=
  Costs.next (Costs.note (l := 0)) fun a => by
    simpa using hf a

/-- However the body ends, its ledger is as stated. -/
def Always (m : Kept σ α) (P : Ledger → Prop) : Prop := ∀ s, P (m s).2

/-- Properties of ledgers that hold for sums of such. -/
structure Additive (P : Ledger → Prop) : Prop where
  zero : P 0
  add : ∀ a b, P a → P b → P (a + b)

theorem Always.pure {a : α} {P : Ledger → Prop} (hP : Additive P) : Always (pure a : Kept σ α) P := fun _ => hP.zero

theorem Always.note {l : Ledger} {m : M σ α} {P : Ledger → Prop} (hP : Additive P) (h : P l) : Always (note l m) P := by
  intro s
  unfold Kept.note
  cases m s <;> first | exact h | exact hP.zero

theorem Always.plain {m : M σ α} {P : Ledger → Prop} (hP : Additive P) : Always (plain m) P := Always.note hP hP.zero

theorem Always.bind {m : Kept σ α} {f : α → Kept σ β} {P : Ledger → Prop} (hP : Additive P) (hm : Always m P)
    (hf : ∀ a, Always (f a) P) : Always (m >>= f) P := by
  intro s
  have h := hm s
  show P (Kept.bind m f s).2
  unfold Kept.bind
  rcases hs : m s with ⟨o, c⟩
  rw [hs] at h
  cases o with
  | ok a s1 => exact hP.add _ _ h (hf a s1)
  | throw e s1 => exact h
  | ub => exact h
  | terminate => exact h
  | diverge => exact h

/-- If the body throws, its ledger is as stated. -/
def Fails (m : Kept σ α) (Q : Ledger → Prop) : Prop := ∀ s e s', (m s).1 = .throw e s' → Q (m s).2

theorem Fails.pure {a : α} {Q : Ledger → Prop} : Fails (pure a : Kept σ α) Q := by
  intro s e s' h
  cases h

theorem Fails.note {l : Ledger} {m : M σ α} {Q : Ledger → Prop} (h : Q 0) : Fails (note l m) Q := by
  intro s e s' hd
  unfold Kept.note at hd ⊢
  cases hm : m s with
  | throw e1 s1 => exact h
  | _ => rw [hm] at hd; cases hd

theorem Fails.weaken {m : Kept σ α} {P Q : Ledger → Prop} (h : Fails m P) (h' : ∀ l, P l → Q l) : Fails m Q :=
  fun s e s' hd => h' _ (h s e s' hd)

theorem Fails.never {m : M σ α} {l : Ledger} {Q : Ledger → Prop} (h : ∀ s e s', m s ≠ .throw e s') : Fails (Kept.note l m) Q := by
  intro s e s' hd
  have : m s = .throw e s' := by rw [← body_note l m]; exact hd
  exact absurd this (h s e s')

theorem Fails.next {m : Kept σ α} {f : α → Kept σ β} {l : Ledger} {R : Ledger → Prop} (hm : Costs m (fun _ l' => l' = l))
    (hx : Fails m R) (hf : ∀ a, Fails (f a) (fun l' => R (l + l'))) : Fails (m >>= f) R := by
  intro s e s' h
  have hc := hm s
  have hx := hx s
  have h' : (Kept.bind m f s).1 = .throw e s' := h
  show R (Kept.bind m f s).2
  unfold Kept.bind at h' ⊢
  rcases hs : m s with ⟨o, c⟩
  rw [hs] at h' hc hx
  cases o with
  | ok a s1 =>
    have := hc a s1 rfl
    subst this
    exact hf a s1 e s' h'
  | throw e1 s1 => exact hx e1 s1 rfl
  | ub => cases h'
  | terminate => cases h'
  | diverge => cases h'

theorem Fails.skip {m : M σ α} {f : α → Kept σ β} {R : Ledger → Prop} (hm : ∀ s e s', m s ≠ .throw e s')
    (hf : ∀ a, Fails (f a) R) : Fails (plain m >>= f) R :=
  Fails.next (Costs.note (l := 0)) (Fails.never hm) fun a => by simpa using hf a

end Kept

namespace Moves

open Kept

variable {K V : Type} [KeyEqual K] [DecidableEq K] {O : Oracle K V} {k : K} {v : V}

/-! ### Without the ledger -/

theorem insertNode_body (l : Ledger) (k : K) (v : V) (t : Int) : (insertNode O l k v t).body = Impl.insertNode O k v t := by
  unfold insertNode Impl.insertNode
  simp only [body_bind, body_note, body_plain, body_pure]

theorem moveToFrontAssign_body (n : MapNode K V) (v : V) : (moveToFrontAssign O n v).body = Impl.moveToFrontAssign O n v := by
  unfold moveToFrontAssign Impl.moveToFrontAssign
  simp only [body_bind, body_note, body_plain]

theorem insert_body (k : K) (v : V) : (insert O k v).body = Impl.insert O k v := by
  unfold insert Impl.insert
  simp only [body_bind, body_plain, body_ite, body_pure]
  congr 1; funext n; congr 1; congr 1; funext o
  cases o with
  | none => simp only [body_bind, body_note, body_plain, body_pure, insertNode_body]
  | some n => simp only [body_bind, body_plain, body_pure, moveToFrontAssign_body]

theorem emplace_body (ka va : Arg) (k : K) (v : V) : (emplace O ka va k v).body = Impl.emplace O k v := by
  unfold emplace Impl.emplace
  simp only [body_bind, body_plain, body_ite, body_pure, body_note]
  congr 1; funext n; congr 1; congr 1; funext _; congr 1; funext o
  cases o with
  | none => simp only [body_bind, body_note, body_plain, body_pure, insertNode_body]
  | some n => simp only [body_bind, body_plain, body_pure, body_note, moveToFrontAssign_body]

theorem insertRange_body (l : List (K × V)) : (insertRange O l).body = Impl.insertRange O l := by
  induction l with
  | nil => rfl
  | cons p l ih =>
    obtain ⟨k, v⟩ := p
    unfold insertRange Impl.insertRange
    simp only [body_bind, body_pure, insert_body, ih]

theorem insertRangeMove_body (l : List (K × V)) : (insertRangeMove O l).body = Impl.insertRangeMove O l := by
  induction l with
  | nil => rfl
  | cons p l ih =>
    obtain ⟨k, v⟩ := p
    unfold insertRangeMove Impl.insertRangeMove
    simp only [body_bind, body_pure, emplace_body, ih]

theorem M_assoc {σ α β γ : Type} (m : M σ α) (f : α → M σ β) (g : β → M σ γ) :
    (m >>= f) >>= g = m >>= fun a => f a >>= g := by
  funext s
  show M.bind (M.bind m f) g s = M.bind m (fun a => M.bind (f a) g) s
  unfold M.bind
  cases m s <;> rfl

theorem step_body (m : MOp K V) : (step O m).body = Impl.step O m.op := by
  cases m <;> simp only [step, MOp.op, Impl.step, Impl.ret, body_bind, body_pure, body_plain, insert_body, emplace_body,
    insertRange_body, insertRangeMove_body, Impl.assignRange, Impl.assignRangeMove]
  · rw [M_assoc]
    congr 1; funext _
    rw [M_assoc]
    rfl
  · rw [M_assoc]
    congr 1; funext _
    rw [M_assoc]
    rfl

/-! ### The entries -/

theorem insertNode_costs {l : Ledger} {t : Int} : Costs (insertNode O l k v t) (fun _ l' => l' = l) := by
  unfold insertNode
  refine Costs.next Costs.note fun p => Costs.skip fun q => Costs.skip fun _ => Costs.pure ?_
  simp

theorem moveToFrontAssign_costs {n : MapNode K V} : Costs (moveToFrontAssign O n v) (fun _ l' => l' = { vCopied := 1 }) := by
  unfold moveToFrontAssign
  exact Costs.skip fun _ => Costs.note

theorem insert_costs : Costs (insert O k v) (fun r l =>
    l = if r.2 = none then 0 else if r.1 then { kCopied := 1, vCopied := 1, vMoved := 1 } else { vCopied := 1 }) := by
  unfold insert
  refine Costs.skip fun n => ?_
  split
  · exact Costs.pure rfl
  · refine Costs.skip fun o => ?_
    cases o with
    | none =>
      refine Costs.skip fun t => Costs.next Costs.note fun _ => Costs.next insertNode_costs fun p => Costs.skip fun _ =>
        Costs.pure ?_
      rfl
    | some n =>
      refine Costs.next moveToFrontAssign_costs fun _ => Costs.skip fun _ => Costs.pure ?_
      rfl

theorem emplace_costs {ka va : Arg} : Costs (emplace O ka va k v) (fun r l =>
    l = if r.2 = none then 0 else
      ka.key + va.value + if r.1 then { kMoved := 1, vMoved := 1 } else { vCopied := 1 }) := by
  unfold emplace
  refine Costs.skip fun n => ?_
  split
  · exact Costs.pure rfl
  · refine Costs.next Costs.note fun _ => Costs.skip fun o => ?_
    cases o with
    | none =>
      refine Costs.next Costs.note fun _ => Costs.skip fun t => Costs.next insertNode_costs fun p => Costs.skip fun _ =>
        Costs.pure ?_
      cases ka <;> cases va <;> rfl
    | some n =>
      refine Costs.next Costs.note fun _ => Costs.next moveToFrontAssign_costs fun _ => Costs.skip fun _ => Costs.pure ?_
      cases ka <;> cases va <;> rfl

/-! ### Whatever happens -/

theorem insertNode_always {P : Ledger → Prop} (hP : Additive P) {l : Ledger} (h : P l) {t : Int} :
    Always (insertNode O l k v t) P :=
  (Always.note hP h).bind hP fun _ => (Always.plain hP).bind hP fun _ => (Always.plain hP).bind hP fun _ => Always.pure hP

theorem moveToFrontAssign_always {P : Ledger → Prop} (hP : Additive P) (h : P { vCopied := 1 }) {n : MapNode K V} :
    Always (moveToFrontAssign O n v) P :=
  (Always.plain hP).bind hP fun _ => Always.note hP h

theorem insert_always {P : Ledger → Prop} (hP : Additive P) (h : P { vCopied := 1 }) (h' : P { kCopied := 1, vMoved := 1 }) :
    Always (insert O k v) P := by
  unfold insert
  refine (Always.plain hP).bind hP fun n => ?_
  split
  · exact Always.pure hP
  · refine (Always.plain hP).bind hP fun o => ?_
    cases o with
    | none =>
      exact (Always.plain hP).bind hP fun _ => (Always.note hP h).bind hP fun _ => (insertNode_always hP h').bind hP fun _ =>
        (Always.plain hP).bind hP fun _ => Always.pure hP
    | some n => exact (moveToFrontAssign_always hP h).bind hP fun _ => (Always.plain hP).bind hP fun _ => Always.pure hP

theorem emplace_always {P : Ledger → Prop} (hP : Additive P) {ka va : Arg} (hk : P ka.key) (hv : P va.value)
    (h : P { vCopied := 1 }) (h' : P { kMoved := 1, vMoved := 1 }) : Always (emplace O ka va k v) P := by
  unfold emplace
  refine (Always.plain hP).bind hP fun n => ?_
  split
  · exact Always.pure hP
  · refine (Always.note hP hk).bind hP fun _ => (Always.plain hP).bind hP fun o => ?_
    cases o with
    | none =>
      exact (Always.note hP hv).bind hP fun _ => (Always.plain hP).bind hP fun _ => (insertNode_always hP h').bind hP fun _ =>
        (Always.plain hP).bind hP fun _ => Always.pure hP
    | some n =>
      exact (Always.note hP hv).bind hP fun _ => (moveToFrontAssign_always hP h).bind hP fun _ =>
        (Always.plain hP).bind hP fun _ => Always.pure hP

theorem insertRange_always {P : Ledger → Prop} (hP : Additive P) (h : P { vCopied := 1 })
    (h' : P { kCopied := 1, vMoved := 1 }) (l : List (K × V)) : Always (insertRange O l) P := by
  induction l with
  | nil => exact Always.pure hP
  | cons p l ih => exact (insert_always hP h h').bind hP fun _ => ih.bind hP fun _ => Always.pure hP

theorem insertRangeMove_always {P : Ledger → Prop} (hP : Additive P) (hk : P (Arg.key .rvalue)) (hv : P (Arg.value .rvalue))
    (h : P { vCopied := 1 }) (h' : P { kMoved := 1, vMoved := 1 }) (l : List (K × V)) : Always (insertRangeMove O l) P := by
  induction l with
  | nil => exact Always.pure hP
  | cons p l ih => exact (emplace_always hP hk hv h h').bind hP fun _ => ih.bind hP fun _ => Always.pure hP

/-! ### Calls that throw -/

theorem readCapacity_quiet : NoThrow (Impl.readCapacity : Impl.CM K V Nat) := by
  intro s e s' h
  unfold Impl.readCapacity at h
  split at h <;> cases h

theorem insertionTime_quiet : NoThrow (Impl.insertionTime O : Impl.CM K V Int) := by
  refine NoThrow.bind (fun s e s' h => by cases h) fun a => ?_
  cases a with
  | basic => exact .pure _
  | timed => exact fun s e s' h => by cases h

theorem moveToFront_quiet (it : Option Ptr) : NoThrow (Impl.moveToFront it : Impl.CM K V Unit) := by
  unfold Impl.moveToFront
  refine NoThrow.bind (fun s e s' h => by cases h) fun a => ?_
  split
  · exact .pure _
  · cases it with
    | none => exact .ub
    | some p => exact (derefOrder_quiet p).bind fun _ s e s' h => by cases h

theorem orderFront_quiet : NoThrow (Impl.orderFront : Impl.CM K V ListNode) := by
  refine NoThrow.bind (fun s e s' h => by cases h) fun a => ?_
  cases a with
  | none => exact .ub
  | some l => exact .pure _

theorem orderBack_quiet : NoThrow (Impl.orderBack : Impl.CM K V ListNode) := by
  refine NoThrow.bind (fun s e s' h => by cases h) fun a => ?_
  cases a with
  | none => exact .ub
  | some l => exact .pure _

theorem insertNewKey_quiet (hO : NoListFault O) (p : Ptr) : NoThrow (Impl.insertNewKey O p : Impl.CM K V Ptr) := by
  refine NoThrow.bind ?_ fun _ => orderBack_quiet.bind fun _ => .pure _
  refine NoThrow.bind (fun s e s' h => by cases h) fun _ => readCapacity_quiet.bind fun _ => ?_
  split
  · exact orderFront_quiet.bind fun l => ((deref_quiet _).bind fun _ => .pure _).bind fun _ =>
      NoThrow.bind (fun s e s' h => by cases h) fun _ => NoThrow.bind (fun s e s' h => by cases h) fun _ => moveToFront_quiet _
  · refine NoThrow.bind (fun s e s' h => ?_) fun _ => NoThrow.bind (fun s e s' h => by cases h) fun _ s e s' h => by cases h
    unfold attempt at h
    rw [hO] at h
    cases h

theorem insertNode_fails (hO : NoListFault O) {l : Ledger} {t : Int} : Fails (insertNode O l k v t) (fun l' => l' = 0) := by
  unfold insertNode
  exact Fails.next Costs.note (Fails.note rfl) fun p => Fails.skip (insertNewKey_quiet hO p) fun q =>
    Fails.skip (fun s e s' h => by cases h) fun _ => Fails.pure

theorem moveToFrontAssign_fails {n : MapNode K V} : Fails (moveToFrontAssign O n v) (fun l' => l' = 0) := by
  unfold moveToFrontAssign
  exact Fails.skip (moveToFront_quiet _) fun _ => Fails.note rfl

theorem setLast_quiet (p : Ptr) : NoThrow (Impl.setLast p : Impl.CM K V Unit) := fun s e s' h => by cases h

/-- What is done to keys and values before `insert` throws. -/
theorem insert_fails (hO : NoListFault O) {s s' : St (Cache K V) K V} {e : Err} (hd : (insert O k v s).1 = .throw e s') :
    (insert O k v s).2 = 0 ∨
      (s.c.map.find? (fun n => keq n.key k) = none ∧ (insert O k v s).2 = { vCopied := 1 }) := by
  cases hf : s.c.map.find? (fun n => keq n.key k) with
  | none =>
    have : Fails (insert O k v) (fun l => l = 0 ∨ l = { vCopied := 1 }) := by
      unfold insert
      refine Fails.skip readCapacity_quiet fun n => ?_
      split
      · exact Fails.pure
      · refine Fails.skip (mapFind_quiet _) fun o => ?_
        cases o with
        | none =>
          refine Fails.skip insertionTime_quiet fun t => Fails.next Costs.note (Fails.note (.inl rfl)) fun _ =>
            Fails.next insertNode_costs ((insertNode_fails hO).weaken ?_) fun p => Fails.skip (setLast_quiet _) fun _ => Fails.pure
          rintro l rfl
          exact .inr rfl
        | some n =>
          exact Fails.next moveToFrontAssign_costs (moveToFrontAssign_fails.weaken fun l h => .inl h) fun _ =>
            Fails.skip (setLast_quiet _) fun _ => Fails.pure
    rcases this s e s' hd with h | h
    · exact .inl h
    · exact .inr ⟨rfl, h⟩
  | some n =>
    left
    unfold insert at hd ⊢
    have hc := readCapacity_quiet (V := V) (K := K) s
    cases h1 : Impl.readCapacity s with
    | ok c s1 =>
      have hs : s1 = s := by
        unfold Impl.readCapacity at h1
        split at h1
        · injection h1 with _ h1; exact h1.symm
        · cases h1
      subst hs
      have e1 : ∀ {β : Type} (f : Nat → CM K V β), (plain Impl.readCapacity >>= f) s1 = ((f c s1).1, 0 + (f c s1).2) := by
        intro β f
        show Kept.bind _ f s1 = _
        unfold Kept.bind plain Kept.note
        rw [h1]
      rw [e1] at hd ⊢
      have e2 : ∀ {β : Type} (f : Option (MapNode K V) → CM K V β), (plain (Impl.mapFind k) >>= f) s1 = ((f (some n) s1).1, 0 + (f (some n) s1).2) := by
        intro β f
        show Kept.bind _ f s1 = _
        unfold Kept.bind plain Kept.note Impl.mapFind
        rw [hf]
      have e3 : Fails (do
          moveToFrontAssign O n v
          plain (Impl.setLast n.addr)
          pure (false, some n.addr) : CM K V (Bool × Option Ptr)) (fun l => l = 0) :=
        Fails.next moveToFrontAssign_costs (moveToFrontAssign_fails.weaken fun l h => h) fun _ =>
            Fails.skip (setLast_quiet _) fun _ => Fails.pure
      by_cases h0 : c = 0
      · rw [if_pos h0] at hd; cases hd
      · rw [if_neg h0] at hd ⊢
        rw [e2] at hd ⊢
        have := e3 _ _ _ hd
        show 0 + (0 + _) = _
        simp only [Ledger.zero_add]
        exact this
    | throw e1 s1 => exact absurd h1 (hc e1 s1)
    | _ =>
      have h2 : (Kept.bind (plain Impl.readCapacity) _ s).1 = _ := hd
      unfold Kept.bind plain Kept.note at h2
      rw [h1] at h2
      cases h2

/-- What is done to keys and values before `emplace` throws. -/
theorem emplace_fails (hO : NoListFault O) {ka va : Arg} :
    Fails (emplace O ka va k v) (fun l => l = 0 ∨ l = ka.key ∨ l = ka.key + va.value) := by
  unfold emplace
  refine Fails.skip readCapacity_quiet fun n => ?_
  split
  · exact Fails.pure
  · refine Fails.next Costs.note (Fails.note (.inl rfl)) fun _ => Fails.skip (mapFind_quiet _) fun o => ?_
    cases o with
    | none =>
      refine Fails.next Costs.note (Fails.note (.inr (.inl (by simp)))) fun _ => Fails.skip insertionTime_quiet fun t =>
        Fails.next insertNode_costs ((insertNode_fails hO).weaken ?_) fun p => Fails.skip (setLast_quiet _) fun _ => Fails.pure
      rintro l rfl
      exact .inr (.inr (by simp))
    | some n =>
      refine Fails.next Costs.note (Fails.note (.inr (.inl (by simp)))) fun _ =>
        Fails.next moveToFrontAssign_costs (moveToFrontAssign_fails.weaken ?_) fun _ => Fails.skip (setLast_quiet _) fun _ => Fails.pure
      rintro l rfl
      exact .inr (.inr (by simp))

/-! ### Ranges -/

variable [DecidableEq V] {s s' : St (Cache K V) K V} {l : List (K × V)}

/-- What one insertion does to the capacity and the number of elements, and when it reports `end()`. -/
theorem inserts_facts (hO : NoListFault O) (h : Reachable O s) {op : Op K V} (hi : op.Inserts k v) {b : Bool} {p : Option Ptr}
    (hd : Returns O op s (.inserted b p) s') :
    s'.c.capacity = s.c.capacity ∧ (p = none ↔ s.c.capacity = some 0) ∧ (p = none → b = false) ∧
      (p ≠ none → (b = true ↔ ¬ Stored s.c k)) ∧
      (∀ n, s.c.capacity = some n → LRU.count s.c < n → LRU.count s'.c = LRU.count s.c + if b then 1 else 0) := by
  obtain ⟨t, t', b', p', hr, ht, ho, hr', he⟩ := h.inserts hO hi hd
  injection he with hb hp
  subst hb hp
  refine ⟨h.insert_capacity hO hi hd, ?_⟩
  rw [hr.rep.cap, hr.count, hr'.count, hr.not_stored]
  cases ho with
  | zero hc => simp [hc]
  | full g' e r n hf hc he hn =>
    rw [hc]
    refine ⟨by simp, by simp, by simp [hf], fun m hm hl => ?_⟩
    injection hm with hm
    rw [he, List.length_cons] at hl
    omega
  | room g' n q hf hc hl => rw [hc]; exact ⟨by simp; omega, by simp, by simp [hf], fun m _ _ => by simp⟩
  | update g' e n hf hc =>
    rw [hc]
    refine ⟨by simp, by simp, by simp [hf], fun m _ _ => ?_⟩
    have hn := (toEnd_perm ht (find_mem hf).1).length_eq
    unfold toEnd at hn
    unfold without
    simp only [List.length_append, List.length_cons, List.length_nil] at hn ⊢
    simpa using hn

theorem insert_returns {b : Bool} {p : Option Ptr} (h : (insert O k v s).1 = .ok (b, p) s') :
    Returns O (.insert k v) s (.inserted b p) s' := by
  have h1 : Impl.insert O k v s = .ok (b, p) s' := by rw [← insert_body]; exact h
  exact ret_ok_iff.2 ⟨(b, p), h1, rfl⟩

theorem emplace_returns {ka va : Arg} {b : Bool} {p : Option Ptr} (h : (emplace O ka va k v s).1 = .ok (b, p) s') :
    Returns O (.emplace k v) s (.inserted b p) s' := by
  have h1 : Impl.emplace O k v s = .ok (b, p) s' := by rw [← emplace_body ka va]; exact h
  exact ret_ok_iff.2 ⟨(b, p), h1, rfl⟩

theorem insertRange_costs (hO : NoListFault O) (h : Reachable O s) {n : Nat} (hd : (insertRange O l s).1 = .ok n s') :
    (s.c.capacity = some 0 → (insertRange O l s).2 = 0 ∧ n = 0) ∧
    (s.c.capacity ≠ some 0 → n ≤ l.length ∧ (insertRange O l s).2 = { kCopied := n, vCopied := l.length, vMoved := n }) ∧
    (∀ m, s.c.capacity = some m → LRU.count s.c + l.length ≤ m → LRU.count s'.c = LRU.count s.c + n) := by
  induction l generalizing s n with
  | nil =>
    injection hd with h1 h2
    subst h1 h2
    exact ⟨fun _ => ⟨rfl, rfl⟩, fun _ => ⟨Nat.le_refl _, rfl⟩, fun _ _ _ => rfl⟩
  | cons q l ih =>
    obtain ⟨k, v⟩ := q
    unfold insertRange at hd
    obtain ⟨⟨b, p⟩, s1, h1, h2, h3⟩ := bind_ok_inv' hd
    obtain ⟨n', s2, h4, h5, h6⟩ := bind_ok_inv' h2
    injection h5 with h5 h5'
    subst h5 h5'
    have hr := insert_returns h1
    obtain ⟨f1, f2, f3, _, f4⟩ := inserts_facts hO h (.inl rfl) hr
    obtain ⟨i1, i2, i3⟩ := ih (h.after hO hr) h4
    have hc := insert_costs s _ s1 h1
    have h7 : (insertRange O ((k, v) :: l) s).2 = (insert O k v s).2 + ((insertRange O l s1).2 + 0) := by
      rw [insertRange, h3, h6]; rfl
    rw [h7, hc, Ledger.add_zero]
    rw [f1] at i1 i2 i3
    refine ⟨fun h0 => ?_, fun h0 => ?_, fun m hm hl => ?_⟩
    · obtain ⟨j1, j2⟩ := i1 h0
      have hp := f2.2 h0
      have hb := f3 hp
      subst hp hb
      rw [j1, j2]
      exact ⟨rfl, rfl⟩
    · obtain ⟨j1, j2⟩ := i2 h0
      have hp : p ≠ none := fun e => h0 (f2.1 e)
      rw [j2, if_neg hp, List.length_cons]
      cases b
      · refine ⟨by simp; omega, ?_⟩
        simp [Ledger.add_def]; omega
      · refine ⟨by simp; omega, ?_⟩
        simp [Ledger.add_def]; omega
    · rw [List.length_cons] at hl
      have f5 := f4 m hm (by omega)
      cases b
      · simp only [Bool.false_eq_true, if_false] at f5 ⊢
        rw [i3 m hm (by omega)]; omega
      · simp only [if_true] at f5 ⊢
        rw [i3 m hm (by omega)]; omega

theorem insertRangeMove_costs (hO : NoListFault O) (h : Reachable O s) {n : Nat} (hd : (insertRangeMove O l s).1 = .ok n s') :
    (s.c.capacity = some 0 → (insertRangeMove O l s).2 = 0 ∧ n = 0) ∧
    (s.c.capacity ≠ some 0 → n ≤ l.length ∧ (insertRangeMove O l s).2 =
      { kMoved := l.length + n, vMoved := l.length + n, vCopied := l.length - n, kTaken := l.length, vTaken := l.length }) ∧
    (∀ m, s.c.capacity = some m → LRU.count s.c + l.length ≤ m → LRU.count s'.c = LRU.count s.c + n) := by
  induction l generalizing s n with
  | nil =>
    injection hd with h1 h2
    subst h1 h2
    exact ⟨fun _ => ⟨rfl, rfl⟩, fun _ => ⟨Nat.le_refl _, rfl⟩, fun _ _ _ => rfl⟩
  | cons q l ih =>
    obtain ⟨k, v⟩ := q
    unfold insertRangeMove at hd
    obtain ⟨⟨b, p⟩, s1, h1, h2, h3⟩ := bind_ok_inv' hd
    obtain ⟨n', s2, h4, h5, h6⟩ := bind_ok_inv' h2
    injection h5 with h5 h5'
    subst h5 h5'
    have hr := emplace_returns h1
    obtain ⟨f1, f2, f3, _, f4⟩ := inserts_facts hO h (.inr rfl) hr
    obtain ⟨i1, i2, i3⟩ := ih (h.after hO hr) h4
    have hc := emplace_costs s _ s1 h1
    have h7 : (insertRangeMove O ((k, v) :: l) s).2 =
        (emplace O .rvalue .rvalue k v s).2 + ((insertRangeMove O l s1).2 + 0) := by
      rw [insertRangeMove, h3, h6]; rfl
    rw [h7, hc, Ledger.add_zero]
    rw [f1] at i1 i2 i3
    refine ⟨fun h0 => ?_, fun h0 => ?_, fun m hm hl => ?_⟩
    · obtain ⟨j1, j2⟩ := i1 h0
      have hp := f2.2 h0
      have hb := f3 hp
      subst hp hb
      rw [j1, j2]
      exact ⟨rfl, rfl⟩
    · obtain ⟨j1, j2⟩ := i2 h0
      have hp : p ≠ none := fun e => h0 (f2.1 e)
      rw [j2, if_neg hp, List.length_cons]
      cases b
      · refine ⟨by simp; omega, ?_⟩
        simp [Ledger.add_def, Arg.key, Arg.value]; omega
      · refine ⟨by simp; omega, ?_⟩
        simp [Ledger.add_def, Arg.key, Arg.value]; omega
    · rw [List.length_cons] at hl
      have f5 := f4 m hm (by omega)
      cases b
      · simp only [Bool.false_eq_true, if_false] at f5 ⊢
        rw [i3 m hm (by omega)]; omega
      · simp only [if_true] at f5 ⊢
        rw [i3 m hm (by omega)]; omega

/-- The cache a range is assigned to, before the elements arrive. -/
theorem clearAndIncreaseCapacity_reachable (hO : NoListFault O) (h : Reachable O s) {n : Nat}
    (hd : Impl.clearAndIncreaseCapacity n s = .ok () s') :
    Reachable O s' ∧ LRU.count s'.c = 0 ∧ ∃ m, s'.c.capacity = some m ∧ n ≤ m := by
  have h1 : Returns O .clear s .unit ⟨{ s.c with map := [], order := [], last := none }, s.g⟩ := rfl
  have h2 := h.after hO h1
  cases hc : s.c.capacity with
  | none =>
    exfalso
    have e : Impl.clearAndIncreaseCapacity n s = .ub := by
      have h3 : Impl.readCapacity (⟨{ s.c with map := [], order := [], last := none }, s.g⟩ : St (Cache K V) K V) = .ub := by
        unfold Impl.readCapacity; simp only [hc]
      exact (bind_ok (m := Impl.clear) rfl).trans (bind_ub h3)
    rw [e] at hd; cases hd
  | some m =>
    have e : Impl.clearAndIncreaseCapacity n s =
        if n > m then .ok () ⟨{ s.c with map := [], order := [], last := none, capacity := some n }, s.g⟩
        else .ok () ⟨{ s.c with map := [], order := [], last := none }, s.g⟩ := by
      have h3 : Impl.readCapacity (⟨{ s.c with map := [], order := [], last := none }, s.g⟩ : St (Cache K V) K V) =
          .ok m ⟨{ s.c with map := [], order := [], last := none }, s.g⟩ := by
        unfold Impl.readCapacity; simp only [hc]
      refine (bind_ok (m := Impl.clear) rfl).trans ((bind_ok h3).trans ?_)
      show (if n > m then Impl.assignCapacity n else pure ()) _ = _
      split <;> rfl
    rw [e] at hd
    split at hd
    · injection hd with _ hd
      subst hd
      have h3 : Returns O (.setCapacity n) ⟨{ s.c with map := [], order := [], last := none }, s.g⟩ .unit
          ⟨{ s.c with map := [], order := [], last := none, capacity := some n }, s.g⟩ := by
        refine ret_ok_iff.2 ⟨(), ?_, rfl⟩
        rfl
      exact ⟨h2.after hO h3, rfl, n, rfl, Nat.le_refl _⟩
    · injection hd with _ hd
      subst hd
      exact ⟨h2, rfl, m, hc, by omega⟩

theorem assignRange_costs (hO : NoListFault O) (h : Reachable O s) {r : Res K V} (hd : (step O (.assignRange l) s).1 = .ok r s') :
    (step O (.assignRange l) s).2 = { kCopied := LRU.count s'.c, vCopied := l.length, vMoved := LRU.count s'.c } := by
  obtain ⟨_, s1, h1, h2, h3⟩ := bind_ok_inv' hd
  obtain ⟨n, s2, h4, h5, h6⟩ := bind_ok_inv' h2
  injection h5 with _ h5
  subst h5
  have h1' : Impl.clearAndIncreaseCapacity l.length s = .ok () s1 := by
    rw [← body_plain (Impl.clearAndIncreaseCapacity l.length)]; exact h1
  obtain ⟨hr, hn, m, hm, hl⟩ := clearAndIncreaseCapacity_reachable hO h h1'
  obtain ⟨i1, i2, i3⟩ := insertRange_costs hO hr h4
  have h7 : (step O (.assignRange l) s).2 = (insertRange O l s1).2 := by
    have h8 : (plain (Impl.clearAndIncreaseCapacity l.length) s).2 = 0 := Costs.note s _ s1 h1
    rw [step, h3, h6, h8]
    show 0 + ((insertRange O l s1).2 + 0) = _
    simp
  have hc := i3 m hm (by omega)
  rw [hn, Nat.zero_add] at hc
  rw [h7, hc]
  by_cases h0 : s1.c.capacity = some 0
  · obtain ⟨j1, j2⟩ := i1 h0
    rw [h0] at hm
    injection hm with hm
    rw [j1, j2, show l.length = 0 by omega]
    rfl
  · exact (i2 h0).2

theorem assignRangeMove_costs (hO : NoListFault O) (h : Reachable O s) {r : Res K V}
    (hd : (step O (.assignRangeMove l) s).1 = .ok r s') :
    LRU.count s'.c ≤ l.length ∧ (step O (.assignRangeMove l) s).2 =
      { kMoved := l.length + LRU.count s'.c, vMoved := l.length + LRU.count s'.c, vCopied := l.length - LRU.count s'.c
        kTaken := l.length, vTaken := l.length } := by
  obtain ⟨_, s1, h1, h2, h3⟩ := bind_ok_inv' hd
  obtain ⟨n, s2, h4, h5, h6⟩ := bind_ok_inv' h2
  injection h5 with _ h5
  subst h5
  have h1' : Impl.clearAndIncreaseCapacity l.length s = .ok () s1 := by
    rw [← body_plain (Impl.clearAndIncreaseCapacity l.length)]; exact h1
  obtain ⟨hr, hn, m, hm, hl⟩ := clearAndIncreaseCapacity_reachable hO h h1'
  obtain ⟨i1, i2, i3⟩ := insertRangeMove_costs hO hr h4
  have h7 : (step O (.assignRangeMove l) s).2 = (insertRangeMove O l s1).2 := by
    have h8 : (plain (Impl.clearAndIncreaseCapacity l.length) s).2 = 0 := Costs.note s _ s1 h1
    rw [step, h3, h6, h8]
    show 0 + ((insertRangeMove O l s1).2 + 0) = _
    simp
  have hc := i3 m hm (by omega)
  rw [hn, Nat.zero_add] at hc
  rw [h7, hc]
  by_cases h0 : s1.c.capacity = some 0
  · obtain ⟨j1, j2⟩ := i1 h0
    rw [h0] at hm
    injection hm with hm
    rw [j1, j2, show l.length = 0 by omega]
    exact ⟨Nat.le_refl _, rfl⟩
  · exact i2 h0

end Moves

end LRU
