import Verif.Proofs.CostBound
/-!
# Amortised bounds on the cost of a call: lemmas for `Props.Cost`
-/

set_option linter.unusedSectionVars false
set_option autoImplicit false

namespace LRU

open Metered

namespace Cost

variable {K V α β : Type} [KeyEqual K] [DecidableEq K] {O : Oracle K V} {s : St (Cache K V) K V}

/-- The state after a body returned or threw. -/
def After {σ α : Type} (o : Out σ α) (s' : σ) : Prop := (∃ a, o = .ok a s') ∨ (∃ e, o = .throw e s')

/-! ### Steps that add no element -/

/-- The body adds no element to the hash table. -/
def NoGrow (m : Impl.CM K V α) : Prop := ∀ s s', After (m s) s' → s'.c.map.length ≤ s.c.map.length

theorem NoGrow.bind {m : Impl.CM K V α} {f : α → Impl.CM K V β} (h : NoGrow m) (hf : ∀ a, NoGrow (f a)) : NoGrow (m >>= f) := by
  intro s s' hs
  cases hm : m s with
  | ok a s1 =>
    rw [bind_ok hm] at hs
    exact Nat.le_trans (hf a s1 s' hs) (h s s1 (.inl ⟨a, hm⟩))
  | throw e s1 =>
    rw [bind_throw hm] at hs
    rcases hs with ⟨_, h1⟩ | ⟨_, h1⟩ <;> cases h1
    exact h s _ (.inr ⟨e, hm⟩)
  | ub => rw [bind_ub hm] at hs; rcases hs with ⟨_, h1⟩ | ⟨_, h1⟩ <;> cases h1
  | terminate => rw [bind_terminate hm] at hs; rcases hs with ⟨_, h1⟩ | ⟨_, h1⟩ <;> cases h1
  | diverge =>
    have : (m >>= f) s = .diverge := by
      show M.bind m f s = _
      unfold M.bind
      rw [hm]
    rw [this] at hs; rcases hs with ⟨_, h1⟩ | ⟨_, h1⟩ <;> cases h1

theorem NoGrow.of {m : Impl.CM K V α} (h : ∀ s, match m s with
    | .ok _ s' => s'.c.map.length ≤ s.c.map.length
    | .throw _ s' => s'.c.map.length ≤ s.c.map.length
    | _ => True) : NoGrow m := by
  intro s s' hs
  have := h s
  rcases hs with ⟨a, h1⟩ | ⟨e, h1⟩ <;> (rw [h1] at this; exact this)

theorem NoGrow.pure {x : α} : NoGrow (Pure.pure x : Impl.CM K V α) := .of fun _ => Nat.le_refl _

theorem NoGrow.throw {e : Err} : NoGrow (M.throw e : Impl.CM K V α) := .of fun _ => Nat.le_refl _

theorem NoGrow.ub : NoGrow (M.ub : Impl.CM K V α) := .of fun _ => trivial

theorem NoGrow.ite {c : Prop} [Decidable c] {m n : Impl.CM K V α} (h : NoGrow m) (h' : NoGrow n) : NoGrow (if c then m else n) := by
  split <;> assumption

/-- A body that reads the state, or stops. -/
theorem NoGrow.read {f : St (Cache K V) K V → α} : NoGrow (fun s => .ok (f s) s : Impl.CM K V α) := .of fun _ => Nat.le_refl _

theorem NoGrow.set {f : Cache K V → Cache K V} (h : ∀ c, (f c).map.length ≤ c.map.length) : NoGrow (Impl.setSelf f) :=
  .of fun s => h s.c

theorem noGrow_attempt {site : Site} : NoGrow (attempt O site : Impl.CM K V Unit) := by
  intro s s' hs
  unfold attempt at hs
  simp only at hs
  split at hs <;> rcases hs with ⟨_, h⟩ | ⟨_, h⟩ <;> cases h <;> exact Nat.le_refl _

theorem noGrow_now : NoGrow (now O : Impl.CM K V Int) := .of fun _ => Nat.le_refl _

theorem noGrow_deref (p : Ptr) : NoGrow (Impl.deref p : Impl.CM K V (MapNode K V)) := .of fun s => by
  unfold Impl.deref
  cases h : s.c.map.find? (fun n => n.addr == p) with
  | some n => exact Nat.le_refl _
  | none =>
    simp only
    cases h' : s.g.ext.find? (fun n => n.addr == p) with
    | some n => exact Nat.le_refl _
    | none => trivial

theorem noGrow_derefIt (it : Option Ptr) : NoGrow (Impl.derefIt it : Impl.CM K V (MapNode K V)) := by
  cases it with
  | none => exact .ub
  | some p =>
    intro s s' hs
    have hs : After (match s.c.map.find? (fun n => n.addr == p) with | some n => Out.ok n s | none => .ub) s' := hs
    split at hs <;> rcases hs with ⟨_, h⟩ | ⟨_, h⟩ <;> cases h
    exact Nat.le_refl _

theorem noGrow_derefOrder (p : Ptr) : NoGrow (Impl.derefOrder p : Impl.CM K V ListNode) := .of fun s => by
  unfold Impl.derefOrder
  cases h : s.c.order.find? (fun n => n.addr == p) with
  | some n => exact Nat.le_refl _
  | none => trivial

theorem noGrow_readCapacity : NoGrow (Impl.readCapacity : Impl.CM K V Nat) := .of fun s => by
  unfold Impl.readCapacity
  cases h : s.c.capacity with
  | some n => exact Nat.le_refl _
  | none => trivial

theorem noGrow_lastNode : NoGrow (Impl.lastNode : Impl.CM K V (MapNode K V)) :=
  .bind .read fun l => by cases l with | none => exact .ub | some p => exact noGrow_deref p

theorem noGrow_lastIs (k : K) : NoGrow (Impl.lastIs k : Impl.CM K V Bool) :=
  .bind .read fun l => by cases l with | none => exact .pure | some p => exact (noGrow_deref p).bind fun _ => .pure

theorem noGrow_hasExpiredInfo (t : Int) : NoGrow (Impl.hasExpiredInfo O t : Impl.CM K V Bool) :=
  .bind .read fun kind => by cases kind with | basic => exact .pure | timed => exact noGrow_now.bind fun _ => .pure

theorem noGrow_lastAccessedIsOk : NoGrow (Impl.lastAccessedIsOk O : Impl.CM K V Bool) :=
  .bind .read fun kind => by
    cases kind with
    | basic => exact .pure
    | timed => exact noGrow_lastNode.bind fun _ => (noGrow_hasExpiredInfo _).bind fun _ => .pure

theorem noGrow_valueForLastAccessed : NoGrow (Impl.valueForLastAccessed O : Impl.CM K V (MapNode K V)) :=
  noGrow_lastNode.bind fun _ => .bind .read fun kind => by
    cases kind with
    | basic => exact .pure
    | timed => exact (noGrow_hasExpiredInfo _).bind fun b => .ite .throw .pure

theorem noGrow_invalidateIf (k : K) : NoGrow (Impl.invalidateIf k : Impl.CM K V Unit) :=
  (noGrow_lastIs k).bind fun _ => .ite (.set fun _ => Nat.le_refl _) .pure

theorem noGrow_orderErase (it : Option Ptr) : NoGrow (Impl.orderErase it : Impl.CM K V Unit) := by
  cases it with
  | none => exact .ub
  | some p => exact (noGrow_derefOrder p).bind fun _ => .set fun _ => Nat.le_refl _

theorem noGrow_spliceToEnd (it : Option Ptr) : NoGrow (Impl.spliceToEnd it : Impl.CM K V Unit) := by
  cases it with
  | none => exact .ub
  | some p => exact (noGrow_derefOrder p).bind fun _ => .set fun _ => Nat.le_refl _

theorem noGrow_mapEraseAt (p : Ptr) : NoGrow (Impl.mapEraseAt p : Impl.CM K V Unit) := .set fun _ => List.length_filter_le _ _

theorem noGrow_mapEraseKey (k : K) : NoGrow (Impl.mapEraseKey k : Impl.CM K V Unit) := .set fun _ => List.length_filter_le _ _

theorem noGrow_assignValue (p : Ptr) (v : V) : NoGrow (Impl.assignValue p v : Impl.CM K V Unit) :=
  .set fun c => Nat.le_of_eq (List.length_map (as := c.map) _)

theorem noGrow_tryAssign (p : Ptr) (v : V) : NoGrow (Impl.tryAssign O p v) := by
  refine NoGrow.bind (.of fun _ => Nat.le_refl _) fun r => ?_
  cases r with
  | none => exact noGrow_assignValue p v
  | some n => exact .bind (.set fun c => Nat.le_of_eq (List.length_map (as := c.map) _)) fun _ => .throw

theorem noGrow_setOrder (p q : Ptr) : NoGrow (Impl.setOrder p q : Impl.CM K V Unit) :=
  .set fun c => Nat.le_of_eq (List.length_map (as := c.map) _)

theorem noGrow_orderFront : NoGrow (Impl.orderFront : Impl.CM K V ListNode) :=
  .bind .read fun l => by cases l with | none => exact .ub | some p => exact .pure

theorem noGrow_orderBack : NoGrow (Impl.orderBack : Impl.CM K V ListNode) :=
  .bind .read fun l => by cases l with | none => exact .ub | some p => exact .pure

theorem noGrow_keyOf (l : ListNode) : NoGrow (Impl.keyOf l : Impl.CM K V K) := (noGrow_deref _).bind fun _ => .pure

theorem noGrow_orderAppend (p : Ptr) : NoGrow (Impl.orderAppend O p : Impl.CM K V Unit) :=
  noGrow_attempt.bind fun _ => .bind (.of fun _ => Nat.le_refl _) fun _ => .set fun _ => Nat.le_refl _

theorem noGrow_assignCapacity (n : Nat) : NoGrow (Impl.assignCapacity n : Impl.CM K V Unit) := .set fun _ => Nat.le_refl _

theorem noGrow_insertionTime : NoGrow (Impl.insertionTime O : Impl.CM K V Int) :=
  .bind .read fun kind => by cases kind with | basic => exact .pure | timed => exact noGrow_now

theorem noGrow_callEach (ev : Nat → Event K V) (l : List Nat) : NoGrow (callEach O ev l : Impl.CM K V Unit) := by
  induction l with
  | nil => exact .pure
  | cons cb l ih => exact .bind (.of fun _ => Nat.le_refl _) fun _ => noGrow_attempt.bind fun _ => ih

theorem noGrow_registerHit (o : Obs) (k : K) (v : V) : NoGrow (LRU.registerHit O o k v : Impl.CM K V Unit) := by
  refine .bind ?_ fun _ => (noGrow_callEach _ _).bind fun _ => noGrow_callEach _ _
  unfold countHit
  cases o.stats with
  | none => exact .pure
  | some i => exact .of fun _ => Nat.le_refl _

theorem noGrow_registerMiss (o : Obs) (k : K) : NoGrow (LRU.registerMiss O o k : Impl.CM K V Unit) := by
  refine .bind ?_ fun _ => (noGrow_callEach _ _).bind fun _ => noGrow_callEach _ _
  unfold countMiss
  cases o.stats with
  | none => exact .pure
  | some i => exact .of fun _ => Nat.le_refl _

theorem noGrow_entryU (it : Option Ptr) : NoGrow (Impl.entryU O it : Impl.CM K V (MapNode K V)) := by
  refine (noGrow_derefIt it).bind fun _ => .bind ?_ fun _ => .pure
  cases it with
  | none => exact .throw
  | some p =>
    refine .bind .read fun kind => ?_
    cases kind with
    | basic => exact .pure
    | timed => exact (noGrow_derefIt _).bind fun _ => (noGrow_hasExpiredInfo _).bind fun _ => .ite .throw .pure

/-! ### Paying for removals -/

/-- Beyond `h` searches and `n` nodes, the call is paid for by the elements that it removes (one search and two nodes each);
elements that it adds are paid for in advance. -/
def PaysAt (m : CM K V α) (s : St (Cache K V) K V) (h n : Nat) : Prop :=
  ∀ s', After (m s).1 s' →
    (m s).2.hash + s'.c.map.length ≤ h + s.c.map.length ∧ (m s).2.nodes + 2 * s'.c.map.length ≤ n + 2 * s.c.map.length

theorem PaysAt.bind {m : CM K V α} {f : α → CM K V β} {h n h' n' : Nat} (hm : PaysAt m s h n)
    (hf : ∀ a s', (m s).1 = .ok a s' → PaysAt (f a) s' h' n') : PaysAt (m >>= f) s (h + h') (n + n') := by
  intro s' hs
  have hs : After (Metered.bind m f s).1 s' := hs
  show (Metered.bind m f s).2.hash + _ ≤ _ ∧ (Metered.bind m f s).2.nodes + _ ≤ _
  unfold Metered.bind at hs ⊢
  rcases he : m s with ⟨o, c⟩
  unfold PaysAt at hm
  rw [he] at hm hf hs
  cases o with
  | ok a s1 =>
    have h1 := hm s1 (.inl ⟨a, rfl⟩)
    have h2 := hf a s1 rfl s' hs
    simp only [Bill.add_hash, Bill.add_nodes] at h1 h2 ⊢
    omega
  | throw e s1 =>
    have h1 := hm s' (by rcases hs with ⟨_, h⟩ | ⟨_, h⟩ <;> cases h; exact .inr ⟨_, rfl⟩)
    simp only at h1 ⊢
    omega
  | ub => rcases hs with ⟨_, h1⟩ | ⟨_, h1⟩ <;> cases h1
  | terminate => rcases hs with ⟨_, h1⟩ | ⟨_, h1⟩ <;> cases h1
  | diverge => rcases hs with ⟨_, h1⟩ | ⟨_, h1⟩ <;> cases h1

theorem PaysAt.mono {m : CM K V α} {h n h' n' : Nat} (hm : PaysAt m s h n) (h1 : h ≤ h') (h2 : n ≤ n') : PaysAt m s h' n' :=
  fun s' hs => ⟨Nat.le_trans (hm s' hs).1 (by omega), Nat.le_trans (hm s' hs).2 (by omega)⟩

theorem PaysAt.charge {m : Impl.CM K V α} {p : St (Cache K V) K V → Bill} (hm : NoGrow m) :
    PaysAt (Metered.charge p m) s (p s).hash (p s).nodes := fun s' hs => by
  have := hm s s' hs
  show (p s).hash + _ ≤ _ ∧ (p s).nodes + _ ≤ _
  omega

theorem PaysAt.free {m : Impl.CM K V α} {f : α → CM K V β} {h n : Nat} (hm : NoGrow m)
    (hf : ∀ a s', m s = .ok a s' → PaysAt (f a) s' h n) : PaysAt (Metered.free m >>= f) s h n := by
  have := PaysAt.bind (h := 0) (n := 0) (m := Metered.free m) (.charge hm) hf
  rwa [Nat.zero_add, Nat.zero_add] at this

theorem PaysAt.freely {m : Impl.CM K V α} {h n : Nat} (hm : NoGrow m) : PaysAt (Metered.free m) s h n :=
  (PaysAt.charge hm).mono (Nat.zero_le _) (Nat.zero_le _)

theorem PaysAt.pure {x : α} {h n : Nat} : PaysAt (Pure.pure x : CM K V α) s h n := PaysAt.freely NoGrow.pure

theorem PaysAt.ite {c : Prop} [Decidable c] {m m' : CM K V α} {h n : Nat} (h1 : c → PaysAt m s h n) (h2 : ¬ c → PaysAt m' s h n) :
    PaysAt (if c then m else m') s h n := by
  split
  · next hc => exact h1 hc
  · next hc => exact h2 hc

theorem PaysAt.ret {m : CM K V α} {f : α → Res K V} {h n : Nat} (hm : PaysAt m s h n) : PaysAt (Cost.ret m f) s h n :=
  PaysAt.bind (h' := 0) (n' := 0) hm fun _ _ _ => .pure

theorem mapFind_pays (k : K) : PaysAt (mapFind k : CM K V _) s 1 0 := PaysAt.charge (p := fun _ => { hash := 1 }) .read

theorem moveToFront_pays (it : Option Ptr) : PaysAt (moveToFront it : CM K V Unit) s 0 1 :=
  .free .read fun _ _ _ => .ite (fun _ => .pure) fun _ => PaysAt.charge (p := fun _ => { nodes := 1 }) (noGrow_spliceToEnd _)

theorem moveToFrontAssign_pays (n : MapNode K V) (v : V) : PaysAt (moveToFrontAssign O n v) s 0 1 :=
  PaysAt.bind (h' := 0) (n' := 0) (moveToFront_pays _) fun _ _ _ =>
    .freely (noGrow_tryAssign _ _)

theorem mapEmplace_pays (k : K) (v : V) (t : Int) : PaysAt (mapEmplace O k v t) s 2 3 := by
  intro s' hs
  have hs : After (Impl.mapEmplace O k v t s) s' := hs
  have : s'.c.map.length ≤ s.c.map.length + 1 := by
    unfold Impl.mapEmplace at hs
    cases ha : (attempt O .mapNode : Impl.CM K V Unit) s with
    | ok a s1 =>
      rw [bind_ok ha] at hs
      have h1 := noGrow_attempt (O := O) s s1 (.inl ⟨a, ha⟩)
      rcases hs with ⟨_, h2⟩ | ⟨_, h2⟩
      · injection h2 with _ h2
        subst h2
        show (O.shuffle _ _).length ≤ _
        rw [(O.shuffle_perm _ _).length_eq, List.length_cons]
        exact Nat.add_le_add_right h1 1
      · cases h2
    | throw e s1 =>
      rw [bind_throw ha] at hs
      have h1 := noGrow_attempt (O := O) s s1 (.inr ⟨e, ha⟩)
      rcases hs with ⟨_, h2⟩ | ⟨_, h2⟩ <;> cases h2
      omega
    | ub => rw [bind_ub ha] at hs; rcases hs with ⟨_, h2⟩ | ⟨_, h2⟩ <;> cases h2
    | terminate => rw [bind_terminate ha] at hs; rcases hs with ⟨_, h2⟩ | ⟨_, h2⟩ <;> cases h2
    | diverge =>
      unfold attempt at ha
      simp only at ha
      split at ha <;> cases ha
  show 1 + _ ≤ _ ∧ 1 + _ ≤ _
  omega

theorem evictLruFor_pays (p : Ptr) : PaysAt (evictLruFor p : CM K V Unit) s 1 2 :=
  .free noGrow_orderFront fun _ _ _ => .free (noGrow_keyOf _) fun _ _ _ =>
    PaysAt.bind (h := 1) (n := 1) (h' := 0) (n' := 1) (PaysAt.charge (p := fun _ => ⟨1, 1, 0⟩) (noGrow_mapEraseKey _)) fun _ _ _ =>
      .free (.set fun _ => Nat.le_refl _) fun _ _ _ => moveToFront_pays _

theorem evictOrAppend_pays (p : Ptr) : PaysAt (evictOrAppend O p) s 1 2 :=
  .free .read fun _ _ _ => .free noGrow_readCapacity fun _ _ _ => .ite (fun _ => evictLruFor_pays p) fun _ =>
    PaysAt.mono (PaysAt.charge (p := fun _ => { nodes := 1 }) (noGrow_orderAppend _)) (by decide) (by decide)

theorem insertNode_pays (k : K) (v : V) (t : Int) : PaysAt (insertNode O k v t) s 3 5 :=
  PaysAt.bind (h' := 1) (n' := 2) (mapEmplace_pays k v t) fun _ _ _ =>
    PaysAt.bind (h := 1) (n := 2) (h' := 0) (n' := 0)
      (PaysAt.bind (h' := 0) (n' := 0) (evictOrAppend_pays _) fun _ _ _ => .free noGrow_orderBack fun _ _ _ => .pure)
      fun _ _ _ => .free (noGrow_setOrder _ _) fun _ _ _ => .pure

theorem insert_pays (k : K) (v : V) : PaysAt (insert O k v) s 4 5 := by
  refine .free noGrow_readCapacity fun n s' _ => .ite (fun _ => .pure) fun _ => ?_
  refine PaysAt.bind (h := 1) (n := 0) (h' := 3) (n' := 5) (mapFind_pays k) fun x s' _ => ?_
  cases x with
  | none =>
    exact .free noGrow_insertionTime fun _ _ _ => .free noGrow_attempt fun _ _ _ =>
      PaysAt.bind (h' := 0) (n' := 0) (insertNode_pays k v _) fun _ _ _ => .free (.set fun _ => Nat.le_refl _) fun _ _ _ => .pure
  | some n =>
    exact PaysAt.mono (PaysAt.bind (h' := 0) (n' := 0) (moveToFrontAssign_pays n v) fun _ _ _ =>
      .free (.set fun _ => Nat.le_refl _) fun _ _ _ => .pure) (by decide) (by decide)

theorem emplace_pays (k : K) (v : V) : PaysAt (emplace O k v) s 4 5 := by
  refine .free noGrow_readCapacity fun n s' _ => .ite (fun _ => .pure) fun _ => .free noGrow_attempt fun _ _ _ => ?_
  refine PaysAt.bind (h := 1) (n := 0) (h' := 3) (n' := 5) (mapFind_pays k) fun x s' _ => ?_
  cases x with
  | none =>
    exact .free noGrow_attempt fun _ _ _ => .free noGrow_insertionTime fun _ _ _ =>
      PaysAt.bind (h' := 0) (n' := 0) (insertNode_pays k v _) fun _ _ _ => .free (.set fun _ => Nat.le_refl _) fun _ _ _ => .pure
  | some n =>
    exact .free noGrow_attempt fun _ _ _ =>
      PaysAt.mono (PaysAt.bind (h' := 0) (n' := 0) (moveToFrontAssign_pays n v) fun _ _ _ =>
        .free (.set fun _ => Nat.le_refl _) fun _ _ _ => .pure) (by decide) (by decide)

theorem insertRange_pays (l : List (K × V)) : PaysAt (insertRange O l) s (4 * l.length) (5 * l.length) := by
  induction l generalizing s with
  | nil => exact .pure
  | cons p l ih =>
    obtain ⟨k, v⟩ := p
    refine PaysAt.mono (PaysAt.bind (insert_pays k v) fun _ _ _ => PaysAt.bind (h' := 0) (n' := 0) ih fun _ _ _ => .pure) ?_ ?_
    · simp only [List.length_cons]; omega
    · simp only [List.length_cons]; omega

theorem insertRangeMove_pays (l : List (K × V)) : PaysAt (insertRangeMove O l) s (4 * l.length) (5 * l.length) := by
  induction l generalizing s with
  | nil => exact .pure
  | cons p l ih =>
    obtain ⟨k, v⟩ := p
    refine PaysAt.mono (PaysAt.bind (emplace_pays k v) fun _ _ _ => PaysAt.bind (h' := 0) (n' := 0) ih fun _ _ _ => .pure) ?_ ?_
    · simp only [List.length_cons]; omega
    · simp only [List.length_cons]; omega

/-! ### Erasing through an iterator removes an element -/

theorem After.bind {m : Impl.CM K V α} {f : α → Impl.CM K V β} {s' : St (Cache K V) K V} (h : After ((m >>= f) s) s') :
    (∃ a s1, m s = .ok a s1 ∧ After (f a s1) s') ∨ ∃ e, m s = .throw e s' := by
  cases hm : m s with
  | ok a s1 => rw [bind_ok hm] at h; exact .inl ⟨a, s1, rfl, h⟩
  | throw e s1 => rw [bind_throw hm] at h; rcases h with ⟨_, h⟩ | ⟨_, h⟩ <;> cases h; exact .inr ⟨e, rfl⟩
  | ub => rw [bind_ub hm] at h; rcases h with ⟨_, h⟩ | ⟨_, h⟩ <;> cases h
  | terminate => rw [bind_terminate hm] at h; rcases h with ⟨_, h⟩ | ⟨_, h⟩ <;> cases h
  | diverge =>
    have : (m >>= f) s = .diverge := by
      show M.bind m f s = _
      unfold M.bind
      rw [hm]
    rw [this] at h
    rcases h with ⟨_, h⟩ | ⟨_, h⟩ <;> cases h

/-- A look at the state: it succeeds, or it is undefined behaviour. -/
def Looks (m : Impl.CM K V α) : Prop := ∀ s, m s = .ub ∨ ∃ a, m s = .ok a s

theorem looks_deref (p : Ptr) : Looks (Impl.deref p : Impl.CM K V (MapNode K V)) := fun s => by
  unfold Impl.deref
  cases s.c.map.find? (fun n => n.addr == p) with
  | some n => exact .inr ⟨_, rfl⟩
  | none =>
    cases s.g.ext.find? (fun n => n.addr == p) with
    | some n => exact .inr ⟨_, rfl⟩
    | none => exact .inl rfl

theorem looks_derefOrder (p : Ptr) : Looks (Impl.derefOrder p : Impl.CM K V ListNode) := fun s => by
  unfold Impl.derefOrder
  cases s.c.order.find? (fun n => n.addr == p) with
  | some n => exact .inr ⟨_, rfl⟩
  | none => exact .inl rfl

theorem looks_lastIs (k : K) : Looks (Impl.lastIs k : Impl.CM K V Bool) := fun s => by
  unfold Impl.lastIs
  rw [bind_ok (m := Impl.getLast) (s := s) rfl]
  cases s.c.last with
  | none => exact .inr ⟨_, rfl⟩
  | some p =>
    rcases looks_deref p s with h | ⟨n, h⟩
    · exact .inl (bind_ub h)
    · exact .inr ⟨_, bind_ok h⟩

/-- It succeeds leaving the hash table alone, or it is undefined behaviour. -/
theorem invalidateIf_map (k : K) (s : St (Cache K V) K V) : (Impl.invalidateIf k : Impl.CM K V Unit) s = .ub ∨
    ∃ s', (Impl.invalidateIf k : Impl.CM K V Unit) s = .ok () s' ∧ s'.c.map = s.c.map := by
  unfold Impl.invalidateIf
  rcases looks_lastIs k s with h | ⟨b, h⟩
  · exact .inl (bind_ub h)
  · rw [bind_ok h]
    cases b with
    | true => exact .inr ⟨_, rfl, rfl⟩
    | false => exact .inr ⟨_, rfl, rfl⟩

theorem orderErase_map (it : Option Ptr) (s : St (Cache K V) K V) : (Impl.orderErase it : Impl.CM K V Unit) s = .ub ∨
    ∃ s', (Impl.orderErase it : Impl.CM K V Unit) s = .ok () s' ∧ s'.c.map = s.c.map := by
  cases it with
  | none => exact .inl rfl
  | some p =>
    show (Impl.derefOrder p >>= fun _ => _ : Impl.CM K V Unit) s = .ub ∨ ∃ s', (Impl.derefOrder p >>= fun _ => _ : Impl.CM K V Unit) s = .ok () s' ∧ _
    rcases looks_derefOrder p s with h | ⟨n, h⟩
    · exact .inl (bind_ub h)
    · exact .inr ⟨_, bind_ok h, rfl⟩

theorem After.not_ub {s' : St (Cache K V) K V} : ¬ After (Out.ub : Out (St (Cache K V) K V) α) s' := fun h => by
  rcases h with ⟨_, h⟩ | ⟨_, h⟩ <;> cases h

/-- `_erase(iterator)` removes an element. -/
theorem eraseIt_shrinks {it : Option Ptr} {s' : St (Cache K V) K V} (h : After ((Impl.eraseIt it : Impl.CM K V Unit) s) s') :
    s'.c.map.length + 1 ≤ s.c.map.length := by
  cases it with
  | none => exact (After.not_ub h).elim
  | some p =>
    unfold Impl.eraseIt at h
    cases hf : s.c.map.find? (fun n => n.addr == p) with
    | none =>
      have hd : (Impl.derefIt (some p) : Impl.CM K V _) s = .ub := by
        show (match s.c.map.find? (fun n => n.addr == p) with | some n => Out.ok n s | none => .ub) = _
        rw [hf]
      rw [bind_ub hd] at h
      exact (After.not_ub h).elim
    | some n =>
      have hd : (Impl.derefIt (some p) : Impl.CM K V _) s = .ok n s := by
        show (match s.c.map.find? (fun n => n.addr == p) with | some n => Out.ok n s | none => .ub) = _
        rw [hf]
      rw [bind_ok hd] at h
      have hmem : n ∈ s.c.map := List.mem_of_find?_eq_some hf
      rcases invalidateIf_map n.key s with h1 | ⟨s1, h1, e1⟩
      · rw [bind_ub h1] at h; exact (After.not_ub h).elim
      rw [bind_ok h1] at h
      rcases orderErase_map n.info.order s1 with h2 | ⟨s2, h2, e2⟩
      · rw [bind_ub h2] at h; exact (After.not_ub h).elim
      rw [bind_ok h2] at h
      rcases h with ⟨_, h⟩ | ⟨_, h⟩ <;> cases h
      show (s2.c.map.filter (fun m => m.addr != n.addr)).length + 1 ≤ _
      rw [e2, e1]
      have : (s.c.map.filter (fun m => m.addr != n.addr)).length < s.c.map.length := by
        refine Nat.lt_of_le_of_ne (List.length_filter_le _ _) fun he => ?_
        have := List.length_filter_eq_length_iff.1 he n hmem
        simp at this
      omega

/-- `_erase(iterator)` saves a search. -/
theorem eraseIt_pays (it : Option Ptr) (s' : St (Cache K V) K V) (h : After ((eraseIt it : CM K V Unit) s).1 s') :
    ((eraseIt it : CM K V Unit) s).2.hash + s'.c.map.length + 1 ≤ s.c.map.length ∧
      ((eraseIt it : CM K V Unit) s).2.nodes + 2 * s'.c.map.length ≤ 2 * s.c.map.length := by
  have h1 := eraseIt_within (K := K) (V := V) (s := s) it
  have h2 : After ((Impl.eraseIt it : Impl.CM K V Unit) s) s' := by rw [← eraseIt_body]; exact h
  have h3 := eraseIt_shrinks h2
  obtain ⟨h4, h5, _⟩ := h1
  have h4 : ((eraseIt it : CM K V Unit) s).2.hash ≤ 0 := h4
  have h5 : ((eraseIt it : CM K V Unit) s).2.nodes ≤ 2 := h5
  omega

/-- A search, and erasing what it found. -/
theorem findErase_pays (k : K) (f : Option (MapNode K V) → CM K V β) {h n : Nat}
    (hf : ∀ x s1, After ((Impl.mapFind k : Impl.CM K V _) s) s1 → ∀ s', After (f x s1).1 s' →
      (f x s1).2.hash + s'.c.map.length + 1 ≤ h + s1.c.map.length ∧
        (f x s1).2.nodes + 2 * s'.c.map.length ≤ n + 2 * s1.c.map.length) : PaysAt (mapFind k >>= f) s h n := by
  intro s' hs
  have h1 : (mapFind k >>= f) s = ((f (s.c.map.find? (fun n => keq n.key k)) s).1,
      ({ hash := 1 } : Bill) + (f (s.c.map.find? (fun n => keq n.key k)) s).2) := rfl
  rw [h1] at hs ⊢
  have := hf _ s (.inl ⟨_, rfl⟩) s' hs
  simp only [Bill.add_hash, Bill.add_nodes]
  omega

theorem eraseLru_pays : PaysAt (eraseLru : CM K V Unit) s 0 0 :=
  .free noGrow_orderFront fun _ _ _ => .free (noGrow_keyOf _) fun k _ _ =>
    findErase_pays k _ fun x s1 _ s' hs => by
      have := eraseIt_pays _ _ hs
      omega

theorem eraseLruWhile_pays (n fuel : Nat) : PaysAt (eraseLruWhile n fuel : CM K V Unit) s 0 0 := by
  induction fuel generalizing s with
  | zero => intro s' hs; rcases hs with ⟨_, h⟩ | ⟨_, h⟩ <;> cases h
  | succ fuel ih =>
    exact .free .read fun _ _ _ => .ite (fun _ => PaysAt.bind (h := 0) (n := 0) eraseLru_pays fun _ _ _ => ih) fun _ => .pure

theorem clear_pays (hs : s.c.order.length ≤ s.c.map.length) : PaysAt (clear : CM K V Unit) s 0 0 := by
  intro s' h
  rcases h with ⟨_, h⟩ | ⟨_, h⟩ <;> cases h
  show 0 + ([] : List (MapNode K V)).length ≤ _ ∧
    (s.c.map.length + s.c.order.length) + 2 * ([] : List (MapNode K V)).length ≤ _
  simp only [List.length_nil]
  omega

theorem shrink_pays (hs : s.c.order.length ≤ s.c.map.length) (n : Nat) : PaysAt (shrink n : CM K V Unit) s 0 0 :=
  .free .read fun _ s' h' => by
    injection h' with _ h'
    subst h'
    exact .ite (fun _ => .pure) fun _ => .ite (fun _ => clear_pays hs) fun _ => eraseLruWhile_pays _ _

theorem setCapacity_pays (n : Nat) : PaysAt (setCapacity n : CM K V Unit) s 0 0 :=
  .free .read fun _ _ _ => PaysAt.bind (h := 0) (n := 0) (h' := 0) (n' := 0) (eraseLruWhile_pays _ _) fun _ _ _ =>
    .freely (noGrow_assignCapacity _)

theorem clearAndIncreaseCapacity_pays (hs : s.c.order.length ≤ s.c.map.length) (n : Nat) :
    PaysAt (clearAndIncreaseCapacity n : CM K V Unit) s 0 0 :=
  PaysAt.bind (h := 0) (n := 0) (h' := 0) (n' := 0) (clear_pays hs) fun _ _ _ => .free noGrow_readCapacity fun _ _ _ =>
    .ite (fun _ => .freely (noGrow_assignCapacity _)) fun _ => .pure

theorem assignRange_pays (hs : s.c.order.length ≤ s.c.map.length) (l : List (K × V)) :
    PaysAt (assignRange O l) s (4 * l.length) (5 * l.length) := by
  have := PaysAt.bind (clearAndIncreaseCapacity_pays hs l.length) fun _ _ _ =>
    PaysAt.bind (h' := 0) (n' := 0) (insertRange_pays (O := O) l) fun _ _ _ => PaysAt.pure (x := ())
  exact this.mono (by omega) (by omega)

theorem assignRangeMove_pays (hs : s.c.order.length ≤ s.c.map.length) (l : List (K × V)) :
    PaysAt (assignRangeMove O l) s (4 * l.length) (5 * l.length) := by
  have := PaysAt.bind (clearAndIncreaseCapacity_pays hs l.length) fun _ _ _ =>
    PaysAt.bind (h' := 0) (n' := 0) (insertRangeMove_pays (O := O) l) fun _ _ _ => PaysAt.pure (x := ())
  exact this.mono (by omega) (by omega)

theorem clearExpiredLoop_pays (c fuel : Nat) : PaysAt (clearExpiredLoop O c fuel : CM K V Nat) s 1 0 := by
  induction fuel generalizing s c with
  | zero => intro s' hs; rcases hs with ⟨_, h⟩ | ⟨_, h⟩ <;> cases h
  | succ fuel ih =>
    refine .free .read fun l s1 _ => ?_
    cases l with
    | none => exact .pure
    | some l =>
      refine .free (noGrow_keyOf l) fun k s2 _ => ?_
      intro s' hs
      -- the search, then either the end, or an element removed
      have h0 : ∀ f : Option (MapNode K V) → CM K V Nat, (mapFind k >>= f) s2 =
          ((f (s2.c.map.find? (fun n => keq n.key k)) s2).1,
            ({ hash := 1 } : Bill) + (f (s2.c.map.find? (fun n => keq n.key k)) s2).2) := fun f => rfl
      rw [h0] at hs ⊢
      cases hx : s2.c.map.find? (fun n => keq n.key k) with
      | none => rw [hx] at hs; rcases hs with ⟨_, h⟩ | ⟨_, h⟩ <;> cases h
      | some n =>
        rw [hx] at hs
        simp only [Bill.add_hash, Bill.add_nodes] at hs ⊢
        have hrest : PaysAt (Metered.free (Impl.hasExpiredInfo O n.info.time) >>= fun b =>
            if b = true then eraseIt (some n.addr) >>= fun _ => clearExpiredLoop O (c + 1) fuel else Pure.pure c : CM K V Nat)
            s2 0 0 := by
          refine .free (noGrow_hasExpiredInfo _) fun b s3 _ => .ite (fun _ => ?_) fun _ => .pure
          intro s4 h4
          have h4 : After (Metered.bind (eraseIt (some n.addr)) (fun _ => clearExpiredLoop O (c + 1) fuel) s3).1 s4 := h4
          show (Metered.bind (eraseIt (some n.addr)) (fun _ => clearExpiredLoop O (c + 1) fuel) s3).2.hash + _ ≤ _ ∧
            (Metered.bind (eraseIt (some n.addr)) (fun _ => clearExpiredLoop O (c + 1) fuel) s3).2.nodes + _ ≤ _
          unfold Metered.bind at h4 ⊢
          rcases he : (eraseIt (some n.addr) : CM K V Unit) s3 with ⟨o, b⟩
          have hp := fun s' h => eraseIt_pays (s := s3) (some n.addr) s' h
          rw [he] at h4 hp
          cases o with
          | ok a s5 =>
            have h5 := hp s5 (.inl ⟨a, rfl⟩)
            have h6 := ih (s := s5) (c + 1) s4 h4
            simp only [Bill.add_hash, Bill.add_nodes] at h5 h6 ⊢
            omega
          | throw e s5 =>
            have h5 := hp s4 (by rcases h4 with ⟨_, h⟩ | ⟨_, h⟩ <;> cases h; exact .inr ⟨_, rfl⟩)
            simp only at h5 ⊢
            omega
          | ub => rcases h4 with ⟨_, h⟩ | ⟨_, h⟩ <;> cases h
          | terminate => rcases h4 with ⟨_, h⟩ | ⟨_, h⟩ <;> cases h
          | diverge => rcases h4 with ⟨_, h⟩ | ⟨_, h⟩ <;> cases h
        have h7 := hrest s' hs
        constructor
        · have := h7.1; omega
        · have := h7.2; omega

theorem clearExpired_pays : PaysAt (clearExpired O : CM K V Nat) s 1 0 :=
  .free (.bind .read fun _ => .pure) fun _ _ _ => .ite (fun _ => .pure) fun _ => .free .read fun _ _ _ => clearExpiredLoop_pays _ _

theorem find_pays (k : K) : PaysAt (find O k : CM K V (Option Ptr)) s 1 1 := by
  refine .free .read fun o _ _ => PaysAt.bind (h := 1) (n := 0) (h' := 0) (n' := 1) (mapFind_pays k) fun x _ _ => ?_
  have hmiss : ∀ s', PaysAt (registerMiss O o k >>= fun _ => Pure.pure none : CM K V (Option Ptr)) s' 0 1 := fun s' =>
    PaysAt.bind (h := 0) (n := 0) (h' := 0) (n' := 1)
      (PaysAt.charge (p := fun _ => { watch := _ }) (noGrow_registerMiss o k)) fun _ _ _ => .pure
  cases x with
  | none => exact hmiss _
  | some n =>
    refine .free (noGrow_hasExpiredInfo _) fun b _ _ => .ite (fun _ => hmiss _) fun _ => ?_
    exact PaysAt.bind (h := 0) (n := 0) (h' := 0) (n' := 1)
      (PaysAt.charge (p := fun _ => { watch := _ }) (noGrow_registerHit o k _)) fun _ _ _ =>
        PaysAt.bind (h := 0) (n := 1) (h' := 0) (n' := 0) (moveToFront_pays _) fun _ _ _ =>
          .free (.set fun _ => Nat.le_refl _) fun _ _ _ => .pure

theorem registerHit_pays (o : Obs) (k : K) (v : V) {h n : Nat} : PaysAt (registerHit O o k v) s h n :=
  (PaysAt.charge (p := fun _ => { watch := _ }) (noGrow_registerHit o k v)).mono (Nat.zero_le _) (Nat.zero_le _)

theorem contains_pays (k : K) : PaysAt (contains O k : CM K V Bool) s 1 1 := by
  refine .free .read fun o _ _ => .free (noGrow_lastIs k) fun b _ _ => .ite (fun _ => ?_) fun _ => ?_
  · exact .free noGrow_lastAccessedIsOk fun b _ _ => .ite (fun _ => .free noGrow_lastNode fun _ _ _ =>
      PaysAt.bind (h := 0) (n := 0) (h' := 1) (n' := 1) (registerHit_pays _ _ _) fun _ _ _ => .pure) fun _ => .pure
  · exact PaysAt.bind (h' := 0) (n' := 0) (find_pays k) fun _ _ _ => .pure

theorem lookup_pays (k : K) : PaysAt (lookup O k : CM K V (Ptr × V)) s 1 1 := by
  refine .free .read fun o _ _ => .free (noGrow_lastIs k) fun b _ _ => .ite (fun _ => ?_) fun _ => ?_
  · exact .free noGrow_valueForLastAccessed fun _ _ _ =>
      PaysAt.bind (h := 0) (n := 0) (h' := 1) (n' := 1) (registerHit_pays _ _ _) fun _ _ _ => .pure
  · refine PaysAt.bind (h' := 0) (n' := 0) (find_pays k) fun x _ _ => ?_
    cases x with
    | none => exact .freely .throw
    | some p => exact .free (noGrow_entryU _) fun _ _ _ => .pure

theorem erase_pays (k : K) : PaysAt (erase k : CM K V Bool) s 1 2 := by
  refine .free (noGrow_lastIs k) fun b _ _ => .ite (fun _ => ?_) fun _ => ?_
  · refine .free noGrow_lastNode fun n _ _ => PaysAt.bind (h := 1) (n := 2) (h' := 0) (n' := 0) ?_ fun _ _ _ => .pure
    exact .free (noGrow_invalidateIf _) fun _ _ _ => PaysAt.bind (h := 0) (n := 1) (h' := 1) (n' := 1)
      (PaysAt.charge (p := fun _ => { nodes := 1 }) (noGrow_orderErase _)) fun _ _ _ =>
        PaysAt.charge (p := fun _ => ⟨1, 1, 0⟩) (noGrow_mapEraseKey _)
  · refine PaysAt.bind (h := 1) (n := 0) (h' := 0) (n' := 2) (mapFind_pays k) fun x _ _ => ?_
    cases x with
    | none => exact .pure
    | some n =>
      refine PaysAt.bind (h := 0) (n := 2) (h' := 0) (n' := 0) ?_ fun _ _ _ => .pure
      intro s' hs
      have := eraseIt_pays _ _ hs
      omega

theorem eraseU_pays (it : Option Ptr) : PaysAt (eraseU it : CM K V Unit) s 0 0 := by
  cases it with
  | none => exact .freely .throw
  | some p =>
    show PaysAt (eraseIt (some p)) s 0 0
    intro s' hs
    have := eraseIt_pays (some p) s' hs
    omega

theorem hasExpired_pays (k : K) : PaysAt (hasExpired O k : CM K V Bool) s 1 0 := by
  refine PaysAt.bind (h' := 0) (n' := 0) (mapFind_pays k) fun x _ _ => ?_
  cases x with
  | none => exact .pure
  | some n => exact .freely (noGrow_hasExpiredInfo _)

theorem allExpired_pays : PaysAt (allExpired O : CM K V Bool) s 1 0 := by
  refine .free (.bind .read fun _ => .pure) fun b _ _ => .ite (fun _ => .pure) fun _ => .free noGrow_orderBack fun _ _ _ =>
    .free (noGrow_keyOf _) fun k _ _ => PaysAt.bind (h' := 0) (n' := 0) (mapFind_pays k) fun x _ _ => ?_
  cases x with
  | none => exact .freely .ub
  | some n => exact .freely (noGrow_hasExpiredInfo _)

theorem noGrow_keyAt (pos : Option Ptr) : NoGrow (Impl.keyAt pos : Impl.CM K V K) := by
  cases pos with
  | none => exact .ub
  | some p => exact (noGrow_derefOrder p).bind fun _ => noGrow_keyOf _

theorem oLookup_pays (pos : Option Ptr) : PaysAt (oLookup pos : CM K V Ptr) s 1 0 := by
  refine .free (noGrow_keyAt _) fun k _ _ => PaysAt.bind (h' := 0) (n' := 0) (mapFind_pays k) fun x _ _ => ?_
  cases x with
  | none => exact .freely .ub
  | some n => exact .pure

theorem hasExpiredO_pays (pos : Option Ptr) : PaysAt (hasExpiredO O pos : CM K V Bool) s 2 0 := by
  cases pos with
  | none => exact .pure
  | some p =>
    refine PaysAt.bind (h := 1) (n := 0) (h' := 1) (n' := 0) (oLookup_pays _) fun _ _ _ => .free (noGrow_derefIt _) fun _ _ _ => ?_
    refine PaysAt.bind (h' := 0) (n' := 0) (mapFind_pays _) fun x _ _ => ?_
    cases x with
    | none => exact .freely .ub
    | some n => exact .freely (noGrow_hasExpiredInfo _)

theorem isValidO_pays (pos : Option Ptr) : PaysAt (isValidO O pos : CM K V Bool) s 2 0 := by
  cases pos with
  | none => exact .pure
  | some p =>
    refine .free .read fun kind _ _ => ?_
    cases kind with
    | basic => exact .pure
    | timed => exact PaysAt.bind (h' := 0) (n' := 0) (hasExpiredO_pays _) fun _ _ _ => .pure

theorem throwIfInvalidO_pays (pos : Option Ptr) : PaysAt (throwIfInvalidO O pos : CM K V Unit) s 2 0 := by
  cases pos with
  | none => exact .freely .throw
  | some p =>
    refine .free .read fun kind _ _ => ?_
    cases kind with
    | basic => exact .pure
    | timed =>
      exact PaysAt.bind (h' := 0) (n' := 0) (hasExpiredO_pays _) fun _ _ _ => .ite (fun _ => .freely .throw) fun _ => .pure

theorem oKey_pays (it : Impl.OIt) : PaysAt (oKey O it : CM K V K) s 2 0 :=
  PaysAt.bind (h' := 0) (n' := 0) (throwIfInvalidO_pays _) fun _ _ _ => .freely (noGrow_keyAt _)

theorem oDeref_pays (it : Impl.OIt) : PaysAt (oDeref it : CM K V Impl.OIt) s 1 0 := by
  unfold oDeref
  cases it.entry with
  | some _ => exact .pure
  | none => exact PaysAt.bind (h' := 0) (n' := 0) (oLookup_pays _) fun _ _ _ => .pure

theorem oValue_pays (it : Impl.OIt) : PaysAt (oValue O it : CM K V V) s 3 0 :=
  PaysAt.bind (h' := 0) (n' := 0) (PaysAt.bind (h := 2) (n := 0) (throwIfInvalidO_pays _) fun _ _ _ => oDeref_pays _)
    fun _ _ _ => .free (noGrow_derefIt _) fun _ _ _ => .pure

theorem eraseO_pays (it : Impl.OIt) : PaysAt (eraseO O it : CM K V Unit) s 2 0 := by
  unfold eraseO
  cases it.pos with
  | none => exact .freely .throw
  | some p =>
    exact PaysAt.bind (h := 2) (n := 0) (h' := 0) (n' := 0) (oKey_pays _) fun k _ _ =>
      findErase_pays k _ fun x s1 _ s' hs => by
        have := eraseIt_pays _ _ hs
        omega

end Cost

end LRU
