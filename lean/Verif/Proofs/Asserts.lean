import Verif.Model.Asserts
/-! # Lemmas: the functions with assertions do what the functions without them do -/

set_option autoImplicit false
set_option linter.unusedSectionVars false

namespace LRU.Impl.Debug

variable {K V : Type} [KeyEqual K] [DecidableEq K] (O : Oracle K V) (A : CM K V Unit)

theorem assert_true {α : Type} (b : Bool) (h : b = true) (f : Unit → CM K V α) : (assert A b >>= f) = f () := by
  subst h; rfl

theorem bind_assoc' {σ α β γ : Type} (m : M σ α) (f : α → M σ β) (g : β → M σ γ) :
    ((m >>= f) >>= g) = (m >>= fun a => f a >>= g) := by
  funext s
  show M.bind (M.bind m f) g s = M.bind m _ s
  unfold M.bind
  cases m s <;> rfl

theorem lastNode_of_some (s : St (Cache K V) K V) (h : s.c.last.isSome = true) : lastNode A s = Impl.lastNode s := by
  show (assert A s.c.last.isSome >>= fun _ => match s.c.last with | none => M.ub | some p => deref p) s =
    (match s.c.last with | none => M.ub | some p => deref p : CM K V (MapNode K V)) s
  rw [assert_true A _ h]

theorem lastIs_eq (k : K) : lastIs A k = (Impl.lastIs k : CM K V Bool) := by
  funext s
  show (if s.c.last.isSome = true then (lastNode A >>= fun n => pure (keq k n.key)) else pure false : CM K V Bool) s =
    (match s.c.last with | none => pure false | some p => deref p >>= fun n => pure (keq k n.key) : CM K V Bool) s
  cases h : s.c.last with
  | none => rfl
  | some p =>
    show (M.bind (lastNode A) _) s = _
    unfold M.bind
    rw [lastNode_of_some A s (by rw [h]; rfl)]
    have e : (Impl.lastNode : CM K V (MapNode K V)) s = deref p s := by
      show (match s.c.last with | none => M.ub | some p => deref p : CM K V (MapNode K V)) s = _
      rw [h]
    rw [e]
    rfl

/-- If `lastIs` answers yes, there is a last accessed element and the state is the same. -/
theorem lastIs_ok (k : K) (s s' : St (Cache K V) K V) (b : Bool) (h : Impl.lastIs k s = .ok b s') :
    s' = s ∧ (b = true → s.c.last.isSome = true) := by
  change (match s.c.last with | none => pure false | some p => deref p >>= fun n => pure (keq k n.key) : CM K V Bool) s = _ at h
  cases hl : s.c.last with
  | none => rw [hl] at h; cases h; exact ⟨rfl, fun h => nomatch h⟩
  | some p =>
    rw [hl] at h
    refine ⟨?_, fun _ => rfl⟩
    change (M.bind (deref p) _) s = _ at h
    unfold M.bind deref at h
    split at h
    · rename_i heq
      split at heq
      · cases heq; cases h; rfl
      · split at heq
        · cases heq; cases h; rfl
        · cases heq
    all_goals cases h

theorem hasExpiredInfo_ok (t : Int) (s s' : St (Cache K V) K V) (b : Bool) (h : hasExpiredInfo O t s = .ok b s') :
    s'.c = s.c := by
  change (match s.c.kind with | .basic => pure false | .timed .. => now O >>= fun n => pure (s.c.kind.expired t n) : CM K V Bool) s = _ at h
  cases hk : s.c.kind <;> rw [hk] at h <;> cases h <;> rfl

theorem lastNode_ok (s s' : St (Cache K V) K V) (n : MapNode K V) (h : Impl.lastNode s = .ok n s') : s' = s := by
  change (match s.c.last with | none => M.ub | some p => deref p : CM K V (MapNode K V)) s = _ at h
  cases hl : s.c.last with
  | none => rw [hl] at h; cases h
  | some p =>
    rw [hl] at h
    change deref p s = _ at h
    unfold deref at h
    split at h
    · cases h; rfl
    · split at h
      · cases h; rfl
      · cases h

/-- Two bodies that agree after every outcome of `m` agree. -/
theorem bind_congr_ok {σ α β : Type} (m : M σ α) (f g : α → M σ β) (s : σ)
    (h : ∀ a s', m s = .ok a s' → f a s' = g a s') : (m >>= f) s = (m >>= g) s := by
  show M.bind m f s = M.bind m g s
  unfold M.bind
  cases hm : m s with
  | ok a s' => exact h a s' hm
  | _ => rfl

theorem lastAccessedIsOk_of_some (s : St (Cache K V) K V) (h : s.c.last.isSome = true) :
    lastAccessedIsOk O A s = Impl.lastAccessedIsOk O s := by
  refine bind_congr_ok _ _ _ s fun k s' hs => ?_
  cases hs
  cases hk : s.c.kind with
  | basic => rfl
  | timed a b =>
    show (M.bind (lastNode A) _) s = (M.bind Impl.lastNode _) s
    unfold M.bind
    rw [lastNode_of_some A s h]

theorem valueForLastAccessed_of_some (s : St (Cache K V) K V) (h : s.c.last.isSome = true) :
    valueForLastAccessed O A s = Impl.valueForLastAccessed O s := by
  show (M.bind (lastNode A) _) s = (M.bind Impl.lastNode _) s
  unfold M.bind
  rw [lastNode_of_some A s h]
  rfl

theorem lastAccessedIsOk_ok (s s' : St (Cache K V) K V) (b : Bool) (h : Impl.lastAccessedIsOk O s = .ok b s') : s'.c = s.c := by
  change (match s.c.kind with
    | .basic => pure true
    | .timed .. => Impl.lastNode >>= fun n => hasExpiredInfo O n.info.time >>= fun e => pure (!e) : CM K V Bool) s = _ at h
  cases hk : s.c.kind with
  | basic => rw [hk] at h; cases h; rfl
  | timed a b =>
    rw [hk] at h
    change (M.bind Impl.lastNode _) s = _ at h
    unfold M.bind at h
    split at h <;> try cases h
    rename_i n s1 h1
    have e1 := lastNode_ok s s1 n h1
    subst e1
    change (M.bind (hasExpiredInfo O n.info.time) _) s1 = _ at h
    unfold M.bind at h
    split at h <;> try cases h
    rename_i h2
    exact hasExpiredInfo_ok O _ _ _ _ h2

theorem registerHit_eq (o : Obs) (k : K) (v : V) : registerHit O A o k v = (LRU.registerHit O o k v : CM K V Unit) := by
  unfold registerHit LRU.registerHit
  cases h : o.stats with
  | none => simp only [LRU.countHit, h]; rfl
  | some i => simp only [countHit, LRU.countHit, h]; rfl

theorem registerMiss_eq (o : Obs) (k : K) : registerMiss O A o k = (LRU.registerMiss O o k : CM K V Unit) := by
  unfold registerMiss LRU.registerMiss
  cases h : o.stats with
  | none => simp only [LRU.countMiss, h]; rfl
  | some i => simp only [countMiss, LRU.countMiss, h]; rfl

theorem stats_eq : stats A = (Impl.stats : CM K V Nat) := by
  funext s
  refine bind_congr_ok _ _ _ s fun o s' hs => ?_
  cases h : o.stats with
  | none => simp
  | some i => simp only; rfl

theorem find_eq (k : K) : find O A k = Impl.find O k := by
  unfold find Impl.find
  simp only [registerHit_eq, registerMiss_eq]
  rfl

theorem contains_eq (k : K) : contains O A k = Impl.contains O k := by
  funext s
  refine bind_congr_ok _ _ _ s fun o s' hs => ?_
  cases hs
  rw [lastIs_eq]
  refine bind_congr_ok _ _ _ s fun b s' hs => ?_
  obtain ⟨e, hsome⟩ := lastIs_ok k s s' b hs
  subst e
  cases b with
  | false => simp only [find_eq]; rfl
  | true =>
    have hs' := hsome rfl
    show (M.bind (lastAccessedIsOk O A) _) s' = (M.bind (Impl.lastAccessedIsOk O) _) s'
    unfold M.bind
    rw [lastAccessedIsOk_of_some O A s' hs']
    cases hc : Impl.lastAccessedIsOk O s' with
    | ok b s2 =>
      have hc' := lastAccessedIsOk_ok O s' s2 b hc
      cases b with
      | false => rfl
      | true =>
        show (M.bind (lastNode A) _) s2 = (M.bind Impl.lastNode _) s2
        unfold M.bind
        rw [lastNode_of_some A s2 (by rw [hc']; exact hs')]
        simp only [registerHit_eq]
    | _ => rfl

theorem hasExpiredU_eq (it : Option Ptr) : hasExpiredU O A it = Impl.hasExpiredU O it := by
  cases it <;> rfl

/-- A node reached through an address of the map is found under its own key. -/
theorem derefIt_found (it : Option Ptr) (s s' : St (Cache K V) K V) (n : MapNode K V) (h : derefIt it s = .ok n s') :
    s' = s ∧ (s.c.map.find? (fun m => keq m.key n.key)).isSome = true := by
  cases it with
  | none => cases h
  | some p =>
    change (match s.c.map.find? (fun n => n.addr == p) with | some n => Out.ok n s | none => Out.ub) = _ at h
    split at h
    · rename_i m hm
      cases h
      refine ⟨rfl, ?_⟩
      rw [List.find?_isSome]
      exact ⟨n, List.mem_of_find?_eq_some hm, KeyEqual.refl n.key⟩
    · cases h

theorem hasExpiredO_eq (pos : Option Ptr) : hasExpiredO O A pos = Impl.hasExpiredO O pos := by
  cases pos with
  | none => rfl
  | some p =>
    funext s
    show (oLookup (some p) >>= _) s = (oLookup (some p) >>= _) s
    refine bind_congr_ok _ _ _ s fun q s1 _ => ?_
    refine bind_congr_ok _ _ _ s1 fun n s2 h2 => ?_
    obtain ⟨e, hf⟩ := derefIt_found _ s1 s2 n h2
    subst e
    refine bind_congr_ok _ _ _ s2 fun it s3 h3 => ?_
    cases h3
    rw [assert_true A _ hf]
    rfl

theorem throwIfInvalidU_eq (it : Option Ptr) : throwIfInvalidU O A it = Impl.throwIfInvalidU O it := by
  cases it with
  | none => rfl
  | some p =>
    funext s
    show (getKind >>= _) s = (getKind >>= _) s
    refine bind_congr_ok _ _ _ s fun k s' hs => ?_
    cases k with
    | basic => rfl
    | timed a b =>
      show ((hasExpiredU O A (some p)) >>= _) s' = (derefIt (some p) >>= _) s'
      rw [hasExpiredU_eq]
      show ((derefIt (some p) >>= fun n => hasExpiredInfo O n.info.time) >>= _) s' = _
      rw [bind_assoc']

theorem throwIfInvalidO_eq (it : Option Ptr) : throwIfInvalidO O A it = Impl.throwIfInvalidO O it := by
  cases it with
  | none => rfl
  | some p => unfold throwIfInvalidO Impl.throwIfInvalidO; simp only [hasExpiredO_eq]; rfl

theorem isValidU_eq (it : Option Ptr) : isValidU O A it = Impl.isValidU O it := by
  cases it with
  | none => rfl
  | some p => unfold isValidU Impl.isValidU; simp only [hasExpiredU_eq]; rfl

theorem isValidO_eq (it : Option Ptr) : isValidO O A it = Impl.isValidO O it := by
  cases it with
  | none => rfl
  | some p => unfold isValidO Impl.isValidO; simp only [hasExpiredO_eq]; rfl

theorem entryU_eq (it : Option Ptr) : entryU O A it = Impl.entryU O it := by
  unfold entryU Impl.entryU; simp only [throwIfInvalidU_eq]

theorem lookup_eq (k : K) : lookup O A k = Impl.lookup O k := by
  funext s
  refine bind_congr_ok _ _ _ s fun o s' hs => ?_
  cases hs
  rw [lastIs_eq]
  refine bind_congr_ok _ _ _ s fun b s' hs => ?_
  obtain ⟨e, hsome⟩ := lastIs_ok k s s' b hs
  subst e
  cases b with
  | false => simp only [find_eq, entryU_eq]; rfl
  | true =>
    have hs' := hsome rfl
    show (M.bind (valueForLastAccessed O A) _) s' = (M.bind (Impl.valueForLastAccessed O) _) s'
    unfold M.bind
    rw [valueForLastAccessed_of_some O A s' hs']
    simp only [registerHit_eq]

/-! ### Insertion -/

theorem attempt_ok (x : Site) (s s' : St (Cache K V) K V) (u : Unit) (h : attempt O x s = .ok u s') : s'.c = s.c := by
  simp only [attempt] at h
  split at h
  · cases h
  · cases h; rfl

theorem insertionTime_ok (s s' : St (Cache K V) K V) (t : Int) (h : insertionTime O s = .ok t s') : s'.c = s.c := by
  change (match s.c.kind with | .basic => pure 0 | .timed .. => now O : CM K V Int) s = _ at h
  cases hk : s.c.kind <;> rw [hk] at h <;> cases h <;> rfl

/-- Emplacing a key that is not in the map adds a node. -/
theorem mapEmplace_new (k : K) (v : V) (t : Int) (s : St (Cache K V) K V)
    (h : s.c.map.find? (fun n => keq n.key k) = none) :
    mapEmplace O k v t s = (Impl.mapEmplace O k v t >>= fun p => pure (p, true)) s := by
  have e : (Impl.mapEmplace O k v t >>= fun p => pure (p, true)) =
      (attempt O .mapNode >>= fun _ => alloc >>= fun p =>
        setSelf (fun c : Cache K V => { c with map := O.shuffle p ({ addr := p, key := k, info := ⟨v, none, t⟩ } :: c.map) }) >>=
        fun _ => pure (p, true) : CM K V (Ptr × Bool)) := by
    funext s
    show M.bind (M.bind (attempt O .mapNode) _) _ s = M.bind (attempt O .mapNode) _ s
    unfold M.bind
    cases attempt O .mapNode s <;> rfl
  rw [e]
  refine bind_congr_ok _ _ _ s fun u s1 h1 => ?_
  refine bind_congr_ok _ _ _ s1 fun p s2 h2 => ?_
  have hc : s2.c = s.c := by
    have e2 : s2.c = s1.c := by cases h2; rfl
    exact e2.trans (attempt_ok O _ _ _ _ h1)
  show (match s2.c.map.find? (fun n => keq n.key k) with
    | some n => pure (n.addr, false)
    | none => setSelf (fun c : Cache K V => { c with map := O.shuffle p ({ addr := p, key := k, info := ⟨v, none, t⟩ } :: c.map) }) >>=
      fun _ => pure (p, true) : CM K V (Ptr × Bool)) s2 = _
  rw [hc, h]

theorem pure_bind' {σ α β : Type} (a : α) (f : α → M σ β) : (pure a >>= f : M σ β) = f a := rfl

theorem insert_eq (k : K) (v : V) : insert O A k v = Impl.insert O k v := by
  funext s
  refine bind_congr_ok _ _ _ s fun cap s' hs => ?_
  by_cases hz : cap = 0
  · simp only [hz, if_true]
  · simp only [hz, if_false]
    refine bind_congr_ok _ _ _ s' fun it s1 h1 => ?_
    cases h1
    cases hf : s'.c.map.find? (fun n => keq n.key k) with
    | some n => rfl
    | none =>
      refine bind_congr_ok _ _ _ s' fun t s2 h2 => ?_
      refine bind_congr_ok _ _ _ s2 fun u s3 h3 => ?_
      have hc : s3.c = s'.c := (attempt_ok O _ _ _ _ h3).trans (insertionTime_ok O _ _ _ h2)
      have e := mapEmplace_new O k v t s3 (by rw [hc]; exact hf)
      have : ∀ f : Ptr × Bool → CM K V (Bool × Option Ptr),
          (mapEmplace O k v t >>= f) s3 = (Impl.mapEmplace O k v t >>= fun p => f (p, true)) s3 := by
        intro f
        have e2 : (mapEmplace O k v t >>= f) s3 = ((Impl.mapEmplace O k v t >>= fun p => pure (p, true)) >>= f) s3 := by
          show M.bind _ f s3 = M.bind _ f s3
          unfold M.bind
          rw [e]
        rw [e2, bind_assoc']; rfl
      rw [this]
      unfold insertNode
      simp only [bind_assoc']
      rfl

theorem emplace_eq (k : K) (v : V) : emplace O A k v = Impl.emplace O k v := by
  funext s
  refine bind_congr_ok _ _ _ s fun cap s' hs => ?_
  by_cases hz : cap = 0
  · simp only [hz, if_true]
  · simp only [hz, if_false]
    refine bind_congr_ok _ _ _ s' fun u s0 h0 => ?_
    refine bind_congr_ok _ _ _ s0 fun it s1 h1 => ?_
    cases h1
    cases hf : s0.c.map.find? (fun n => keq n.key k) with
    | some n => rfl
    | none =>
      refine bind_congr_ok _ _ _ s0 fun u s2 h2 => ?_
      refine bind_congr_ok _ _ _ s2 fun t s3 h3 => ?_
      have hc : s3.c = s0.c := (insertionTime_ok O _ _ _ h3).trans (attempt_ok O _ _ _ _ h2)
      have e := mapEmplace_new O k v t s3 (by rw [hc]; exact hf)
      have : ∀ f : Ptr × Bool → CM K V (Bool × Option Ptr),
          (mapEmplace O k v t >>= f) s3 = (Impl.mapEmplace O k v t >>= fun p => f (p, true)) s3 := by
        intro f
        have e2 : (mapEmplace O k v t >>= f) s3 = ((Impl.mapEmplace O k v t >>= fun p => pure (p, true)) >>= f) s3 := by
          show M.bind _ f s3 = M.bind _ f s3
          unfold M.bind
          rw [e]
        rw [e2, bind_assoc']; rfl
      rw [this]
      unfold insertNode
      simp only [bind_assoc']
      rfl

theorem insertRange_eq (l : List (K × V)) : insertRange O A l = Impl.insertRange O l := by
  induction l with
  | nil => rfl
  | cons x r ih => unfold insertRange Impl.insertRange; simp only [insert_eq, ih]

theorem insertRangeMove_eq (l : List (K × V)) : insertRangeMove O A l = Impl.insertRangeMove O l := by
  induction l with
  | nil => rfl
  | cons x r ih => unfold insertRangeMove Impl.insertRangeMove; simp only [emplace_eq, ih]

/-! ### Erasure -/

theorem invalidateIf_eq (k : K) : invalidateIf A k = (Impl.invalidateIf k : CM K V Unit) := by
  unfold invalidateIf Impl.invalidateIf; simp only [lastIs_eq]

theorem eraseIt_eq (it : Option Ptr) : eraseIt A it = (Impl.eraseIt it : CM K V Unit) := by
  unfold eraseIt Impl.eraseIt; simp only [invalidateIf_eq]

theorem eraseKeyInfo_eq (n : MapNode K V) : eraseKeyInfo A n = (Impl.eraseKeyInfo n : CM K V Unit) := by
  unfold eraseKeyInfo Impl.eraseKeyInfo; simp only [invalidateIf_eq]

theorem erase_eq (k : K) : erase A k = (Impl.erase k : CM K V Bool) := by
  funext s
  unfold erase Impl.erase
  rw [lastIs_eq]
  refine bind_congr_ok _ _ _ s fun b s' hs => ?_
  obtain ⟨e, hsome⟩ := lastIs_ok k s s' b hs
  subst e
  cases b with
  | false => simp only [eraseIt_eq]; rfl
  | true =>
    show (M.bind (lastNode A) _) s' = (M.bind Impl.lastNode _) s'
    unfold M.bind
    rw [lastNode_of_some A s' (hsome rfl)]
    simp only [eraseKeyInfo_eq]

theorem eraseU_eq (it : Option Ptr) : eraseU A it = (Impl.eraseU it : CM K V Unit) := by
  cases it with
  | none => rfl
  | some p => exact eraseIt_eq A _

theorem eraseLru_eq : eraseLru A = (Impl.eraseLru : CM K V Unit) := by
  unfold eraseLru Impl.eraseLru; simp only [eraseIt_eq]

theorem eraseLruWhile_eq (n fuel : Nat) : eraseLruWhile A n fuel = (Impl.eraseLruWhile n fuel : CM K V Unit) := by
  induction fuel with
  | zero => rfl
  | succ m ih => unfold eraseLruWhile Impl.eraseLruWhile; simp only [eraseLru_eq, ih]

theorem shrink_eq (n : Nat) : shrink A n = (Impl.shrink n : CM K V Unit) := by
  unfold shrink Impl.shrink; simp only [eraseLruWhile_eq]

theorem setCapacity_eq (n : Nat) : setCapacity A n = (Impl.setCapacity n : CM K V Unit) := by
  unfold setCapacity Impl.setCapacity; simp only [eraseLruWhile_eq]

theorem clearExpiredLoop_eq (fuel : Nat) : ∀ count, clearExpiredLoop O A count fuel = Impl.clearExpiredLoop O count fuel := by
  induction fuel with
  | zero => intro _; rfl
  | succ m ih => intro count; unfold clearExpiredLoop Impl.clearExpiredLoop; simp only [eraseIt_eq, ih]; rfl

theorem clearExpired_eq : clearExpired O A = Impl.clearExpired O := by
  unfold clearExpired Impl.clearExpired; simp only [clearExpiredLoop_eq]

/-! ### Iterators -/

theorem uEntry_eq (it : UIt) : uEntry O A it = Impl.uEntry O it := by
  unfold uEntry Impl.uEntry; simp only [throwIfInvalidU_eq]

theorem uKey_eq (it : UIt) : uKey O A it = Impl.uKey O it := by
  unfold uKey Impl.uKey; simp only [uEntry_eq]

theorem uValue_eq (it : UIt) : uValue O A it = Impl.uValue O it := by
  unfold uValue Impl.uValue; simp only [uEntry_eq]

theorem oEntry_eq (it : OIt) : oEntry O A it = Impl.oEntry O it := by
  unfold oEntry Impl.oEntry; simp only [throwIfInvalidO_eq]

theorem oKey_eq (it : OIt) : oKey O A it = Impl.oKey O it := by
  unfold oKey Impl.oKey; simp only [throwIfInvalidO_eq]

theorem oValue_eq (it : OIt) : oValue O A it = Impl.oValue O it := by
  unfold oValue Impl.oValue; simp only [oEntry_eq]

theorem eraseO_eq (it : OIt) : eraseO O A it = Impl.eraseO O it := by
  unfold eraseO Impl.eraseO; simp only [oKey_eq, eraseIt_eq]; rfl

theorem step_eq (op : Op K V) : step O A op = Impl.step O op := by
  cases op <;>
    simp only [step, Impl.step, contains_eq, find_eq, lookup_eq, insert_eq, emplace_eq, insertRange_eq, insertRangeMove_eq,
      assignRange, Impl.assignRange, assignRangeMove, Impl.assignRangeMove, erase_eq, eraseU_eq, eraseO_eq, shrink_eq, setCapacity_eq,
      clearExpired_eq, hasExpiredU_eq, hasExpiredO_eq, isValidU_eq, isValidO_eq, uKey_eq, uValue_eq, oKey_eq, oValue_eq, stats_eq]

theorem ctorBody_eq (c : Ctor K V) : ctorBody O A c = Impl.ctorBody O c := by
  cases c <;> simp only [ctorBody, Impl.ctorBody, insertRange_eq, insertRangeMove_eq]

theorem create_eq (kind : Kind) (c : Ctor K V) : create O A kind c = Impl.create O kind c := by
  unfold create Impl.create; simp only [ctorBody_eq]; rfl

theorem wstep_eq [DecidableEq V] (op : WOp K V) : wstep O A op = Impl.wstep O op := by
  cases op <;> simp only [wstep, Impl.wstep, step_eq, create_eq]

end LRU.Impl.Debug
