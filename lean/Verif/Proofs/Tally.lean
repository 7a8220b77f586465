import Verif.Proofs.Silent
import Verif.Proofs.Record
/-!
# What an access registers

Like `Proofs.Silent`, directly on the model and without assumptions about the state: each access on a plain cache is
registered exactly once, even on a damaged cache, as long as it does not run into undefined behaviour.
-/

set_option linter.unusedSectionVars false
set_option autoImplicit false

namespace LRU

variable {K V : Type} [KeyEqual K] [DecidableEq K] {α β : Type}

/-- The callbacks of an access: a hit on a value, or a miss. -/
def accessEvents (o : Obs) (k : K) : Option V → List (Event K V)
  | some v => hitEvents o k v
  | none => missEvents o k

/-- One access was registered and nothing else of this kind happened. -/
structure Tally (s s' : St (Cache K V) K V) (k : K) (hit : Bool) (evs : List (Event K V)) : Prop where
  recorded : Recorded s s' k hit evs
  nextStat : s'.g.nextStat = s.g.nextStat
  ext : s'.g.ext = s.g.ext
  next : s.g.next ≤ s'.g.next
  ticks : s.g.ticks ≤ s'.g.ticks
  obs : s'.c.obs = s.c.obs
  kind : s'.c.kind = s.c.kind

section compose

variable {s s' s'' : St (Cache K V) K V} {k : K} {hit : Bool} {evs : List (Event K V)}

theorem Tally.silent (h : Tally s s' k hit evs) (h' : Silent s' s'') : Tally s s'' k hit evs where
  recorded := {
    log := by rw [h'.log, h.recorded.log]
    counted := by rw [h'.stats]; exact h.recorded.counted
    others := by rw [h'.stats]; exact h.recorded.others }
  nextStat := h'.nextStat.trans h.nextStat
  ext := h'.ext.trans h.ext
  next := Nat.le_trans h.next h'.next
  ticks := Nat.le_trans h.ticks h'.ticks
  obs := h'.obs.trans h.obs
  kind := h'.kind.trans h.kind

theorem Silent.tally (h' : Silent s s') (h : Tally s' s'' k hit evs) : Tally s s'' k hit evs where
  recorded := {
    log := by rw [h.recorded.log, h'.log]
    counted := by rw [← h'.stats, ← h'.obs]; exact h.recorded.counted
    others := by rw [← h'.stats, ← h'.obs]; exact h.recorded.others }
  nextStat := h.nextStat.trans h'.nextStat
  ext := h.ext.trans h'.ext
  next := Nat.le_trans h'.next h.next
  ticks := Nat.le_trans h'.ticks h.ticks
  obs := h.obs.trans h'.obs
  kind := h.kind.trans h'.kind

end compose

/-- The function registers one access, which is a hit iff the result says so. -/
def Told (s : St (Cache K V) K V) (k : K) (hit : α → Bool) : Out (St (Cache K V) K V) α → Prop
  | .ok a s' => ∃ r : Option V, r.isSome = hit a ∧ Tally s s' k r.isSome (accessEvents s.c.obs k r)
  | .throw e s' => (∃ (r : Option V) (n : Nat), e = .user ∧ Tally s s' k r.isSome ((accessEvents s.c.obs k r).take n)) ∨
      (e = .keyNotFound ∧ Tally s s' k false (accessEvents s.c.obs k none))
  | _ => True

section rules

variable {s : St (Cache K V) K V} {k : K} {hit : α → Bool} {hit' : β → Bool}

theorem Told.bind {m : Impl.CM K V α} {f : α → Impl.CM K V β} (h : Told s k hit (m s))
    (h' : ∀ a, Quietly (f a)) (h2 : ∀ a s' b s'', f a s' = .ok b s'' → hit' b = hit a)
    (h3 : ∀ a s' e s'', f a s' = .throw e s'' → e = .keyNotFound ∧ hit a = false) : Told s k hit' ((m >>= f) s) := by
  show Told s k hit' (M.bind m f s)
  unfold M.bind
  cases hm : m s with
  | ok a s' =>
    rw [hm] at h
    obtain ⟨r, hr, ht⟩ := h
    have h4 := h' a s'
    show Told s k hit' (f a s')
    cases hf : f a s' with
    | ok b s'' =>
      rw [hf] at h4
      exact ⟨r, by rw [hr, h2 a s' b s'' hf], ht.silent h4⟩
    | throw e s'' =>
      rw [hf] at h4
      obtain ⟨h5, h6⟩ := h3 a s' e s'' hf
      right
      refine ⟨h5, ?_⟩
      have := ht.silent h4
      rw [h6] at hr
      cases r with
      | none => exact this
      | some v => cases hr
    | ub => trivial
    | terminate => trivial
    | diverge => trivial
  | throw e s' => rw [hm] at h; exact h
  | ub => trivial
  | terminate => trivial
  | diverge => trivial

theorem Told.after {m : Impl.CM K V α} {f : α → Impl.CM K V β} (hm : Quietly m)
    (hne : ∀ e s', m s ≠ .throw e s')
    (h : ∀ a s', m s = .ok a s' → Silent s s' → Told s' k hit' (f a s')) : Told s k hit' ((m >>= f) s) := by
  show Told s k hit' (M.bind m f s)
  have h1 := hm s
  unfold M.bind
  cases hms : m s with
  | ok a s' =>
    rw [hms] at h1
    have h2 := h a s' hms h1
    have h1 : Silent s s' := h1
    show Told s k hit' (f a s')
    cases hf : f a s' with
    | ok b s'' =>
      rw [hf] at h2
      obtain ⟨r, hr, ht⟩ := h2
      exact ⟨r, hr, by rw [← h1.obs]; exact h1.tally ht⟩
    | throw e s'' =>
      rw [hf] at h2
      rcases h2 with ⟨r, n, he, ht⟩ | ⟨he, ht⟩
      · exact .inl ⟨r, n, he, by rw [← h1.obs]; exact h1.tally ht⟩
      · exact .inr ⟨he, by rw [← h1.obs]; exact h1.tally ht⟩
    | ub => trivial
    | terminate => trivial
    | diverge => trivial
  | throw e s' => exact absurd hms (hne e s')
  | ub => trivial
  | terminate => trivial
  | diverge => trivial

end rules

variable {O : Oracle K V}

theorem registerHit_told (s : St (Cache K V) K V) (k : K) (v : V) :
    Told s k (fun _ : Unit => true) (registerHit O s.c.obs k v s) := by
  rcases registerHit_cases (O := O) s.c.obs k v s with ⟨h, _⟩ | ⟨n, cb, _, _, h⟩
  · rw [h]
    exact ⟨some v, rfl, ⟨hit_recorded rfl rfl, rfl, rfl, Nat.le_refl _, Nat.le_refl _, rfl, rfl⟩⟩
  · rw [h]
    refine .inl ⟨some v, n + 1, rfl, ⟨⟨rfl, ?_, ?_⟩, rfl, rfl, Nat.le_refl _, Nat.le_refl _, rfl, rfl⟩⟩
    · intro i hi
      show Counted k true _ (hitStats s.c.obs k s.g i)
      simp only [hitStats, hi, if_pos]; exact counted_hit _ _
    · intro i hi
      show hitStats s.c.obs k s.g i = _
      simp only [hitStats]; rw [if_neg hi]

theorem registerMiss_told (s : St (Cache K V) K V) (k : K) :
    Told s k (fun _ : Unit => false) (registerMiss O s.c.obs k s) := by
  rcases registerMiss_cases (O := O) s.c.obs k s with ⟨h, _⟩ | ⟨n, cb, _, _, h⟩
  · rw [h]
    exact ⟨none, rfl, ⟨miss_recorded rfl rfl, rfl, rfl, Nat.le_refl _, Nat.le_refl _, rfl, rfl⟩⟩
  · rw [h]
    refine .inl ⟨none, n + 1, rfl, ⟨⟨rfl, ?_, ?_⟩, rfl, rfl, Nat.le_refl _, Nat.le_refl _, rfl, rfl⟩⟩
    · intro i hi
      show Counted k false _ (missStats s.c.obs k s.g i)
      simp only [missStats, hi, if_pos]; exact counted_miss _ _
    · intro i hi
      show missStats s.c.obs k s.g i = _
      simp only [missStats]; rw [if_neg hi]

theorem hasExpiredInfo_basic (s : St (Cache K V) K V) (hb : s.c.kind = .basic) (time : Int) :
    Impl.hasExpiredInfo O time s = .ok false s := by
  unfold Impl.hasExpiredInfo
  rw [bind_ok (m := Impl.getKind) (s := s) rfl, hb]
  rfl

/-- A function that never throws. -/
def NeverThrows (m : Impl.CM K V α) : Prop := ∀ s e s', m s ≠ .throw e s'

theorem NeverThrows.bind {m : Impl.CM K V α} {f : α → Impl.CM K V β} (h : NeverThrows m) (h' : ∀ a, NeverThrows (f a)) :
    NeverThrows (m >>= f) := by
  intro s e s' he
  have he : M.bind m f s = .throw e s' := he
  unfold M.bind at he
  cases hm : m s with
  | ok a s1 => rw [hm] at he; exact h' a s1 e s' he
  | throw e1 s1 => exact h s e1 s1 hm
  | ub => rw [hm] at he; cases he
  | terminate => rw [hm] at he; cases he
  | diverge => rw [hm] at he; cases he

theorem NeverThrows.pure {a : α} : NeverThrows (Pure.pure a : Impl.CM K V α) := by
  intro s e s' h; cases h

theorem NeverThrows.ub : NeverThrows (M.ub : Impl.CM K V α) := by
  intro s e s' h; cases h

theorem deref_nt {p : Ptr} : NeverThrows (Impl.deref p : Impl.CM K V _) := by
  intro s e s' h
  unfold Impl.deref at h
  split at h
  · cases h
  · split at h <;> cases h

theorem derefIt_nt {p : Option Ptr} : NeverThrows (Impl.derefIt p : Impl.CM K V _) := by
  intro s e s' h
  cases p with
  | none => cases h
  | some p =>
    unfold Impl.derefIt at h
    simp only at h
    split at h <;> cases h

theorem derefOrder_nt {p : Ptr} : NeverThrows (Impl.derefOrder p : Impl.CM K V _) := by
  intro s e s' h
  unfold Impl.derefOrder at h
  split at h <;> cases h

theorem lastIs_nt {k : K} : NeverThrows (Impl.lastIs k : Impl.CM K V _) := by
  unfold Impl.lastIs
  refine NeverThrows.bind (by intro s e s' h; cases h) fun r => ?_
  cases r with
  | none => exact NeverThrows.pure
  | some p => exact deref_nt.bind fun _ => NeverThrows.pure

theorem lastNode_nt : NeverThrows (Impl.lastNode : Impl.CM K V _) := by
  unfold Impl.lastNode
  refine NeverThrows.bind (by intro s e s' h; cases h) fun r => ?_
  cases r with
  | none => exact NeverThrows.ub
  | some p => exact deref_nt

theorem moveToFront_nt {it : Option Ptr} : NeverThrows (Impl.moveToFront it : Impl.CM K V _) := by
  unfold Impl.moveToFront Impl.spliceToEnd
  refine NeverThrows.bind (by intro s e s' h; cases h) fun r => ?_
  split
  · exact NeverThrows.pure
  · cases it with
    | none => exact NeverThrows.ub
    | some p => exact derefOrder_nt.bind fun _ => by intro s e s' h; cases h

theorem bind_pure_ok {γ : Type} {m : Impl.CM K V α} {m' : α → Impl.CM K V β} {c b : γ} {s s' : St (Cache K V) K V}
    (h : (m >>= fun a => m' a >>= fun _ => Pure.pure c) s = .ok b s') : b = c := by
  have h : M.bind _ _ s = _ := h
  unfold M.bind at h
  cases hm : m s with
  | ok a s1 =>
    rw [hm] at h
    have h : M.bind _ _ s1 = _ := h
    unfold M.bind at h
    cases hm' : m' a s1 with
    | ok a' s2 =>
      rw [hm'] at h
      injection h with h _
      exact h.symm
    | throw | ub | terminate | diverge => rw [hm'] at h; cases h
  | throw | ub | terminate | diverge => rw [hm] at h; cases h

theorem find_told (s : St (Cache K V) K V) (hb : s.c.kind = .basic) (k : K) :
    Told s k Option.isSome (Impl.find O k s) := by
  unfold Impl.find
  rw [bind_ok (m := Impl.getObs) (s := s) rfl]
  rw [bind_ok (m := Impl.mapFind k) (s := s) rfl]
  cases hf : s.c.map.find? (fun n => keq n.key k) with
  | some n =>
    show Told s k _ ((Impl.hasExpiredInfo O n.info.time >>= _) s)
    rw [bind_ok (hasExpiredInfo_basic s hb _)]
    simp only [Bool.false_eq_true, if_false]
    refine Told.bind (registerHit_told s k n.info.value) (fun _ => ?_) ?_ ?_
    · exact moveToFront_q.bind fun _ => setLast_q.bind fun _ => Quietly.pure
    · intro _ s' b s'' h
      rw [bind_pure_ok h]
      rfl
    · intro _ s' e s'' h
      exact absurd h (moveToFront_nt.bind (fun _ => NeverThrows.bind (by intro _ _ _ h; cases h) fun _ => NeverThrows.pure)
        s' e s'')
  | none =>
    refine Told.bind (registerMiss_told s k) (fun _ => Quietly.pure) ?_ ?_
    · intro _ s' b s'' h; cases h; rfl
    · intro _ s' e s'' h; cases h

theorem contains_told (s : St (Cache K V) K V) (hb : s.c.kind = .basic) (k : K) :
    Told s k id (Impl.contains O k s) := by
  unfold Impl.contains
  rw [bind_ok (m := Impl.getObs) (s := s) rfl]
  refine Told.after lastIs_q (fun e s' => lastIs_nt s e s') ?_
  intro b s' hm hs
  have hb' : s'.c.kind = .basic := hs.kind.trans hb
  split
  · have : Impl.lastAccessedIsOk O s' = .ok true s' := by
      unfold Impl.lastAccessedIsOk
      rw [bind_ok (m := Impl.getKind) (s := s') rfl, hb']
      rfl
    rw [bind_ok this]
    simp only [if_true]
    rw [← hs.obs]
    refine Told.after lastNode_q (fun e s' => lastNode_nt _ e s') ?_
    intro n s2 _ hs2
    rw [← hs2.obs]
    refine Told.bind (registerHit_told s2 k n.info.value) (fun _ => Quietly.pure) ?_ ?_
    · intro _ s' b s'' h; cases h; rfl
    · intro _ s' e s'' h; cases h
  · refine Told.bind (find_told s' hb' k) (fun _ => Quietly.pure) ?_ ?_
    · intro _ s' b s'' h; cases h; rfl
    · intro _ s' e s'' h; cases h

theorem throwIfInvalidU_basic {p : Ptr} (s : St (Cache K V) K V) (hb : s.c.kind = .basic) :
    Impl.throwIfInvalidU O (some p) s = .ok () s := by
  unfold Impl.throwIfInvalidU
  show (Impl.getKind >>= _) s = _
  rw [bind_ok (m := Impl.getKind) (s := s) rfl, hb]
  rfl

theorem lookup_told (s : St (Cache K V) K V) (hb : s.c.kind = .basic) (k : K) :
    Told s k (fun _ => true) (Impl.lookup O k s) := by
  unfold Impl.lookup
  rw [bind_ok (m := Impl.getObs) (s := s) rfl]
  refine Told.after lastIs_q (fun e s' => lastIs_nt s e s') ?_
  intro b s' hm hs
  have hb' : s'.c.kind = .basic := hs.kind.trans hb
  split
  · rw [← hs.obs]
    have hv : Impl.valueForLastAccessed O s' = Impl.lastNode s' := by
      unfold Impl.valueForLastAccessed
      show M.bind _ _ s' = _
      unfold M.bind
      have hq := lastNode_q (K := K) (V := V) s'
      cases hl : Impl.lastNode s' with
      | ok n s2 =>
        rw [hl] at hq
        have hq : Silent s' s2 := hq
        simp only
        rw [bind_ok (m := Impl.getKind) (s := s2) rfl, hq.kind.trans hb']
        rfl
      | throw e s2 => rfl
      | ub => rfl
      | terminate => rfl
      | diverge => rfl
    have hq : ∀ f : MapNode K V → Impl.CM K V (Ptr × V),
        (Impl.valueForLastAccessed O >>= f) s' = (Impl.lastNode >>= f) s' := by
      intro f
      show M.bind _ _ s' = M.bind _ _ s'
      unfold M.bind
      rw [hv]
    rw [hq]
    refine Told.after lastNode_q (fun e s' => lastNode_nt _ e s') ?_
    intro n s2 _ hs2
    rw [← hs2.obs]
    refine Told.bind (registerHit_told s2 k n.info.value) (fun _ => Quietly.pure) ?_ ?_
    · intro _ s' b s'' h; cases h; rfl
    · intro _ s' e s'' h; cases h
  · have h1 := find_told (O := O) s' hb' k
    show Told s' k _ (M.bind _ _ s')
    unfold M.bind
    cases hf : Impl.find O k s' with
    | ok it s2 =>
      rw [hf] at h1
      obtain ⟨r, hr, ht⟩ := h1
      cases it with
      | none =>
        right
        refine ⟨rfl, ?_⟩
        cases r with
        | none => exact ht
        | some v => cases hr
      | some p =>
        show Told s' k _ ((Impl.entryU O (some p) >>= _) s2)
        have h2 : s2.c.kind = .basic := ht.kind.trans hb'
        have h3 : Impl.entryU O (some p) s2 = Impl.derefIt (some p) s2 := by
          unfold Impl.entryU
          show M.bind _ _ s2 = _
          unfold M.bind
          have hd := derefIt_q (K := K) (V := V) (p := some p) s2
          cases hde : Impl.derefIt (some p) s2 with
          | ok n s3 =>
            rw [hde] at hd
            have hd : Silent s2 s3 := hd
            simp only
            rw [bind_ok (throwIfInvalidU_basic s3 (hd.kind.trans h2))]
            rfl
          | throw e s3 => rfl
          | ub => rfl
          | terminate => rfl
          | diverge => rfl
        show Told s' k _ (M.bind _ _ s2)
        unfold M.bind
        rw [h3]
        have hd := derefIt_q (K := K) (V := V) (p := some p) s2
        cases hde : Impl.derefIt (some p) s2 with
        | ok n s3 =>
          rw [hde] at hd
          exact ⟨r, hr, ht.silent hd⟩
        | throw e s3 => exact absurd hde (derefIt_nt s2 e s3)
        | ub => trivial
        | terminate => trivial
        | diverge => trivial
    | throw e s2 => rw [hf] at h1; exact h1
    | ub => trivial
    | terminate => trivial
    | diverge => trivial

end LRU
