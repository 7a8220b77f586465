import Verif.Proofs.ListFault
import Verif.Spec.HashFault
/-!
# Calls whose hash function or key comparison throws, step by step
-/

set_option linter.unusedSectionVars false
set_option autoImplicit false

namespace LRU

variable {K V : Type} [KeyEqual K] [DecidableEq K] {O : Oracle K V} {F : Faults}
variable {α β : Type} {N : Prop} {P Q : St (Cache K V) K V → Prop} {t : FSt K V}

theorem Faults.Spared.refl (i : Nat) : F.Spared i i := ⟨Nat.le_refl _, fun n h1 h2 => by omega⟩

theorem Faults.Spared.trans {i j l : Nat} (h1 : F.Spared i j) (h2 : F.Spared j l) : F.Spared i l := by
  refine ⟨Nat.le_trans h1.1 h2.1, fun n h3 h4 => ?_⟩
  by_cases h : n < j
  · exact h1.2 n h3 h
  · exact h2.2 n (by omega) h4

theorem Faults.Spared.one {i : Nat} (h : ¬ (F.search i = true ∧ F.compare i = true)) : F.Spared i (i + 1) :=
  ⟨by omega, fun n h1 h2 => by obtain rfl : n = i := by omega
                               exact h⟩

/-- `m'` does what `m` does, and no function has thrown, or terminates because a function threw (a search only if `N`), or is
interrupted by its last search in a state that satisfies `P`. -/
def Tracks (F : Faults) (N : Prop) (P : St (Cache K V) K V → Prop) (m' : Impl.FM K V α) (m : Impl.CM K V α) (t : FSt K V) :
    Prop :=
  ((m' t).plain = m t.s ∧ ∀ u, (m' t).used = some u → F.Spared t.uses u) ∨
    (m' t = .terminate ∧ ∃ i, F.Spared t.uses i ∧ (F.compare i = true ∨ N ∧ F.search i = true)) ∨
    ∃ t' i, m' t = .throw .hash t' ∧ P t'.s ∧ t'.uses = i + 1 ∧ F.Spared t.uses i ∧ F.search i = true

namespace Tracks

theorem on (m : Impl.CM K V α) : Tracks F N P (Impl.onF m) m t := by
  left
  unfold Impl.onF
  cases m t.s <;> refine ⟨rfl, fun u h => ?_⟩ <;> cases h <;> exact .refl _

theorem raise (e : Err) : Tracks F N P (M.throw e : Impl.FM K V α) (M.throw e) t :=
  .inl ⟨rfl, fun u h => by cases h; exact .refl _⟩

theorem ub : Tracks F N P (M.ub : Impl.FM K V α) M.ub t := .inl ⟨rfl, fun _ h => nomatch h⟩

theorem diverge : Tracks F N P (M.diverge : Impl.FM K V α) M.diverge t := .inl ⟨rfl, fun _ h => nomatch h⟩

theorem pure (a : α) : Tracks F N P (Pure.pure a : Impl.FM K V α) (Pure.pure a) t :=
  .inl ⟨rfl, fun u h => by cases h; exact .refl _⟩

/-- After uses at which nothing was thrown. -/
theorem later {m' m'' : Impl.FM K V α} {m : Impl.CM K V α} {m2 : Impl.CM K V α} {t1 : FSt K V} (h : Tracks F N P m' m t1)
    (h1 : F.Spared t.uses t1.uses) (e1 : m'' t = m' t1) (e2 : m2 t.s = m t1.s) : Tracks F N P m'' m2 t := by
  unfold Tracks
  rw [e1, e2]
  rcases h with ⟨h, hu⟩ | ⟨h, i, hi, hc⟩ | ⟨t', i, h, hp, h2, h3, h4⟩
  · exact .inl ⟨h, fun u h' => h1.trans (hu u h')⟩
  · exact .inr (.inl ⟨h, i, h1.trans hi, hc⟩)
  · exact .inr (.inr ⟨t', i, h, hp, h2, h1.trans h3, h4⟩)

theorem bind {m' : Impl.FM K V α} {m : Impl.CM K V α} {f' : α → Impl.FM K V β} {f : α → Impl.CM K V β}
    (h : Tracks F N P m' m t) (hf : ∀ a s u, m t.s = .ok a s → Tracks F N P (f' a) (f a) ⟨s, u⟩) :
    Tracks F N P (m' >>= f') (m >>= f) t := by
  rcases h with ⟨h, hu⟩ | ⟨h, hi⟩ | ⟨t', i, h, hp⟩
  · cases hm : m' t with
    | ok a t1 =>
      rw [hm] at h hu
      have h1 : m t.s = .ok a t1.s := h.symm
      exact (hf a t1.s t1.uses h1).later (hu _ rfl) (bind_ok hm) (bind_ok h1)
    | throw e t1 =>
      rw [hm] at h hu
      have h1 : m t.s = .throw e t1.s := h.symm
      left
      rw [bind_throw hm, bind_throw h1]
      exact ⟨rfl, fun u h2 => hu u h2⟩
    | ub =>
      rw [hm] at h
      have h1 : m t.s = .ub := h.symm
      left
      rw [bind_ub hm, bind_ub h1]
      exact ⟨rfl, fun _ h => nomatch h⟩
    | terminate =>
      rw [hm] at h
      have h1 : m t.s = .terminate := h.symm
      left
      rw [bind_terminate hm, bind_terminate h1]
      exact ⟨rfl, fun _ h => nomatch h⟩
    | diverge =>
      rw [hm] at h
      have h1 : m t.s = .diverge := h.symm
      left
      rw [bind_diverge hm, bind_diverge h1]
      exact ⟨rfl, fun _ h => nomatch h⟩
  · exact .inr (.inl ⟨bind_terminate h, hi⟩)
  · exact .inr (.inr ⟨t', i, bind_throw h, hp⟩)

theorem ite {p : Prop} [Decidable p] {m' f' : Impl.FM K V α} {m f : Impl.CM K V α}
    (h1 : p → Tracks F N P m' m t) (h2 : ¬ p → Tracks F N P f' f t) :
    Tracks F N P (if p then m' else f') (if p then m else f) t := by
  by_cases h : p
  · simp only [if_pos h]
    exact h1 h
  · simp only [if_neg h]
    exact h2 h

theorem mono {m' : Impl.FM K V α} {m : Impl.CM K V α} (h : Tracks F N P m' m t) (hq : ∀ s, P s → Q s) :
    Tracks F N Q m' m t := by
  rcases h with h | h | ⟨t', i, h1, h2, h3⟩
  · exact .inl h
  · exact .inr (.inl h)
  · exact .inr (.inr ⟨t', i, h1, hq _ h2, h3⟩)

theorem allow {N' : Prop} {m' : Impl.FM K V α} {m : Impl.CM K V α} (h : Tracks F N P m' m t) (hn : N → N') :
    Tracks F N' P m' m t := by
  rcases h with h | ⟨h, i, h1, h2⟩ | h
  · exact .inl h
  · exact .inr (.inl ⟨h, i, h1, h2.imp id fun h => ⟨hn h.1, h.2⟩⟩)
  · exact .inr (.inr h)

/-- A `noexcept` function whose model does not throw. -/
theorem noexcept {m' : Impl.FM K V α} {m : Impl.CM K V α} (h : Tracks F N P m' m t) (hn : ∀ e s, m t.s ≠ .throw e s) :
    Tracks F True Q (M.noexcept m') m t := by
  unfold Tracks M.noexcept
  rcases h with ⟨h, hu⟩ | ⟨h, i, hi, hc⟩ | ⟨t', i, h1, h2, h3, h4, h5⟩
  · left
    cases hm : m' t with
    | throw e t1 =>
      rw [hm] at h
      exact absurd h.symm (hn _ _)
    | _ => rw [hm] at h hu; exact ⟨h, hu⟩
  · right; left
    rw [h]
    exact ⟨rfl, i, hi, hc.imp id fun h => ⟨trivial, h.2⟩⟩
  · right; left
    rw [h1]
    exact ⟨rfl, i, h4, .inr ⟨trivial, h5⟩⟩

theorem ret {m' : Impl.FM K V α} {m : Impl.CM K V α} {f : α → Res K V} (h : Tracks F N P m' m t) :
    Tracks F N P (Impl.ret m' f) (Impl.ret m f) t := h.bind fun _ _ _ _ => .pure _

end Tracks

theorem tracks_search {m' : Impl.FM K V α} {m : Impl.CM K V α} (hp : P t.s) (h : ∀ u, Tracks F N P m' m ⟨t.s, u⟩) :
    Tracks F N P (Impl.searchF F >>= fun _ => m') m t := by
  by_cases hs : F.search t.uses = true
  · have : Impl.searchF F t = .throw .hash (⟨t.s, t.uses + 1⟩ : FSt K V) := by
      unfold Impl.searchF
      rw [if_pos hs]
    exact .inr (.inr ⟨_, _, bind_throw this, hp, rfl, .refl _, hs⟩)
  · have : Impl.searchF F t = .ok () (⟨t.s, t.uses + 1⟩ : FSt K V) := by
      unfold Impl.searchF
      rw [if_neg hs]
    exact (h (t.uses + 1)).later (.one fun h => hs h.1) (bind_ok this) rfl

theorem mapFindF_tracks (k : K) (hp : P t.s) : Tracks F N P (Impl.mapFindF F k) (Impl.mapFind k) t :=
  tracks_search hp fun _ => .on _

theorem mapEraseKeyF_tracks (k : K) (hp : P t.s) : Tracks F N P (Impl.mapEraseKeyF F k) (Impl.mapEraseKey k) t :=
  tracks_search hp fun _ => .on _

theorem mapEmplaceF_tracks (k : K) (v : V) (i : Int) (hp : P t.s) :
    Tracks F N P (Impl.mapEmplaceF O F k v i) (Impl.mapEmplace O k v i) t :=
  tracks_search hp fun _ => .on _

theorem tracks_compare {m' : Impl.FM K V α} {m : Impl.CM K V α} (h : ∀ u, Tracks F N P m' m ⟨t.s, u⟩) :
    Tracks F N P (M.noexcept (Impl.compareF F) >>= fun _ => m') m t := by
  by_cases hs : F.compare t.uses = true
  · have : M.noexcept (Impl.compareF F) t = (.terminate : Out (FSt K V) Unit) := by
      unfold M.noexcept Impl.compareF
      rw [if_pos hs]
    exact .inr (.inl ⟨bind_terminate this, _, .refl _, .inl hs⟩)
  · have : M.noexcept (Impl.compareF F) t = .ok () (⟨t.s, t.uses + 1⟩ : FSt K V) := by
      unfold M.noexcept Impl.compareF
      rw [if_neg hs]
    exact (h (t.uses + 1)).later (.one fun h => hs h.2) (bind_ok this) rfl

theorem lastIsF_tracks (k : K) : Tracks F N P (Impl.lastIsF F k) (Impl.lastIs k) t := by
  refine .bind (.on _) fun a s u _ => ?_
  cases a with
  | none => exact .pure _
  | some p => exact tracks_compare fun _ => .bind (.on _) fun _ _ _ _ => .pure _

theorem invalidateIfF_tracks (k : K) : Tracks F N P (Impl.invalidateIfF F k) (Impl.invalidateIf k) t :=
  .bind (lastIsF_tracks k) fun _ _ _ _ => .ite (fun _ => .on _) (fun _ => .pure _)

theorem eraseItF_tracks (it : Option Ptr) : Tracks F N P (Impl.eraseItF F it) (Impl.eraseIt it) t :=
  .bind (.on _) fun _ _ _ _ => .bind (invalidateIfF_tracks _) fun _ _ _ _ => .bind (.on _) fun _ _ _ _ => .on _

theorem eraseKeyInfoF_tracks (n : MapNode K V)
    (hp : ∀ s1 s2, Impl.invalidateIf n.key t.s = .ok () s1 → Impl.orderErase n.info.order s1 = .ok () s2 → P s2) :
    Tracks F N P (Impl.eraseKeyInfoF F n) (Impl.eraseKeyInfo n) t :=
  .bind (invalidateIfF_tracks _) fun _ _ _ h1 => .bind (.on _) fun _ _ _ h2 => mapEraseKeyF_tracks _ (hp _ _ h1 h2)

/-- Functions that leave the state alone. -/
def Looks0 (m : Impl.CM K V α) : Prop := ∀ a s s', m s = .ok a s' → s' = s

theorem deref_looks (p : Ptr) : Looks0 (Impl.deref p : Impl.CM K V (MapNode K V)) := by
  intro a s s' h
  unfold Impl.deref at h
  split at h
  · cases h; rfl
  · split at h
    · cases h; rfl
    · cases h

theorem Looks0.bind {m : Impl.CM K V α} {f : α → Impl.CM K V β} (h : Looks0 m) (hf : ∀ a, Looks0 (f a)) : Looks0 (m >>= f) := by
  intro b s s' hb
  obtain ⟨a, s1, h1, h2⟩ := bind_ok_inv hb
  rw [hf a b s1 s' h2, h a s s1 h1]

theorem Looks0.pure (a : α) : Looks0 (Pure.pure a : Impl.CM K V α) := by
  intro b s s' h
  cases h
  rfl

theorem keyOf_looks (l : ListNode) : Looks0 (Impl.keyOf l : Impl.CM K V K) := (deref_looks _).bind fun _ => .pure _

theorem orderFront_looks : Looks0 (Impl.orderFront : Impl.CM K V ListNode) := by
  refine Looks0.bind (fun a s s' h => by cases h; rfl) fun a => ?_
  cases a with
  | none => intro a s s' h; cases h
  | some l => exact .pure _

theorem orderBack_looks : Looks0 (Impl.orderBack : Impl.CM K V ListNode) := by
  refine Looks0.bind (fun a s s' h => by cases h; rfl) fun a => ?_
  cases a with
  | none => intro a s s' h; cases h
  | some l => exact .pure _

theorem size_looks : Looks0 (Impl.size : Impl.CM K V Nat) := by
  intro a s s' h
  cases h
  rfl

theorem readCapacity_looks : Looks0 (Impl.readCapacity : Impl.CM K V Nat) := by
  intro a s s' h
  unfold Impl.readCapacity at h
  split at h <;> cases h
  rfl

theorem mapFind_looks (k : K) : Looks0 (Impl.mapFind k : Impl.CM K V (Option (MapNode K V))) := by
  intro a s s' h
  cases h
  rfl

theorem eraseLruF_tracks (hp : P t.s) : Tracks F N P (Impl.eraseLruF F) Impl.eraseLru t := by
  refine .bind (.on _) fun l s u h1 => .bind (.on _) fun k s2 u2 h2 => .bind (mapFindF_tracks _ ?_) fun _ _ _ _ => eraseItF_tracks _
  show P s2
  rw [keyOf_looks _ _ _ _ h2, orderFront_looks _ _ _ h1]
  exact hp

theorem evictLruForF_tracks (p : Ptr) (hp : P t.s) : Tracks F N P (Impl.evictLruForF F p) (Impl.evictLruFor p) t := by
  refine .bind (.on _) fun l s u h1 => .bind (.on _) fun k s2 u2 h2 => .bind (mapEraseKeyF_tracks _ ?_) fun _ _ _ _ =>
    .bind (.on _) fun _ _ _ _ => .on _
  show P s2
  rw [keyOf_looks _ _ _ _ h2, orderFront_looks _ _ _ h1]
  exact hp

theorem evictOrAppendF_tracks (p : Ptr) (hp : ∀ c, t.s.c.capacity = some c → t.s.c.map.length > c → P t.s) :
    Tracks F N P (Impl.evictOrAppendF O F p) (Impl.evictOrAppend O p) t := by
  refine .bind (.on _) fun n s u h1 => .bind (.on _) fun c s2 u2 h2 => .ite (fun hc => ?_) (fun _ => .on _)
  cases h1
  have h3 : t.s.c.capacity = some c := by
    unfold Impl.readCapacity at h2
    split at h2
    · cases h2; assumption
    · cases h2
  cases readCapacity_looks _ _ _ h2
  exact evictLruForF_tracks _ (hp c h3 hc)

theorem insertNewKeyF_tracks (p : Ptr) (hp : ∀ c, t.s.c.capacity = some c → t.s.c.map.length > c → P t.s) :
    Tracks F N P (Impl.insertNewKeyF O F p) (Impl.insertNewKey O p) t :=
  .bind (evictOrAppendF_tracks p hp) fun _ _ _ _ => .bind (.on _) fun _ _ _ _ => .pure _

theorem insertNodeF_tracks (k : K) (v : V) (i : Int) (hp : P t.s)
    (he : ∀ p s2 c, Impl.mapEmplace O k v i t.s = .ok p s2 → s2.c.capacity = some c → s2.c.map.length > c → P s2) :
    Tracks F N P (Impl.insertNodeF O F k v i) (Impl.insertNode O k v i) t :=
  .bind (mapEmplaceF_tracks k v i hp) fun _ _ _ h => .bind (insertNewKeyF_tracks _ fun c h1 h2 => he _ _ c h h1 h2)
    fun _ _ _ _ => .bind (.on _) fun _ _ _ _ => .pure _

theorem findF_tracks (k : K) (hp : P t.s) : Tracks F N P (Impl.findF O F k) (Impl.find O k) t := by
  refine .bind (.on _) fun o s u h => .bind (mapFindF_tracks _ (by cases h; exact hp)) fun n s2 u2 h2 => ?_
  cases n with
  | none => exact .bind (.on _) fun _ _ _ _ => .pure _
  | some n =>
    exact .bind (.on _) fun _ _ _ _ => .ite (fun _ => .bind (.on _) fun _ _ _ _ => .pure _)
      (fun _ => .bind (.on _) fun _ _ _ _ => .bind (.on _) fun _ _ _ _ => .bind (.on _) fun _ _ _ _ => .pure _)

theorem lastIs_looks (k : K) : Looks0 (Impl.lastIs k : Impl.CM K V Bool) := by
  refine Looks0.bind (fun a s s' h => by cases h; rfl) fun a => ?_
  cases a with
  | none => exact .pure _
  | some p => exact (deref_looks p).bind fun _ => .pure _

theorem containsF_tracks (k : K) (hp : P t.s) : Tracks F N P (Impl.containsF O F k) (Impl.contains O k) t := by
  refine .bind (.on _) fun o s u h => .bind (lastIsF_tracks _) fun b s2 u2 h2 => .ite (fun _ => ?_) (fun _ => ?_)
  · exact .bind (.on _) fun _ _ _ _ => .ite
      (fun _ => .bind (.on _) fun _ _ _ _ => .bind (.on _) fun _ _ _ _ => .pure _) (fun _ => .pure _)
  · refine .bind (findF_tracks k ?_) fun _ _ _ _ => .pure _
    cases h
    cases lastIs_looks _ _ _ _ h2
    exact hp

theorem lookupF_tracks (k : K) (hp : P t.s) : Tracks F N P (Impl.lookupF O F k) (Impl.lookup O k) t := by
  refine .bind (.on _) fun o s u h => .bind (lastIsF_tracks _) fun b s2 u2 h2 => .ite (fun _ => ?_) (fun _ => ?_)
  · exact .bind (.on _) fun _ _ _ _ => .bind (.on _) fun _ _ _ _ => .pure _
  · refine .bind (findF_tracks k ?_) fun a _ _ _ => ?_
    · cases h
      cases lastIs_looks _ _ _ _ h2
      exact hp
    · cases a with
      | none => exact .raise _
      | some p => exact .bind (.on _) fun _ _ _ _ => .pure _

theorem Untouched.refl (s : St (Cache K V) K V) : Untouched s s := ⟨rfl, _, _, rfl⟩

theorem Untouched.trans {s1 s2 s3 : St (Cache K V) K V} (h1 : Untouched s1 s2) (h2 : Untouched s2 s3) : Untouched s1 s3 := by
  obtain ⟨a1, i1, j1, b1⟩ := h1
  obtain ⟨a2, i2, j2, b2⟩ := h2
  exact ⟨a2.trans a1, i2, j2, by rw [b2, b1]⟩

theorem attempt_untouched {site : Site} {s s' : St (Cache K V) K V} {u : Unit} (h : attempt O site s = .ok u s') :
    Untouched s s' := by
  unfold attempt at h
  dsimp only at h
  split at h
  · cases h
  · cases h
    exact ⟨rfl, _, _, rfl⟩

theorem insertionTime_untouched {s s' : St (Cache K V) K V} {i : Int} (h : Impl.insertionTime O s = .ok i s') : Untouched s s' := by
  unfold Impl.insertionTime at h
  rw [bind_ok (m := Impl.getKind) (s := s) rfl] at h
  cases hk : s.c.kind with
  | basic => rw [hk] at h; cases h; exact .refl _
  | timed => rw [hk] at h; cases h; exact ⟨rfl, _, _, rfl⟩

theorem readCapacity_nonzero {s s' : St (Cache K V) K V} {c : Nat} (h : Impl.readCapacity s = .ok c s') (hc : ¬ c = 0) :
    s.c.capacity ≠ some 0 := by
  unfold Impl.readCapacity at h
  intro h0
  rw [h0] at h
  cases h
  exact hc rfl

theorem insertF_tracks (k : K) (v : V) (hp : ∀ s, Untouched t.s s → P s)
    (he : ∀ i p s1 s2 c, Untouched t.s s1 → t.s.c.capacity ≠ some 0 → t.s.c.map.find? (fun n => keq n.key k) = none →
      Impl.mapEmplace O k v i s1 = .ok p s2 → s2.c.capacity = some c → s2.c.map.length > c → P s2) :
    Tracks F N P (Impl.insertF O F k v) (Impl.insert O k v) t := by
  refine .bind (.on _) fun c s u h => .ite (fun _ => .pure _) fun hc => ?_
  have hc : t.s.c.capacity ≠ some 0 := readCapacity_nonzero h hc
  cases readCapacity_looks _ _ _ h
  refine .bind (mapFindF_tracks _ (hp _ (.refl _))) fun n s2 u2 h2 => ?_
  cases mapFind_looks _ _ _ _ h2
  cases n with
  | none =>
    refine .bind (.on _) fun i s3 u3 h3 => .bind (.on _) fun _ s4 u4 h4 => ?_
    have h5 := (insertionTime_untouched h3).trans (attempt_untouched h4)
    refine .bind (insertNodeF_tracks k v i (hp _ h5) fun p s2 c h6 h7 h8 => he i p s4 s2 c h5 hc ?_ h6 h7 h8) fun _ _ _ _ =>
      .bind (.on _) fun _ _ _ _ => .pure _
    unfold Impl.mapFind at h2
    injection h2
  | some n => exact .bind (.on _) fun _ _ _ _ => .bind (.on _) fun _ _ _ _ => .pure _

theorem emplaceF_tracks (k : K) (v : V) (hp : ∀ s, Untouched t.s s → P s)
    (he : ∀ i p s1 s2 c, Untouched t.s s1 → t.s.c.capacity ≠ some 0 → t.s.c.map.find? (fun n => keq n.key k) = none →
      Impl.mapEmplace O k v i s1 = .ok p s2 → s2.c.capacity = some c → s2.c.map.length > c → P s2) :
    Tracks F N P (Impl.emplaceF O F k v) (Impl.emplace O k v) t := by
  refine .bind (.on _) fun c s u h => .ite (fun _ => .pure _) fun hc => ?_
  have hc : t.s.c.capacity ≠ some 0 := readCapacity_nonzero h hc
  cases readCapacity_looks _ _ _ h
  refine .bind (.on _) fun _ s0 u0 h0 => ?_
  have h0 := attempt_untouched h0
  refine .bind (mapFindF_tracks _ (hp _ h0)) fun n s2 u2 h2 => ?_
  cases mapFind_looks _ _ _ _ h2
  cases n with
  | none =>
    refine .bind (.on _) fun _ s3 u3 h3 => .bind (.on _) fun i s4 u4 h4 => ?_
    have h5 := h0.trans ((attempt_untouched h3).trans (insertionTime_untouched h4))
    refine .bind (insertNodeF_tracks k v i (hp _ h5) fun p s2 c h6 h7 h8 => he i p s4 s2 c h5 hc ?_ h6 h7 h8) fun _ _ _ _ =>
      .bind (.on _) fun _ _ _ _ => .pure _
    unfold Impl.mapFind at h2
    injection h2 with h2
    rw [← h0.1]
    exact h2
  | some n =>
    exact .bind (.on _) fun _ _ _ _ => .bind (.on _) fun _ _ _ _ => .bind (.on _) fun _ _ _ _ => .pure _

/-- `Q` holds between the insertions of a range. -/
theorem insertRangeF_tracks (l : List (K × V)) (hq : Q t.s)
    (hstep : ∀ k v s a s', (k, v) ∈ l → Q s → Impl.insert O k v s = .ok a s' → Q s')
    (hp : ∀ s s', Q s → Untouched s s' → P s')
    (he : ∀ k v i p s s1 s2 c, (k, v) ∈ l → Q s → Untouched s s1 → s.c.capacity ≠ some 0 →
      s.c.map.find? (fun n => keq n.key k) = none →
      Impl.mapEmplace O k v i s1 = .ok p s2 → s2.c.capacity = some c → s2.c.map.length > c → P s2) :
    Tracks F N P (Impl.insertRangeF O F l) (Impl.insertRange O l) t := by
  induction l generalizing t with
  | nil => exact .pure _
  | cons x l ih =>
    obtain ⟨k, v⟩ := x
    refine .bind (insertF_tracks k v (fun s h => hp _ _ hq h) fun i p s1 s2 c => he k v i p _ s1 s2 c (by simp) hq)
      fun a s u h => .bind (ih (hstep k v _ _ _ (by simp) hq h) ?_ ?_) fun _ _ _ _ => .pure _
    · exact fun k v s a s' hm => hstep k v s a s' (List.mem_cons_of_mem _ hm)
    · exact fun k v i p s s1 s2 c hm => he k v i p s s1 s2 c (List.mem_cons_of_mem _ hm)

theorem insertRangeMoveF_tracks (l : List (K × V)) (hq : Q t.s)
    (hstep : ∀ k v s a s', (k, v) ∈ l → Q s → Impl.emplace O k v s = .ok a s' → Q s')
    (hp : ∀ s s', Q s → Untouched s s' → P s')
    (he : ∀ k v i p s s1 s2 c, (k, v) ∈ l → Q s → Untouched s s1 → s.c.capacity ≠ some 0 →
      s.c.map.find? (fun n => keq n.key k) = none →
      Impl.mapEmplace O k v i s1 = .ok p s2 → s2.c.capacity = some c → s2.c.map.length > c → P s2) :
    Tracks F N P (Impl.insertRangeMoveF O F l) (Impl.insertRangeMove O l) t := by
  induction l generalizing t with
  | nil => exact .pure _
  | cons x l ih =>
    obtain ⟨k, v⟩ := x
    refine .bind (emplaceF_tracks k v (fun s h => hp _ _ hq h) fun i p s1 s2 c => he k v i p _ s1 s2 c (by simp) hq)
      fun a s u h => .bind (ih (hstep k v _ _ _ (by simp) hq h) ?_ ?_) fun _ _ _ _ => .pure _
    · exact fun k v s a s' hm => hstep k v s a s' (List.mem_cons_of_mem _ hm)
    · exact fun k v i p s s1 s2 c hm => he k v i p s s1 s2 c (List.mem_cons_of_mem _ hm)

theorem eraseF_tracks (k : K) (hp : P t.s)
    (he : ∀ n s1 s2, Impl.lastIs k t.s = .ok true t.s → Impl.lastNode t.s = .ok n t.s →
      Impl.invalidateIf n.key t.s = .ok () s1 → Impl.orderErase n.info.order s1 = .ok () s2 → P s2) :
    Tracks F N P (Impl.eraseF F k) (Impl.erase k) t := by
  refine .bind (lastIsF_tracks k) fun b s u h => ?_
  cases lastIs_looks _ _ _ _ h
  refine .ite (fun hb => ?_) (fun _ => ?_)
  · refine .bind (.on _) fun n s2 u2 h2 => ?_
    have : s2 = t.s := by
      refine Looks0.bind (m := Impl.getLast) (fun a s s' h => by cases h; rfl) (fun a => ?_) _ _ _ h2
      cases a with
      | none => intro a s s' h; cases h
      | some p => exact deref_looks p
    subst this
    refine .bind (eraseKeyInfoF_tracks n fun s1 s2 => he n s1 s2 (hb ▸ h) h2) fun _ _ _ _ => .pure _
  · refine .bind (mapFindF_tracks _ hp) fun n s2 u2 h2 => ?_
    cases n with
    | none => exact .pure _
    | some n => exact .bind (eraseItF_tracks _) fun _ _ _ _ => .pure _

theorem eraseUF_tracks (it : Option Ptr) : Tracks F N P (Impl.eraseUF F it) (Impl.eraseU it) t := by
  cases it with
  | none => exact .raise _
  | some p => exact eraseItF_tracks _

/-- `P` holds between the erasures. -/
theorem eraseLruWhileF_tracks (n fuel : Nat) (hp : P t.s)
    (hstep : ∀ s s', P s → s.c.map.length > n → Impl.eraseLru s = .ok () s' → P s') :
    Tracks F N P (Impl.eraseLruWhileF F n fuel) (Impl.eraseLruWhile n fuel) t := by
  induction fuel generalizing t with
  | zero => exact .diverge
  | succ fuel ih =>
    refine .bind (.on _) fun m s u h => .ite (fun hm => ?_) (fun _ => .pure _)
    cases h
    exact .bind (eraseLruF_tracks hp) fun _ s2 u2 h2 => ih (hstep _ _ hp hm h2)

theorem shrinkF_tracks (n : Nat) (hp : P t.s)
    (hstep : ∀ s s', P s → s.c.map.length > n → Impl.eraseLru s = .ok () s' → P s') :
    Tracks F N P (Impl.shrinkF F n) (Impl.shrink n) t := by
  refine .bind (.on _) fun m s u h => .ite (fun _ => .pure _) fun _ => .ite (fun _ => .on _) fun _ => ?_
  cases h
  exact eraseLruWhileF_tracks n _ hp hstep

theorem setCapacityF_tracks (n : Nat) (hp : P t.s)
    (hstep : ∀ s s', P s → s.c.map.length > n → Impl.eraseLru s = .ok () s' → P s') :
    Tracks F N P (Impl.setCapacityF F n) (Impl.setCapacity n) t := by
  refine .bind (.on _) fun m s u h => .bind (?_ : Tracks F N P _ _ _) fun _ _ _ _ => .on _
  cases h
  exact eraseLruWhileF_tracks n _ hp hstep

theorem allExpiredF_tracks (hp : P t.s) : Tracks F N P (Impl.allExpiredF O F) (Impl.allExpired O) t := by
  refine .bind (.on _) fun b s u h => .ite (fun _ => .pure _) fun _ => ?_
  cases h
  refine .bind (.on _) fun l s u h1 => .bind (.on _) fun k s2 u2 h2 => .bind (mapFindF_tracks _ ?_) fun n _ _ _ => ?_
  · show P s2
    rw [keyOf_looks _ _ _ _ h2, orderBack_looks _ _ _ h1]
    exact hp
  · cases n with
    | none => exact .ub
    | some n => exact .on _

/-- `Q` holds between the erasures. -/
theorem clearExpiredLoopF_tracks (m fuel : Nat) (hq : Q t.s) (hp : ∀ s, Q s → P s)
    (hstep : ∀ s s1 s2 l k n, Q s → s.c.order.head? = some l → Impl.keyOf l s = .ok k s → Impl.mapFind k s = .ok (some n) s →
      Impl.hasExpiredInfo O n.info.time s = .ok true s1 → Impl.eraseIt (some n.addr) s1 = .ok () s2 → Q s2) :
    Tracks F N P (Impl.clearExpiredLoopF O F m fuel) (Impl.clearExpiredLoop O m fuel) t := by
  induction fuel generalizing t m with
  | zero => exact .diverge
  | succ fuel ih =>
    refine .bind (.on _) fun a s u h => ?_
    cases h
    cases hl : t.s.c.order.head? with
    | none => exact .pure _
    | some l =>
      refine .bind (.on _) fun k s2 u2 h2 => ?_
      cases keyOf_looks _ _ _ _ h2
      refine .bind (mapFindF_tracks _ (hp _ hq)) fun n s3 u3 h3 => ?_
      cases mapFind_looks _ _ _ _ h3
      cases n with
      | none => exact .ub
      | some n =>
        refine .bind (.on _) fun b s4 u4 h4 => .ite (fun hb => ?_) (fun _ => .pure _)
        subst hb
        exact .bind (eraseItF_tracks _) fun _ s5 u5 h5 => ih _ (hstep _ _ _ l k n hq hl h2 h3 h4 h5)

theorem clearExpiredF_tracks (hq : Q t.s) (hp : ∀ s, Q s → P s)
    (hstep : ∀ s s1 s2 l k n, Q s → s.c.order.head? = some l → Impl.keyOf l s = .ok k s → Impl.mapFind k s = .ok (some n) s →
      Impl.hasExpiredInfo O n.info.time s = .ok true s1 → Impl.eraseIt (some n.addr) s1 = .ok () s2 → Q s2) :
    Tracks F N P (Impl.clearExpiredF O F) (Impl.clearExpired O) t := by
  refine .bind (.on _) fun b s u h => .ite (fun _ => .pure _) fun _ => ?_
  cases h
  refine .bind (.on _) fun n s u h => ?_
  cases h
  exact clearExpiredLoopF_tracks _ _ hq hp hstep

/-! ### `noexcept` functions -/

/-- Functions that do not throw. -/
def NoThrow (m : Impl.CM K V α) : Prop := ∀ s e s', m s ≠ .throw e s'

theorem NoThrow.bind {m : Impl.CM K V α} {f : α → Impl.CM K V β} (h : NoThrow m) (hf : ∀ a, NoThrow (f a)) : NoThrow (m >>= f) := by
  intro s e s' hb
  cases hm : m s with
  | ok a s1 =>
    rw [bind_ok hm] at hb
    exact hf a s1 e s' hb
  | throw e s1 => exact h s e s1 hm
  | ub => rw [bind_ub hm] at hb; cases hb
  | terminate => rw [bind_terminate hm] at hb; cases hb
  | diverge => rw [bind_diverge hm] at hb; cases hb

theorem NoThrow.pure (a : α) : NoThrow (Pure.pure a : Impl.CM K V α) := by
  intro s e s' h
  cases h

theorem NoThrow.ub : NoThrow (M.ub : Impl.CM K V α) := by
  intro s e s' h
  cases h

theorem mapFind_quiet (k : K) : NoThrow (Impl.mapFind k : Impl.CM K V (Option (MapNode K V))) := by
  intro s e s' h
  cases h

theorem hasExpiredInfo_quiet (i : Int) : NoThrow (Impl.hasExpiredInfo O i : Impl.CM K V Bool) := by
  refine NoThrow.bind (fun s e s' h => by cases h) fun a => ?_
  cases a with
  | basic => exact .pure _
  | timed => exact NoThrow.bind (fun s e s' h => by cases h) fun _ => .pure _

theorem deref_quiet (p : Ptr) : NoThrow (Impl.deref p : Impl.CM K V (MapNode K V)) := by
  intro s e s' h
  unfold Impl.deref at h
  split at h
  · cases h
  · split at h <;> cases h

theorem derefIt_quiet (p : Option Ptr) : NoThrow (Impl.derefIt p : Impl.CM K V (MapNode K V)) := by
  intro s e s' h
  unfold Impl.derefIt at h
  cases p with
  | none => cases h
  | some p =>
    dsimp only at h
    split at h <;> cases h

theorem derefOrder_quiet (p : Ptr) : NoThrow (Impl.derefOrder p : Impl.CM K V ListNode) := by
  intro s e s' h
  unfold Impl.derefOrder at h
  split at h <;> cases h

theorem keyAt_quiet (p : Option Ptr) : NoThrow (Impl.keyAt p : Impl.CM K V K) := by
  cases p with
  | none => exact .ub
  | some p => exact (derefOrder_quiet p).bind fun _ => (deref_quiet _).bind fun _ => .pure _

theorem oLookup_quiet (p : Option Ptr) : NoThrow (Impl.oLookup p : Impl.CM K V Ptr) :=
  (keyAt_quiet p).bind fun _ => (mapFind_quiet _).bind fun n => by
    cases n with
    | none => exact .ub
    | some n => exact .pure _

theorem hasExpired_quiet (k : K) : NoThrow (Impl.hasExpired O k : Impl.CM K V Bool) :=
  (mapFind_quiet _).bind fun n => by
    cases n with
    | none => exact .pure _
    | some n => exact hasExpiredInfo_quiet _

theorem hasExpiredO_quiet (p : Option Ptr) : NoThrow (Impl.hasExpiredO O p : Impl.CM K V Bool) := by
  cases p with
  | none => exact .pure _
  | some p =>
    exact (oLookup_quiet _).bind fun _ => (derefIt_quiet _).bind fun _ => (mapFind_quiet _).bind fun n => by
      cases n with
      | none => exact .ub
      | some n => exact hasExpiredInfo_quiet _

theorem hasExpiredF_tracks (k : K) : Tracks F True P (Impl.hasExpiredF O F k) (Impl.hasExpired O k) t := by
  refine Tracks.noexcept (N := True) (P := fun _ => True) ?_ (hasExpired_quiet k t.s)
  refine .bind (mapFindF_tracks _ trivial) fun n _ _ _ => ?_
  cases n with
  | none => exact .pure _
  | some n => exact .on _

theorem keyAt_looks (p : Option Ptr) : Looks0 (Impl.keyAt p : Impl.CM K V K) := by
  cases p with
  | none => intro a s s' h; cases h
  | some p =>
    refine Looks0.bind (fun a s s' h => ?_) fun _ => keyOf_looks _
    unfold Impl.derefOrder at h
    split at h
    · cases h; rfl
    · cases h

theorem oLookupF_tracks (p : Option Ptr) (hp : P t.s) : Tracks F N P (Impl.oLookupF F p) (Impl.oLookup p) t := by
  refine .bind (.on _) fun k s u h => .bind (mapFindF_tracks _ ?_) fun n _ _ _ => ?_
  · cases keyAt_looks _ _ _ _ h
    exact hp
  · cases n with
    | none => exact .ub
    | some n => exact .pure _

theorem hasExpiredOF_tracks (p : Option Ptr) : Tracks F True P (Impl.hasExpiredOF O F p) (Impl.hasExpiredO O p) t := by
  refine Tracks.noexcept (N := True) (P := fun _ => True) ?_ (hasExpiredO_quiet p t.s)
  cases p with
  | none => exact .pure _
  | some p =>
    refine .bind (oLookupF_tracks _ trivial) fun q _ _ _ => .bind (.on _) fun n _ _ _ =>
      .bind (mapFindF_tracks _ trivial) fun m _ _ _ => ?_
    cases m with
    | none => exact .ub
    | some n => exact .on _

theorem isValidOF_tracks (p : Option Ptr) : Tracks F True P (Impl.isValidOF O F p) (Impl.isValidO O p) t := by
  cases p with
  | none => exact .pure _
  | some p =>
    refine .bind (.on _) fun kd _ _ _ => ?_
    cases kd with
    | basic => exact .pure _
    | timed => exact .bind (hasExpiredOF_tracks _) fun _ _ _ _ => .pure _

theorem throwIfInvalidOF_tracks (p : Option Ptr) : Tracks F True P (Impl.throwIfInvalidOF O F p) (Impl.throwIfInvalidO O p) t := by
  cases p with
  | none => exact .raise _
  | some p =>
    refine .bind (.on _) fun kd _ _ _ => ?_
    cases kd with
    | basic => exact .pure _
    | timed => exact .bind (hasExpiredOF_tracks _) fun _ _ _ _ => .ite (fun _ => .raise _) (fun _ => .pure _)

theorem hasExpiredInfo_untouched {s s' : St (Cache K V) K V} {i : Int} {b : Bool}
    (h : Impl.hasExpiredInfo O i s = .ok b s') : Untouched s s' := by
  unfold Impl.hasExpiredInfo at h
  rw [bind_ok (m := Impl.getKind) (s := s) rfl] at h
  cases hk : s.c.kind with
  | basic => rw [hk] at h; cases h; exact .refl _
  | timed => rw [hk] at h; cases h; exact ⟨rfl, _, _, rfl⟩

/-- Functions that touch nothing. -/
def Idles (m : Impl.CM K V α) : Prop := ∀ a s s', m s = .ok a s' → Untouched s s'

theorem Looks0.idles {m : Impl.CM K V α} (h : Looks0 m) : Idles m := by
  intro a s s' h1
  rw [h a s s' h1]
  exact .refl _

theorem Idles.bind {m : Impl.CM K V α} {f : α → Impl.CM K V β} (h : Idles m) (hf : ∀ a, Idles (f a)) : Idles (m >>= f) := by
  intro b s s' hb
  obtain ⟨a, s1, h1, h2⟩ := bind_ok_inv hb
  exact (h a s s1 h1).trans (hf a b s1 s' h2)

theorem Idles.never {m : Impl.CM K V α} (h : ∀ a s s', m s ≠ .ok a s') : Idles m := fun a s s' h1 => absurd h1 (h a s s')

theorem derefIt_looks (p : Option Ptr) : Looks0 (Impl.derefIt p : Impl.CM K V (MapNode K V)) := by
  intro a s s' h
  unfold Impl.derefIt at h
  cases p with
  | none => cases h
  | some p =>
    dsimp only at h
    split at h
    · cases h; rfl
    · cases h

theorem oLookup_looks (p : Option Ptr) : Looks0 (Impl.oLookup p : Impl.CM K V Ptr) :=
  (keyAt_looks p).bind fun _ => (mapFind_looks _).bind fun n => by
    cases n with
    | none => intro a s s' h; cases h
    | some n => exact .pure _

theorem throwIfInvalidO_idles (p : Option Ptr) : Idles (Impl.throwIfInvalidO O p : Impl.CM K V Unit) := by
  cases p with
  | none => exact .never fun a s s' h => by cases h
  | some p =>
    refine Idles.bind (fun a s s' h => by cases h; exact .refl _) fun kd => ?_
    cases kd with
    | basic => exact (Looks0.pure _).idles
    | timed =>
      refine Idles.bind ((oLookup_looks _).idles.bind fun _ => (derefIt_looks _).idles.bind fun _ =>
        (mapFind_looks _).idles.bind fun n => ?_) fun b => ?_
      · cases n with
        | none => exact .never fun a s s' h => by cases h
        | some n => exact fun a s s' h => hasExpiredInfo_untouched h
      · cases b with
        | true => exact .never fun a s s' h => by cases h
        | false => exact (Looks0.pure _).idles

theorem oValueF_tracks (it : Impl.OIt) (hp : ∀ s, Untouched t.s s → P s) :
    Tracks F True P (Impl.oValueF O F it) (Impl.oValue O it) t := by
  refine .bind (.bind (throwIfInvalidOF_tracks _) fun _ _ _ h1 => ?_) fun _ _ _ _ => .bind (.on _) fun _ _ _ _ => .pure _
  unfold Impl.oDerefF Impl.oDeref
  cases it.entry with
  | some _ => exact .pure _
  | none => exact .bind (oLookupF_tracks _ (hp _ (throwIfInvalidO_idles _ _ _ _ h1))) fun _ _ _ _ => .pure _

theorem oKeyF_tracks (p : Option Ptr) : Tracks F True P (Impl.oKeyF O F p) (Impl.oKey O { pos := p }) t :=
  .bind (throwIfInvalidOF_tracks _) fun _ _ _ _ => .on _

theorem eraseOF_tracks (p : Option Ptr) (hp : ∀ s, Untouched t.s s → P s) :
    Tracks F True P (Impl.eraseOF O F p) (Impl.eraseO O { pos := p }) t := by
  cases p with
  | none => exact .raise _
  | some p =>
    refine .bind (oKeyF_tracks _) fun k s u h => .bind (mapFindF_tracks _ (hp _ ?_)) fun _ _ _ _ => eraseItF_tracks _
    exact Idles.bind (throwIfInvalidO_idles _) (fun _ => (keyAt_looks _).idles) _ _ _ h

end LRU
