import Verif.Proofs.Copy
/-!
# Invariant of the caches that are not copies, in programs that may copy
-/

set_option linter.unusedSectionVars false
set_option autoImplicit false

namespace LRU

variable {K V : Type} [KeyEqual K] [DecidableEq K] [DecidableEq V] {O : Oracle K V}

theorem sameType_self (k : Kind) : Impl.sameType k k = true := by cases k <;> simp [Impl.sameType]

theorem sameType_comm (k k' : Kind) : Impl.sameType k k' = Impl.sameType k' k := by
  cases k <;> cases k' <;> simp [Impl.sameType, BEq.comm]

theorem sameBase_self (k : Kind) : Impl.sameBase k k = true := by cases k <;> rfl

theorem sameBase_comm (k k' : Kind) : Impl.sameBase k k' = Impl.sameBase k' k := by cases k <;> cases k' <;> rfl

theorem sameType_base {k k' : Kind} (h : Impl.sameType k k' = true) : Impl.sameBase k k' = true := by
  cases k <;> cases k' <;> first | rfl | cases h

/-- A property of caches, given the number of clock readings so far, that calls on well-linked caches keep. -/
structure OwnOK (O : Oracle K V) (P : Cache K V → Nat → Prop) : Prop where
  empty : ∀ {c : Cache K V} {n}, c.map = [] → c.order = [] → c.last = none → P c n
  mono : ∀ {c n m}, P c n → n ≤ m → P c m
  congr : ∀ {c d : Cache K V} {n}, P c n → d.map = c.map → d.order = c.order → d.last = c.last →
    Impl.sameBase d.kind c.kind = true → P d n
  call : ∀ {s s' : St (Cache K V) K V} {t op res}, Rel s t → Ok t → P s.c s.g.ticks → Performs O op s res s' →
    P s'.c s'.g.ticks
  create : ∀ {s s' : St (Cache K V) K V} {t ctor n}, Rel s t → Ok t → P s.c s.g.ticks →
    Impl.ctorBody O ctor s = .ok n s' → P s'.c s'.g.ticks

/-- The invariant. -/
structure OInv (P : Cache K V → Nat → Prop) (w : World K V) (own : Nat → Bool) : Prop where
  pair : WPair LWf Sep w
  own : ∀ (i : Nat) (c : Cache K V), w.caches[i]? = some (some c) → own i = true → LOk c w.g.next ∧ P c w.g.ticks

theorem WPair.view {w : World K V} (h : WPair LWf Sep w) {i : Nat} {c : Cache K V} (hc : w.caches[i]? = some (some c))
    (hl : LOk c w.g.next) : ∃ t, Rel (viewOf w i c) t ∧ Ok t := by
  obtain ⟨a, hr, hw, hcl⟩ := hl
  have w' : AWF a (viewOf w i c).g := by
    refine hw.unbase (g := (viewOf w i c).g) hcl ?_ ?_
    · intro e he n hn
      obtain ⟨j, d, hj, hd, hx⟩ := mem_others.1 hn
      exact (h.pair j i d c hj hd hc).apart n hx e.node (hr.map.mem_iff.2 (List.mem_map.2 ⟨e, he, rfl⟩))
    · intro n hn
      obtain ⟨j, d, hj, hd, hx⟩ := mem_others.1 hn
      exact (h.each j d hd).ids n hx
  exact ⟨⟨a, (viewOf w i c).g⟩, ⟨hr, rfl, w'⟩, ⟨w', hcl⟩⟩

/-- A call that discards the contents does the same on the emptied cache. -/
theorem discards_eq {op : Op K V} (h : op.discards = true) (s : St (Cache K V) K V) :
    Impl.step O op s = Impl.step O op ⟨{ s.c with map := [], order := [], last := none }, s.g⟩ := by
  cases op <;> first | cases h | rfl | skip
  all_goals
    simp only [Impl.step, Impl.ret, Impl.assignRange, Impl.assignRangeMove, Impl.clearAndIncreaseCapacity, bind, M.bind,
      Impl.clear, Impl.setSelf, M.modify]

theorem mark_eq {own : Nat → Bool} {i : Nat} {b : Bool} : mark own i b i = b := by simp [mark]

theorem mark_ne {own : Nat → Bool} {i k : Nat} {b : Bool} (h : k ≠ i) : mark own i b k = own k := by simp [mark, h]

variable {P : Cache K V → Nat → Prop}

/-- What a call does to a cache that owns its contents. -/
theorem OwnOK.member (hP : OwnOK O P) (hO : NoListFault O) {s s' : St (Cache K V) K V} {t : St (MCache K V) K V}
    {op : Op K V} {res : Except Err (Res K V)} (hr : Rel s t) (ht : Ok t) (h : P s.c s.g.ticks)
    (hp : Performs O op s res s') : LOk s'.c s'.g.next ∧ P s'.c s'.g.ticks := by
  refine ⟨?_, hP.call hr ht h hp⟩
  have h1 := member_keeps (step_sim hO op) (step_keeps hO op) hr ht
  cases res <;> (unfold Performs at hp; simp only at hp; rw [hp] at h1)
  all_goals
    obtain ⟨t', hr', hst⟩ := h1
    exact hr'.lok hst.ok

theorem OwnOK.wstep (hP : OwnOK O P) (hO : NoListFault O) {w w' : World K V} {own : Nat → Bool} {op : WOp K V}
    {res : Except Err (Res K V)} (h : OInv P w own) (hp : WPerforms O op w res w') : OInv P w' (ownAfter w own op) := by
  refine ⟨(copies_ok hO).wstep h.pair hp, ?_⟩
  have old : ∀ {k : Nat} {d : Cache K V} {g' : Shared K V}, w.caches[k]? = some (some d) → own k = true →
      w.g.next ≤ g'.next → w.g.ticks ≤ g'.ticks → LOk d g'.next ∧ P d g'.ticks := by
    intro k d g' hd hk h1 h2
    obtain ⟨h3, h4⟩ := h.own k d hd hk
    exact ⟨h3.mono h1, hP.mono h4 h2⟩
  have hexch : ∀ {i j : Nat} {a b a' b' : Cache K V}, w.caches[i]? = some (some a) → w.caches[j]? = some (some b) →
      i ≠ j → SameParts b a' → SameParts a b' →
      Impl.sameBase a'.kind b.kind = true → Impl.sameBase b'.kind a.kind = true →
      ∀ (k : Nat) (c : Cache K V), ((w.caches.set i (some a')).set j (some b'))[k]? = some (some c) →
        mark (mark own i (own j)) j (own i) k = true → LOk c w.g.next ∧ P c w.g.ticks := by
    intro i j a b a' b' ha hb hij ea eb ta tb k c hk hm
    rcases get_set hk with ⟨rfl, h1⟩ | ⟨hkj, h1⟩
    · injection h1 with h1
      subst h1
      rw [mark_eq] at hm
      obtain ⟨h3, h4⟩ := h.own i a ha hm
      exact ⟨h3.congr eb.map eb.order eb.last eb.capacity, hP.congr h4 eb.map eb.order eb.last tb⟩
    · rw [mark_ne hkj] at hm
      rcases get_set h1 with ⟨rfl, h5⟩ | ⟨hki, h5⟩
      · injection h5 with h5
        subst h5
        rw [mark_eq] at hm
        obtain ⟨h3, h4⟩ := h.own j b hb hm
        exact ⟨h3.congr ea.map ea.order ea.last ea.capacity, hP.congr h4 ea.map ea.order ea.last ta⟩
      · rw [mark_ne hki] at hm
        exact h.own k c h5 hm
  have hext : ∀ x ∈ ({ w.g with ext := Impl.allNodes w.caches } : Shared K V).ext,
      x.addr < ({ w.g with ext := Impl.allNodes w.caches } : Shared K V).next := by
    intro x hx
    obtain ⟨j, d, hj, hd⟩ := mem_allNodes.1 hx
    exact (h.pair.each j d hj).ids x hd
  cases hp.effect with
  | created kind ctor n s' hb =>
    intro k c hk hm
    obtain ⟨hr, ht⟩ := empty_rel kind (Impl.ctorCapacity ctor) hext
    have h0 := ctorBody_raw (O := O) ctor _ hr.bounded
    rw [hb] at h0
    have h0 : RawStep _ s' := h0
    rcases get_push hk with ⟨-, h1⟩ | ⟨hne, h1⟩
    · injection h1 with h1
      subst h1
      obtain ⟨m', hs, hkp⟩ := ctorBody_sim hO ctor
      have h1 := member_keeps hs hkp hr ht
      rw [hb] at h1
      obtain ⟨t', hr', hst⟩ := h1
      exact ⟨hr'.lok hst.ok, hP.create hr ht (hP.empty rfl rfl rfl) hb⟩
    · have hm' : mark own w.caches.length true k = true := hm
      rw [mark_ne hne] at hm'
      exact old h1 hm' h0.next h0.ticks
  | createThrow kind ctor e s' hb =>
    intro k c hk hm
    obtain ⟨hr, ht⟩ := empty_rel kind (Impl.ctorCapacity ctor) hext
    have h0 := ctorBody_raw (O := O) ctor _ hr.bounded
    rw [hb] at h0
    have h0 : RawStep _ s' := h0
    have hlt : k < w.caches.length := (List.getElem?_eq_some_iff.1 hk).1
    have hm' : mark own w.caches.length true k = true := hm
    rw [mark_ne (Nat.ne_of_lt hlt)] at hm'
    exact old hk hm' h0.next h0.ticks
  | destroyed i d hd =>
    intro k c hk hm
    rcases get_set hk with ⟨-, h1⟩ | ⟨-, h1⟩
    · cases h1
    · exact h.own k c h1 hm
  | called i o d res s' hd hq =>
    intro k c hk hm
    obtain ⟨t, hr⟩ := h.pair.rel hd
    have h0 : RawStep (viewOf w i d) s' := by
      have h0 := step_raw (O := O) o _ hr.bounded
      cases res <;> (unfold Performs at hq; simp only at hq; rw [hq] at h0; exact h0)
    rcases get_set hk with ⟨rfl, h1⟩ | ⟨hne, h1⟩
    · injection h1 with h1
      subst h1
      by_cases hdis : o.discards = true
      · have hcl : LOk ({ d with map := [], order := [], last := none } : Cache K V) w.g.next := LOk.empty _ _ rfl rfl rfl
        have hp' : Performs O o ⟨{ d with map := [], order := [], last := none }, (viewOf w k d).g⟩ res s' := by
          cases res <;> (unfold Performs at hq ⊢; simp only at hq ⊢; exact (discards_eq hdis _).symm.trans hq)
        obtain ⟨a, hra, hwa, hca⟩ := hcl
        have hw' : AWF a (viewOf w k d).g := by
          refine hwa.unbase (g := (viewOf w k d).g) hca ?_ ?_
          · intro e he
            have := hra.map.mem_iff.2 (List.mem_map.2 ⟨e, he, rfl⟩)
            cases this
          · intro n hn
            obtain ⟨j, d', hj, hd', hx⟩ := mem_others.1 hn
            exact (h.pair.each j d' hd').ids n hx
        exact hP.member hO (s := ⟨{ d with map := [], order := [], last := none }, (viewOf w k d).g⟩) (t := ⟨a, (viewOf w k d).g⟩) ⟨hra, rfl, hw'⟩ ⟨hw', hca⟩ (hP.empty rfl rfl rfl) hp'
      · have hm' : own k = true := by
          have e : ownAfter w own (.op k o) = own := if_neg hdis
          rw [e] at hm
          exact hm
        obtain ⟨h3, h4⟩ := h.own k d hd hm'
        obtain ⟨t, hr, ht⟩ := h.pair.view hd h3
        exact hP.member hO hr ht h4 hq
    · have hm' : own k = true := by
        have hm2 : (if o.discards then mark own i true else own) k = true := hm
        split at hm2
        · rwa [mark_ne hne] at hm2
        · exact hm2
      exact old h1 hm' h0.next h0.ticks
  | swapped i j a b ha hb hij hty =>
    intro k c hk hm
    have e : ownAfter w own (.swap i j) = mark (mark own i (own j)) j (own i) := by
      simp only [ownAfter]
      rw [ha, hb]
      exact if_pos hty
    rw [e] at hm
    exact hexch (a' := { b with obs := a.obs }) (b' := { a with obs := b.obs }) ha hb hij ⟨rfl, rfl, rfl, rfl⟩
      ⟨rfl, rfl, rfl, rfl⟩ (sameBase_self _) (sameBase_self _) k c hk hm
  | swapNothing i j a b ha hb hn =>
    intro k c hk hm
    have e : ownAfter w own (.swap i j) k = own k := by
      simp only [ownAfter]
      rw [ha, hb]
      rcases hn with rfl | hn
      · simp only
        split
        · by_cases hki : k = i
          · subst hki; rw [mark_eq]
          · rw [mark_ne hki, mark_ne hki]
        · rfl
      · simp [hn]
    rw [e] at hm
    exact h.own k c hk hm
  | baseSwapped i j a b ha hb hij hty =>
    intro k c hk hm
    have e : ownAfter w own (.swapBase i j) = mark (mark own i (own j)) j (own i) := by
      simp only [ownAfter]
      rw [ha, hb]
      exact if_pos hty
    rw [e] at hm
    exact hexch (a' := { b with obs := a.obs, kind := a.kind }) (b' := { a with obs := b.obs, kind := b.kind }) ha hb hij
      ⟨rfl, rfl, rfl, rfl⟩ ⟨rfl, rfl, rfl, rfl⟩ hty (by rw [sameBase_comm]; exact hty) k c hk hm
  | baseSwapNothing i j a b ha hb hn =>
    intro k c hk hm
    have e : ownAfter w own (.swapBase i j) k = own k := by
      simp only [ownAfter]
      rw [ha, hb]
      rcases hn with rfl | hn
      · simp only
        split
        · by_cases hki : k = i
          · subst hki; rw [mark_eq]
          · rw [mark_ne hki, mark_ne hki]
        · rfl
      · simp [hn]
    rw [e] at hm
    exact h.own k c hk hm
  | moved i b hb =>
    intro k c hk hm
    have hlt : i < w.caches.length := (List.getElem?_eq_some_iff.1 hb).1
    have hm' : mark (mark own i true) w.caches.length (own i) k = true := hm
    rcases get_push hk with ⟨h0, h1⟩ | ⟨hne, h1⟩
    · injection h1 with h1
      subst h1
      rw [List.length_set] at h0
      subst h0
      rw [mark_eq] at hm'
      obtain ⟨h3, h4⟩ := h.own i b hb hm'
      exact ⟨h3.congr rfl rfl rfl rfl, hP.congr h4 rfl rfl rfl (sameBase_self _)⟩
    · rw [List.length_set] at hne
      rw [mark_ne hne] at hm'
      rcases get_set h1 with ⟨rfl, h5⟩ | ⟨hki, h5⟩
      · injection h5 with h5
        subst h5
        exact ⟨LOk.empty _ _ rfl rfl rfl, hP.empty rfl rfl rfl⟩
      · rw [mark_ne hki] at hm'
        exact h.own k c h5 hm'
  | moveAssigned i j a b ha hb hij hty =>
    intro k c hk hm
    have e : ownAfter w own (.moveAssign i j) = mark (mark own i (own j)) j (own i) := by
      simp only [ownAfter]
      rw [ha, hb]
      exact if_pos hty
    rw [e] at hm
    exact hexch (a' := { b with obs := a.obs }) (b' := { a with obs := b.obs, kind := b.kind }) ha hb hij
      ⟨rfl, rfl, rfl, rfl⟩ ⟨rfl, rfl, rfl, rfl⟩ (sameBase_self _) (sameType_base (by rw [sameType_comm]; exact hty)) k c hk hm
  | moveNothing i j a b ha hb hn =>
    intro k c hk hm
    have e : ownAfter w own (.moveAssign i j) k = own k := by
      simp only [ownAfter]
      rw [ha, hb]
      rcases hn with rfl | hn
      · simp only
        split
        · by_cases hki : k = i
          · subst hki; rw [mark_eq]
          · rw [mark_ne hki, mark_ne hki]
        · rfl
      · simp [hn]
    rw [e] at hm
    exact h.own k c hk hm
  | copied i b d hb hd =>
    intro k c hk hm
    have hm' : mark own w.caches.length false k = true := hm
    rcases get_push hk with ⟨rfl, h1⟩ | ⟨hne, h1⟩
    · rw [mark_eq] at hm'
      cases hm'
    · rw [mark_ne hne] at hm'
      exact old h1 hm' (le_add_add _ _ _) (Nat.le_refl _)
  | copyThrow i b hb hf =>
    intro k c hk hm
    have hlt : k < w.caches.length := (List.getElem?_eq_some_iff.1 hk).1
    have hm' : mark own w.caches.length false k = true := hm
    rw [mark_ne (Nat.ne_of_lt hlt)] at hm'
    exact old hk hm' (Nat.le_refl _) (Nat.le_refl _)
  | copyAssigned i j a b d ha hb hij hty hd =>
    intro k c hk hm
    have e : ownAfter w own (.copyAssign i j) = mark own i false := if_neg hij
    rw [e] at hm
    rcases get_set hk with ⟨rfl, h1⟩ | ⟨hne, h1⟩
    · rw [mark_eq] at hm
      cases hm
    · rw [mark_ne hne] at hm
      exact old h1 hm (le_add_add _ _ _) (Nat.le_refl _)
  | copyNothing i j a b ha hb hn =>
    intro k c hk hm
    refine h.own k c hk ?_
    have hm' : (if i = j then own else mark own i false) k = true := hm
    split at hm'
    · exact hm'
    · by_cases hki : k = i
      · subst hki
        rw [mark_eq] at hm'
        cases hm'
      · rwa [mark_ne hki] at hm'
  | same i a ha => exact h.own
  | compared i j a b r ha hb hij he => exact h.own
  | newStats ks => exact h.own
  | stat id o st hs => exact h.own
  | statThrow id o e hs => exact h.own

theorem OwnOK.prog (hP : OwnOK O P) (hO : NoListFault O) {w : World K V} {own : Nat → Bool} (h : Prog O w own) :
    OInv P w own := by
  induction h with
  | init => exact ⟨⟨by intro i c h; simp [Impl.initWorld] at h, by intro i j c d _ h; simp [Impl.initWorld] at h⟩,
      by intro i c h; simp [Impl.initWorld] at h⟩
  | step op _ hs ih => exact hP.wstep hO ih (res := .ok _) hs
  | throw op _ hs ih => exact hP.wstep hO ih (res := .error _) hs

theorem trivial_own : OwnOK O (fun (_ : Cache K V) _ => True) :=
  ⟨fun _ _ _ => trivial, fun _ _ => trivial, fun _ _ _ _ _ => trivial, fun _ _ _ _ => trivial, fun _ _ _ _ => trivial⟩

/-- A cache that owns its contents has a well-linked counterpart. -/
theorem Prog.view (hO : NoListFault O) {w : World K V} {own : Nat → Bool} (h : Prog O w own) {i : Nat} {c : Cache K V}
    (hi : own i = true) (hc : w.caches[i]? = some (some c)) : ∃ t, Rel (viewOf w i c) t ∧ Ok t := by
  have h1 := trivial_own.prog hO h
  exact h1.pair.view hc (h1.own i c hc hi).1

/-- Every reachable cache has a well-linked list-machine counterpart. -/
theorem Reachable.rel (hO : NoListFault O) {s : St (Cache K V) K V} (h : Reachable O s) :
    ∃ t, Rel s t ∧ Ok t := by
  obtain ⟨w, own, i, c, hw, hi, hc, rfl⟩ := h
  exact hw.view hO hi hc

theorem OwnOK.reachable (hP : OwnOK O P) (hO : NoListFault O) {s : St (Cache K V) K V} (h : Reachable O s) :
    P s.c s.g.ticks := by
  obtain ⟨w, own, i, c, hw, hi, hc, rfl⟩ := h
  exact ((hP.prog hO hw).own i c hc hi).2

end LRU
