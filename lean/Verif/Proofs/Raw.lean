import Verif.Proofs.Anatomy
/-!
# What every call guarantees, in every environment and for every cache

Unlike `Proofs.Keeps` this assumes nothing about the environment (list nodes may fail to be allocated) and nothing about
the cache (it may be a copy): all that is kept is the bound on the size, and that the references in `_order` do not
point into other caches.
-/

set_option linter.unusedSectionVars false
set_option autoImplicit false

namespace LRU

variable {K V : Type} [KeyEqual K] {α β : Type}

/-- The size is bounded by the capacity; references lead to the cache itself or nowhere; addresses are not yet used. -/
structure Bounded (s : St (Cache K V) K V) : Prop where
  cap : ∀ n, s.c.capacity = some n → s.c.map.length ≤ n
  unset : s.c.capacity = none → s.c.map = []
  refs : ∀ l ∈ s.c.order, ∀ x ∈ s.g.ext, x.addr ≠ l.ref
  nodesLt : ∀ x ∈ s.c.map, x.addr < s.g.next
  refsLt : ∀ l ∈ s.c.order, l.ref < s.g.next
  extLt : ∀ x ∈ s.g.ext, x.addr < s.g.next

/-- What every call guarantees. -/
structure RawStep (s s' : St (Cache K V) K V) : Prop where
  bounded : Bounded s'
  ext : s'.g.ext = s.g.ext
  next : s.g.next ≤ s'.g.next
  ticks : s.g.ticks ≤ s'.g.ticks
  kind : s'.c.kind = s.c.kind
  nodes : ∀ x ∈ s'.c.map, (∃ y ∈ s.c.map, y.addr = x.addr ∧ y.info.order = x.info.order) ∨ s.g.next ≤ x.addr

/-- A program all of whose outcomes satisfy `RawStep`. -/
def Raw (m : Impl.CM K V α) : Prop := ∀ s, Bounded s → (m s).Post (RawStep s)

theorem RawStep.refl {s : St (Cache K V) K V} (h : Bounded s) : RawStep s s :=
  ⟨h, rfl, Nat.le_refl _, Nat.le_refl _, rfl, fun x hx => .inl ⟨x, hx, rfl, rfl⟩⟩

theorem RawStep.trans {s s' s'' : St (Cache K V) K V} (h : RawStep s s') (h' : RawStep s' s'') : RawStep s s'' where
  bounded := h'.bounded
  ext := h'.ext.trans h.ext
  next := Nat.le_trans h.next h'.next
  ticks := Nat.le_trans h.ticks h'.ticks
  kind := h'.kind.trans h.kind
  nodes := by
    intro x hx
    rcases h'.nodes x hx with ⟨y, hy, h1, h2⟩ | hn
    · rcases h.nodes y hy with ⟨z, hz, h3, h4⟩ | hn
      · exact .inl ⟨z, hz, h3.trans h1, h4.trans h2⟩
      · right; rw [← h1]; exact hn
    · exact .inr (Nat.le_trans h.next hn)

section rules

theorem Raw.bind {m : Impl.CM K V α} {f : α → Impl.CM K V β} (h : Raw m) (h' : ∀ a, Raw (f a)) : Raw (m >>= f) := by
  intro s hs
  have h1 := h s hs
  show (M.bind m f s).Post _
  unfold M.bind
  cases hm : m s with
  | ok a s' =>
    rw [hm] at h1
    have h2 := h' a s' h1.bounded
    simp only
    cases hf : f a s' <;> rw [hf] at h2 <;> first | trivial | exact RawStep.trans h1 h2
  | throw e s' => rw [hm] at h1; exact h1
  | ub => trivial
  | terminate => trivial
  | diverge => trivial

theorem Raw.pure {a : α} : Raw (Pure.pure a : Impl.CM K V α) := fun _ h => RawStep.refl h
theorem Raw.throw {e : Err} : Raw (M.throw e : Impl.CM K V α) := fun _ h => RawStep.refl h
theorem Raw.ub : Raw (M.ub : Impl.CM K V α) := fun _ _ => trivial
theorem Raw.diverge : Raw (M.diverge : Impl.CM K V α) := fun _ _ => trivial

theorem Raw.ite {c : Prop} [Decidable c] {m m' : Impl.CM K V α} (h : Raw m) (h' : Raw m') :
    Raw (if c then m else m') := by split <;> assumption

theorem Raw.noexcept {m : Impl.CM K V α} (h : Raw m) : Raw (M.noexcept m) := by
  intro s hs
  have := h s hs
  unfold M.noexcept
  cases hm : m s <;> rw [hm] at this <;> first | exact this | trivial

theorem Raw.ret {m : Impl.CM K V α} {f : α → Res K V} (h : Raw m) : Raw (Impl.ret m f) := h.bind fun _ => .pure

/-- The cache is left alone. -/
theorem Raw.of_shared {m : Impl.CM K V α}
    (h : ∀ s, (m s).Post (fun s' => s'.c = s.c ∧ s'.g.ext = s.g.ext ∧ s.g.next ≤ s'.g.next ∧ s.g.ticks ≤ s'.g.ticks)) : Raw m := by
  intro s hs
  have h1 := h s
  cases hm : m s <;> rw [hm] at h1 <;> first | trivial | skip
  all_goals
    obtain ⟨h1, h2, h3, h4⟩ := h1
    refine ⟨⟨?_, ?_, ?_, ?_, ?_, ?_⟩, h2, h3, h4, by rw [h1], ?_⟩
    · rw [h1]; exact hs.cap
    · rw [h1]; exact hs.unset
    · rw [h1, h2]; exact hs.refs
    · rw [h1]; exact fun x hx => Nat.lt_of_lt_of_le (hs.nodesLt x hx) h3
    · rw [h1]; exact fun x hx => Nat.lt_of_lt_of_le (hs.refsLt x hx) h3
    · rw [h2]; exact fun x hx => Nat.lt_of_lt_of_le (hs.extLt x hx) h3
    · rw [h1]; exact fun x hx => .inl ⟨x, hx, rfl, rfl⟩

/-- Nothing changes. -/
theorem Raw.of_ok {m : Impl.CM K V α} {f : St (Cache K V) K V → α} (h : ∀ s, m s = .ok (f s) s) : Raw m := by
  refine .of_shared fun s => ?_
  rw [h]
  exact ⟨rfl, rfl, Nat.le_refl _, Nat.le_refl _⟩

/-- The containers only lose elements, or elements change without affecting addresses and links. -/
theorem RawStep.of_change {s : St (Cache K V) K V} (hs : Bounded s) {c' : Cache K V}
    (h1 : c'.capacity = s.c.capacity) (h2 : c'.kind = s.c.kind) (h3 : c'.map.length ≤ s.c.map.length)
    (h4 : ∀ x ∈ c'.map, ∃ y ∈ s.c.map, y.addr = x.addr ∧ y.info.order = x.info.order)
    (h5 : ∀ l ∈ c'.order, ∃ y ∈ s.c.order, y.ref = l.ref) : RawStep s ⟨c', s.g⟩ := by
  refine ⟨⟨?_, ?_, ?_, ?_, ?_, hs.extLt⟩, rfl, Nat.le_refl _, Nat.le_refl _, h2, fun x hx => .inl (h4 x hx)⟩
  · intro n hn
    exact Nat.le_trans h3 (hs.cap n (h1 ▸ hn))
  · intro hn
    have := hs.unset (h1 ▸ hn)
    rw [this] at h3
    exact List.length_eq_zero_iff.1 (Nat.le_zero.1 h3)
  · intro l hl x hx
    obtain ⟨y, hy, e⟩ := h5 l hl
    rw [← e]
    exact hs.refs y hy x hx
  · intro x hx
    obtain ⟨y, hy, e, -⟩ := h4 x hx
    rw [← e]
    exact hs.nodesLt y hy
  · intro l hl
    obtain ⟨y, hy, e⟩ := h5 l hl
    rw [← e]
    exact hs.refsLt y hy

theorem Raw.setSelf {f : Cache K V → Cache K V} (h : ∀ s, Bounded s → RawStep s ⟨f s.c, s.g⟩) :
    Raw (Impl.setSelf f) := fun s hs => h s hs

end rules

section ops

variable [DecidableEq K] {O : Oracle K V}

theorem size_raw : Raw (Impl.size : Impl.CM K V Nat) := .of_ok fun _ => rfl
theorem getKind_raw : Raw (Impl.getKind : Impl.CM K V Kind) := .of_ok fun _ => rfl
theorem getObs_raw : Raw (Impl.getObs : Impl.CM K V Obs) := .of_ok fun _ => rfl
theorem getLast_raw : Raw (Impl.getLast : Impl.CM K V _) := .of_ok fun _ => rfl
theorem orderFirst_raw : Raw (Impl.orderFirst : Impl.CM K V _) := .of_ok fun _ => rfl
theorem orderLast_raw : Raw (Impl.orderLast : Impl.CM K V _) := .of_ok fun _ => rfl
theorem orderAddrs_raw : Raw (Impl.orderAddrs : Impl.CM K V _) := .of_ok fun _ => rfl
theorem mapFind_raw {k : K} : Raw (Impl.mapFind k : Impl.CM K V _) := .of_ok fun _ => rfl

theorem deref_raw {p : Ptr} : Raw (Impl.deref p : Impl.CM K V _) := by
  intro s hs
  unfold Impl.deref
  split
  · exact RawStep.refl hs
  · split
    · exact RawStep.refl hs
    · trivial

theorem derefIt_raw {it : Option Ptr} : Raw (Impl.derefIt it : Impl.CM K V _) := by
  cases it with
  | none => exact .ub
  | some p =>
    intro s hs
    unfold Impl.derefIt
    simp only
    split
    · exact RawStep.refl hs
    · trivial

theorem derefOrder_raw {p : Ptr} : Raw (Impl.derefOrder p : Impl.CM K V _) := by
  intro s hs
  unfold Impl.derefOrder
  split
  · exact RawStep.refl hs
  · trivial

theorem readCapacity_raw : Raw (Impl.readCapacity : Impl.CM K V _) := by
  intro s hs
  unfold Impl.readCapacity
  split
  · exact RawStep.refl hs
  · trivial

theorem attempt_raw {site : Site} : Raw (attempt O site : Impl.CM K V Unit) := by
  refine .of_shared fun s => ?_
  unfold attempt
  simp only
  split <;> exact ⟨rfl, rfl, Nat.le_refl _, Nat.le_refl _⟩

theorem may_raw {site : Site} : Raw (may O site : Impl.CM K V (Option Nat)) :=
  .of_shared fun _ => ⟨rfl, rfl, Nat.le_refl _, Nat.le_refl _⟩

theorem now_raw : Raw (now O : Impl.CM K V Int) := .of_shared fun _ => ⟨rfl, rfl, Nat.le_refl _, Nat.le_succ _⟩

theorem emit_raw {e : Event K V} : Raw (emit e : Impl.CM K V Unit) := .of_shared fun _ => ⟨rfl, rfl, Nat.le_refl _, Nat.le_refl _⟩

theorem modStats_raw {i : Nat} {f : Statistics K → Statistics K} : Raw (modStats i f : Impl.CM K V Unit) :=
  .of_shared fun _ => ⟨rfl, rfl, Nat.le_refl _, Nat.le_refl _⟩

theorem callEach_raw {ev : Nat → Event K V} {l : List Nat} : Raw (callEach O ev l : Impl.CM K V Unit) := by
  induction l with
  | nil => exact .pure
  | cons cb r ih => exact emit_raw.bind fun _ => attempt_raw.bind fun _ => ih

theorem countHit_raw {o : Obs} {k : K} : Raw (countHit o k : Impl.CM K V Unit) := by
  unfold countHit
  split
  · exact modStats_raw
  · exact .pure

theorem countMiss_raw {o : Obs} {k : K} : Raw (countMiss o k : Impl.CM K V Unit) := by
  unfold countMiss
  split
  · exact modStats_raw
  · exact .pure

theorem registerHit_raw {o : Obs} {k : K} {v : V} : Raw (registerHit O o k v : Impl.CM K V Unit) :=
  countHit_raw.bind fun _ => callEach_raw.bind fun _ => callEach_raw

theorem registerMiss_raw {o : Obs} {k : K} : Raw (registerMiss O o k : Impl.CM K V Unit) :=
  countMiss_raw.bind fun _ => callEach_raw.bind fun _ => callEach_raw

theorem orderErase_raw {it : Option Ptr} : Raw (Impl.orderErase it : Impl.CM K V Unit) := by
  cases it with
  | none => exact .ub
  | some p =>
    refine derefOrder_raw.bind fun _ => .setSelf fun s hs => .of_change hs rfl rfl (Nat.le_refl _)
      (fun x hx => ⟨x, hx, rfl, rfl⟩) fun l hl => ?_
    exact ⟨l, (List.mem_filter.1 hl).1, rfl⟩

theorem spliceToEnd_raw {it : Option Ptr} : Raw (Impl.spliceToEnd it : Impl.CM K V Unit) := by
  cases it with
  | none => exact .ub
  | some p =>
    intro s hs
    show (M.bind (Impl.derefOrder p) _ s).Post _
    unfold M.bind Impl.derefOrder
    cases hf : s.c.order.find? (fun n => n.addr == p) with
    | none => trivial
    | some n =>
      refine RawStep.of_change hs rfl rfl (Nat.le_refl _) (fun x hx => ⟨x, hx, rfl, rfl⟩) fun l hl => ?_
      rcases List.mem_append.1 hl with hl | hl
      · exact ⟨l, (List.mem_filter.1 hl).1, rfl⟩
      · rw [List.mem_singleton.1 hl]
        exact ⟨n, List.mem_of_find?_eq_some hf, rfl⟩

theorem mapEraseAt_raw {p : Ptr} : Raw (Impl.mapEraseAt p : Impl.CM K V Unit) :=
  .setSelf fun _ hs => .of_change hs rfl rfl (List.length_filter_le ..)
    (fun x hx => ⟨x, (List.mem_filter.1 hx).1, rfl, rfl⟩) (fun l hl => ⟨l, hl, rfl⟩)

theorem mapEraseKey_raw {k : K} : Raw (Impl.mapEraseKey k : Impl.CM K V Unit) :=
  .setSelf fun _ hs => .of_change hs rfl rfl (List.length_filter_le ..)
    (fun x hx => ⟨x, (List.mem_filter.1 hx).1, rfl, rfl⟩) (fun l hl => ⟨l, hl, rfl⟩)

theorem assignValue_raw {p : Ptr} {v : V} : Raw (Impl.assignValue p v : Impl.CM K V Unit) := by
  refine .setSelf fun s hs => .of_change hs rfl rfl (by simp) (fun x hx => ?_) (fun l hl => ⟨l, hl, rfl⟩)
  obtain ⟨y, hy, rfl⟩ := List.mem_map.1 hx
  refine ⟨y, hy, ?_⟩
  split <;> exact ⟨rfl, rfl⟩

theorem tearValue_raw {p : Ptr} {f : V → V} : Raw (Impl.tearValue p f : Impl.CM K V Unit) := by
  refine .setSelf fun s hs => .of_change hs rfl rfl (by simp) (fun x hx => ?_) (fun l hl => ⟨l, hl, rfl⟩)
  obtain ⟨y, hy, rfl⟩ := List.mem_map.1 hx
  refine ⟨y, hy, ?_⟩
  split <;> exact ⟨rfl, rfl⟩

theorem tryAssign_raw {p : Ptr} {v : V} : Raw (Impl.tryAssign O p v) := by
  refine may_raw.bind fun r => ?_
  cases r with
  | none => exact assignValue_raw
  | some n => exact tearValue_raw.bind fun _ => .throw

theorem lastInvalidate_raw : Raw (Impl.lastInvalidate : Impl.CM K V Unit) :=
  .setSelf fun _ hs => .of_change hs rfl rfl (Nat.le_refl _) (fun x hx => ⟨x, hx, rfl, rfl⟩) (fun l hl => ⟨l, hl, rfl⟩)

theorem setLast_raw {p : Ptr} : Raw (Impl.setLast p : Impl.CM K V Unit) :=
  .setSelf fun _ hs => .of_change hs rfl rfl (Nat.le_refl _) (fun x hx => ⟨x, hx, rfl, rfl⟩) (fun l hl => ⟨l, hl, rfl⟩)

theorem setObs_raw {f : Cache K V → Cache K V} (h : ∀ c, f c = { c with obs := (f c).obs }) :
    Raw (Impl.setSelf f : Impl.CM K V Unit) := by
  refine .setSelf fun s hs => ?_
  rw [h s.c]
  exact .of_change hs rfl rfl (Nat.le_refl _) (fun x hx => ⟨x, hx, rfl, rfl⟩) (fun l hl => ⟨l, hl, rfl⟩)

theorem clear_raw : Raw (Impl.clear : Impl.CM K V Unit) :=
  .setSelf fun _ hs => .of_change hs rfl rfl (Nat.zero_le _) (fun x hx => (by cases hx)) (fun l hl => (by cases hl))

theorem lastIs_raw {k : K} : Raw (Impl.lastIs k : Impl.CM K V Bool) := by
  refine getLast_raw.bind fun o => ?_
  cases o with
  | none => exact .pure
  | some p => exact deref_raw.bind fun _ => .pure

theorem lastNode_raw : Raw (Impl.lastNode : Impl.CM K V _) := by
  refine getLast_raw.bind fun o => ?_
  cases o with
  | none => exact .ub
  | some p => exact deref_raw

theorem hasExpiredInfo_raw {t : Int} : Raw (Impl.hasExpiredInfo O t : Impl.CM K V Bool) := by
  refine getKind_raw.bind fun kind => ?_
  cases kind with
  | basic => exact .pure
  | timed a b => exact now_raw.bind fun _ => .pure

theorem lastAccessedIsOk_raw : Raw (Impl.lastAccessedIsOk O : Impl.CM K V Bool) := by
  refine getKind_raw.bind fun kind => ?_
  cases kind with
  | basic => exact .pure
  | timed a b => exact lastNode_raw.bind fun _ => hasExpiredInfo_raw.bind fun _ => .pure

theorem valueForLastAccessed_raw : Raw (Impl.valueForLastAccessed O : Impl.CM K V _) := by
  refine lastNode_raw.bind fun n => getKind_raw.bind fun kind => ?_
  cases kind with
  | basic => exact .pure
  | timed a b => exact hasExpiredInfo_raw.bind fun _ => .ite .throw .pure

theorem moveToFront_raw {it : Option Ptr} : Raw (Impl.moveToFront it : Impl.CM K V Unit) :=
  size_raw.bind fun _ => .ite .pure spliceToEnd_raw

theorem moveToFrontAssign_raw {n : MapNode K V} {v : V} : Raw (Impl.moveToFrontAssign O n v) :=
  moveToFront_raw.bind fun _ => tryAssign_raw

theorem invalidateIf_raw {k : K} : Raw (Impl.invalidateIf k : Impl.CM K V Unit) :=
  lastIs_raw.bind fun _ => .ite lastInvalidate_raw .pure

theorem eraseIt_raw {it : Option Ptr} : Raw (Impl.eraseIt it : Impl.CM K V Unit) :=
  derefIt_raw.bind fun _ => invalidateIf_raw.bind fun _ => orderErase_raw.bind fun _ => mapEraseAt_raw

theorem eraseKeyInfo_raw {n : MapNode K V} : Raw (Impl.eraseKeyInfo n : Impl.CM K V Unit) :=
  invalidateIf_raw.bind fun _ => orderErase_raw.bind fun _ => mapEraseKey_raw

theorem keyOf_raw {l : ListNode} : Raw (Impl.keyOf l : Impl.CM K V K) := deref_raw.bind fun _ => .pure

theorem orderFront_raw : Raw (Impl.orderFront : Impl.CM K V _) := by
  refine orderFirst_raw.bind fun o => ?_
  cases o with
  | none => exact .ub
  | some l => exact .pure

theorem orderBack_raw : Raw (Impl.orderBack : Impl.CM K V _) := by
  refine orderLast_raw.bind fun o => ?_
  cases o with
  | none => exact .ub
  | some l => exact .pure

theorem eraseLru_raw : Raw (Impl.eraseLru : Impl.CM K V Unit) :=
  orderFront_raw.bind fun _ => keyOf_raw.bind fun _ => mapFind_raw.bind fun _ => eraseIt_raw

theorem insertionTime_raw : Raw (Impl.insertionTime O : Impl.CM K V Int) := by
  refine getKind_raw.bind fun kind => ?_
  cases kind with
  | basic => exact .pure
  | timed a b => exact now_raw

/-- The state between the allocation of the new map node `p` and that of its list node: the cache may hold one element
too many. -/
structure Between (s s' : St (Cache K V) K V) (p : Ptr) (extra : Nat) : Prop where
  capacity : s'.c.capacity = s.c.capacity
  kind : s'.c.kind = s.c.kind
  ext : s'.g.ext = s.g.ext
  next : p < s'.g.next
  ticks : s.g.ticks ≤ s'.g.ticks
  length : ∀ n, s.c.capacity = some n → s'.c.map.length ≤ n + extra
  nodes : ∀ x ∈ s'.c.map, (∃ y ∈ s.c.map, y.addr = x.addr ∧ y.info.order = x.info.order) ∨ p = x.addr
  refs : ∀ l ∈ s'.c.order, (∃ y ∈ s.c.order, y.ref = l.ref) ∨ p = l.ref

theorem Between.step {s s' : St (Cache K V) K V} {p : Ptr} (h : Between s s' p 0) (hs : Bounded s)
    (hp : s.g.next ≤ p) (hc : s.c.capacity ≠ none) : RawStep s s' := by
  have hn : s.g.next ≤ s'.g.next := Nat.le_of_lt (Nat.lt_of_le_of_lt hp h.next)
  refine ⟨⟨?_, ?_, ?_, ?_, ?_, ?_⟩, h.ext, hn, h.ticks, h.kind, ?_⟩
  · intro n hn
    exact h.length n (h.capacity ▸ hn)
  · intro hn
    exact absurd (h.capacity ▸ hn) hc
  · intro l hl x hx
    rw [h.ext] at hx
    rcases h.refs l hl with ⟨y, hy, e⟩ | e
    · rw [← e]; exact hs.refs y hy x hx
    · rw [← e]
      exact Nat.ne_of_lt (Nat.lt_of_lt_of_le (hs.extLt x hx) hp)
  · intro x hx
    rcases h.nodes x hx with ⟨y, hy, e, -⟩ | e
    · rw [← e]; exact Nat.lt_of_lt_of_le (hs.nodesLt y hy) hn
    · rw [← e]; exact h.next
  · intro x hx
    rcases h.refs x hx with ⟨y, hy, e⟩ | e
    · rw [← e]; exact Nat.lt_of_lt_of_le (hs.refsLt y hy) hn
    · rw [← e]; exact h.next
  · rw [h.ext]
    exact fun x hx => Nat.lt_of_lt_of_le (hs.extLt x hx) hn
  · intro x hx
    rcases h.nodes x hx with h | e
    · exact .inl h
    · right; rw [← e]; exact hp

theorem moveToFront_between {s0 s : St (Cache K V) K V} {p : Ptr} {n : Nat} {it : Option Ptr} (h : Between s0 s p n) :
    (Impl.moveToFront it s).Post (fun s' => Between s0 s' p n) := by
  unfold Impl.moveToFront
  show (M.bind Impl.size _ s).Post _
  unfold M.bind Impl.size
  simp only
  split
  · exact h
  · cases it with
    | none => trivial
    | some q =>
      show (M.bind (Impl.derefOrder q) _ s).Post _
      unfold M.bind Impl.derefOrder
      cases hf : s.c.order.find? (fun n => n.addr == q) with
      | none => trivial
      | some m =>
        refine ⟨h.capacity, h.kind, h.ext, h.next, h.ticks, h.length, h.nodes, fun l hl => ?_⟩
        rcases List.mem_append.1 hl with hl | hl
        · exact h.refs l (List.mem_filter.1 hl).1
        · rw [List.mem_singleton.1 hl]
          exact h.refs m (List.mem_of_find?_eq_some hf)

/-- The list node of a new element: from here on the bound holds again. -/
theorem evictOrAppend_between {s0 s : St (Cache K V) K V} {p : Ptr} (hs : Bounded s0)
    (h : Between s0 s p 1) (hold : ∀ l ∈ s.c.order, l ∈ s0.c.order) :
    (Impl.evictOrAppend O p s).Post (fun s' => Between s0 s' p 0) := by
  unfold Impl.evictOrAppend
  show (M.bind Impl.size _ s).Post _
  unfold M.bind Impl.size
  simp only
  show (M.bind Impl.readCapacity _ s).Post _
  unfold M.bind Impl.readCapacity
  cases hc : s.c.capacity with
  | none => trivial
  | some cap =>
    simp only
    have hc0 : s0.c.capacity = some cap := h.capacity ▸ hc
    split
    · next hfull =>
      unfold Impl.evictLruFor
      have hfront : Impl.orderFront s = match s.c.order.head? with | none => .ub | some l => .ok l s := by
        unfold Impl.orderFront
        show M.bind Impl.orderFirst _ s = _
        unfold M.bind Impl.orderFirst
        simp only
        cases s.c.order.head? <;> rfl
      cases ho : s.c.order with
      | nil =>
        rw [ho] at hfront
        rw [bind_ub hfront]
        trivial
      | cons l r =>
        have hl : l ∈ s.c.order := by rw [ho]; exact List.mem_cons_self ..
        rw [ho] at hfront
        rw [bind_ok hfront]
        have hd : (∃ m ∈ s.c.map, Impl.deref l.ref s = .ok m s ∧ m.addr = l.ref) ∨ Impl.deref l.ref s = .ub := by
          unfold Impl.deref
          cases hf : s.c.map.find? (fun n => n.addr == l.ref) with
          | some m =>
            exact .inl ⟨m, List.mem_of_find?_eq_some hf, rfl, by have := List.find?_some hf; simpa using this⟩
          | none =>
            cases hf : s.g.ext.find? (fun n => n.addr == l.ref) with
            | none => exact .inr rfl
            | some m =>
              have h1 := List.mem_of_find?_eq_some hf
              have h2 := List.find?_some hf
              rw [h.ext] at h1
              exact absurd (by simpa using h2) (hs.refs l (hold l hl) m h1)
        rcases hd with ⟨m, hm, hd, -⟩ | hd
        · rw [bind_ok (show Impl.keyOf l s = .ok m.key s from by unfold Impl.keyOf; rw [bind_ok hd]; rfl)]
          refine moveToFront_between (p := p) (n := 0) ?_
          refine ⟨h.capacity, h.kind, h.ext, h.next, h.ticks, ?_, ?_, ?_⟩
          · intro n hn
            have hlen := h.length n hn
            show (s.c.map.filter fun n => !keq n.key m.key).length ≤ n
            have : (s.c.map.filter fun n => !keq n.key m.key).length < s.c.map.length := by
              apply List.length_filter_lt_length_iff_exists.2
              exact ⟨m, hm, by simp [KeyEqual.refl]⟩
            omega
          · intro x hx
            exact h.nodes x (List.mem_filter.1 hx).1
          · intro x hx
            have hx' : x ∈ ({ l with ref := p } : ListNode) :: r := by
              have e : (match s.c.order with | [] => [] | l :: r => ({ l with ref := p } : ListNode) :: r) =
                  ({ l with ref := p } : ListNode) :: r := by rw [ho]
              rw [← e]; exact hx
            rcases List.mem_cons.1 hx' with rfl | hx'
            · exact .inr rfl
            · exact h.refs x (by rw [ho]; exact List.mem_cons_of_mem _ hx')
        · rw [bind_ub (show Impl.keyOf l s = .ub from bind_ub hd)]
          trivial
    · next hroom =>
      have hb : ∀ n, s0.c.capacity = some n → s.c.map.length ≤ n := by
        intro n hn
        rw [hc0] at hn
        injection hn with hn
        omega
      show (M.bind (attempt O .listNode) _ s).Post _
      unfold M.bind attempt
      simp only
      by_cases hf : O.fails .listNode s.g.steps = true
      · rw [if_pos hf]
        exact ⟨h.capacity, h.kind, h.ext, h.next, h.ticks, hb, h.nodes, h.refs⟩
      · rw [if_neg hf]
        refine ⟨h.capacity, h.kind, h.ext, Nat.lt_succ_of_lt h.next, h.ticks, hb, h.nodes, ?_⟩
        intro l hl
        rcases List.mem_append.1 hl with hl | hl
        · exact h.refs l hl
        · rw [List.mem_singleton.1 hl]; exact .inr rfl

theorem Between.mono {s0 s s' : St (Cache K V) K V} {p : Ptr} {n : Nat} (h : Between s0 s p n)
    (hc : s'.c = s.c) (hg : s'.g = s.g) : Between s0 s' p n := by
  obtain ⟨c, g⟩ := s
  obtain ⟨c', g'⟩ := s'
  simp only at hc hg
  subst hc hg
  exact h

theorem insertNode_raw {k : K} {v : V} {t : Int} {s : St (Cache K V) K V} (hs : Bounded s)
    (hc : s.c.capacity ≠ none) : (Impl.insertNode O k v t s).Post (RawStep s) := by
  have key : Impl.insertNode O k v t = (attempt O .mapNode >>= fun _ => fun s =>
        (Impl.insertNewKey O s.g.next >>= fun q => Impl.setOrder s.g.next q >>= fun _ => pure s.g.next)
        ⟨{ s.c with map := O.shuffle s.g.next (⟨s.g.next, k, ⟨v, none, t⟩⟩ :: s.c.map) },
          { s.g with next := s.g.next + 1 }⟩) := by
    funext s
    simp only [Impl.insertNode, Impl.mapEmplace, bind, M.bind, attempt]
    cases O.fails Site.mapNode s.g.steps <;> simp [alloc, Impl.setSelf, M.modify, pure, M.pure]
  rw [key]
  have h1 := attempt_raw (O := O) (site := .mapNode) s hs
  show (M.bind (attempt O .mapNode) _ s).Post _
  unfold M.bind
  cases ha : (attempt O .mapNode : Impl.CM K V Unit) s with
  | ub => trivial
  | terminate => trivial
  | diverge => trivial
  | throw e s1 => rw [ha] at h1; exact h1
  | ok a s1 =>
    rw [ha] at h1
    simp only
    have hcap1 : s1.c = s.c := by
      unfold attempt at ha
      simp only at ha
      split at ha
      · cases ha
      · injection ha with _ ha
        rw [← ha]
    have hs1 := h1.bounded
    have hc1 : s1.c.capacity ≠ none := by rw [hcap1]; exact hc
    suffices hh : (((Impl.insertNewKey O s1.g.next >>= fun q => Impl.setOrder s1.g.next q >>= fun _ =>
        (pure s1.g.next : Impl.CM K V Ptr)))
        ⟨{ s1.c with map := O.shuffle s1.g.next (⟨s1.g.next, k, ⟨v, none, t⟩⟩ :: s1.c.map) },
          { s1.g with next := s1.g.next + 1 }⟩).Post (RawStep s1) from hh.imp fun _ h => h1.trans h
    have hperm := O.shuffle_perm s1.g.next (⟨s1.g.next, k, ⟨v, none, t⟩⟩ :: s1.c.map)
    have hb : Between s1 ⟨{ s1.c with map := O.shuffle s1.g.next (⟨s1.g.next, k, ⟨v, none, t⟩⟩ :: s1.c.map) },
          { s1.g with next := s1.g.next + 1 }⟩ s1.g.next 1 := by
      refine ⟨rfl, rfl, rfl, Nat.lt_succ_self _, Nat.le_refl _, ?_, ?_, fun l hl => .inl ⟨l, hl, rfl⟩⟩
      · intro n hn
        show (O.shuffle _ _).length ≤ _
        rw [hperm.length_eq, List.length_cons]
        exact Nat.succ_le_succ (hs1.cap n hn)
      · intro x hx
        rcases List.mem_cons.1 (hperm.mem_iff.1 hx) with rfl | hx
        · exact .inr rfl
        · exact .inl ⟨x, hx, rfl, rfl⟩
    have h2 := evictOrAppend_between (O := O) hs1 hb (fun l hl => hl)
    revert h2
    generalize (⟨{ s1.c with map := O.shuffle s1.g.next (⟨s1.g.next, k, ⟨v, none, t⟩⟩ :: s1.c.map) },
          { s1.g with next := s1.g.next + 1 }⟩ : St (Cache K V) K V) = s2
    intro h2
    cases he : Impl.evictOrAppend O s1.g.next s2 with
    | ub =>
      rw [bind_ub (show Impl.insertNewKey O s1.g.next s2 = .ub from bind_ub he)]
      trivial
    | terminate =>
      rw [bind_terminate (show Impl.insertNewKey O s1.g.next s2 = .terminate from bind_terminate he)]
      trivial
    | diverge =>
      rw [bind_diverge (show Impl.insertNewKey O s1.g.next s2 = .diverge from bind_diverge he)]
      trivial
    | throw e s3 =>
      rw [he] at h2
      rw [bind_throw (show Impl.insertNewKey O s1.g.next s2 = .throw e s3 from bind_throw he)]
      exact Between.step h2 hs1 (Nat.le_refl _) hc1
    | ok a s3 =>
      rw [he] at h2
      have h3 : Between s1 s3 s1.g.next 0 := h2
      have hlast : Impl.orderBack s3 = match s3.c.order.getLast? with | none => .ub | some l => .ok l s3 := by
        unfold Impl.orderBack
        show M.bind Impl.orderLast _ s3 = _
        unfold M.bind Impl.orderLast
        simp only
        cases s3.c.order.getLast? <;> rfl
      cases hl : s3.c.order.getLast? with
      | none =>
        rw [hl] at hlast
        rw [bind_ub (show Impl.insertNewKey O s1.g.next s2 = .ub from by
          unfold Impl.insertNewKey; rw [bind_ok he]; exact bind_ub hlast)]
        trivial
      | some l =>
        rw [hl] at hlast
        rw [bind_ok (show Impl.insertNewKey O s1.g.next s2 = .ok l.addr s3 from by
          unfold Impl.insertNewKey; rw [bind_ok he, bind_ok hlast]; rfl)]
        show RawStep s1 ⟨{ s3.c with map := s3.c.map.map (fun m =>
          if m.addr = s1.g.next then { m with info := { m.info with order := some l.addr } } else m) }, s3.g⟩
        refine Between.step (p := s1.g.next) ⟨h3.capacity, h3.kind, h3.ext, h3.next, h3.ticks, ?_, ?_, h3.refs⟩ hs1
          (Nat.le_refl _) hc1
        · intro n hn
          simpa using h3.length n hn
        · intro x hx
          obtain ⟨y, hy, rfl⟩ := List.mem_map.1 hx
          by_cases hy' : y.addr = s1.g.next
          · rw [if_pos hy']; exact .inr hy'.symm
          · rw [if_neg hy']; exact h3.nodes y hy

theorem find_raw {k : K} : Raw (Impl.find O k) := by
  refine getObs_raw.bind fun o => mapFind_raw.bind fun n => ?_
  cases n with
  | none => exact registerMiss_raw.bind fun _ => .pure
  | some n =>
    exact hasExpiredInfo_raw.bind fun _ => .ite (registerMiss_raw.bind fun _ => .pure)
      (registerHit_raw.bind fun _ => moveToFront_raw.bind fun _ => setLast_raw.bind fun _ => .pure)

theorem contains_raw {k : K} : Raw (Impl.contains O k) :=
  getObs_raw.bind fun _ => lastIs_raw.bind fun _ => .ite
    (lastAccessedIsOk_raw.bind fun _ => .ite (lastNode_raw.bind fun _ => registerHit_raw.bind fun _ => .pure) .pure)
    (find_raw.bind fun _ => .pure)

theorem throwIfInvalidU_raw {it : Option Ptr} : Raw (Impl.throwIfInvalidU O it : Impl.CM K V Unit) := by
  cases it with
  | none => exact .throw
  | some p =>
    refine getKind_raw.bind fun kind => ?_
    cases kind with
    | basic => exact .pure
    | timed a b => exact derefIt_raw.bind fun _ => hasExpiredInfo_raw.bind fun _ => .ite .throw .pure

theorem lookup_raw {k : K} : Raw (Impl.lookup O k) := by
  refine getObs_raw.bind fun _ => lastIs_raw.bind fun _ => .ite
    (valueForLastAccessed_raw.bind fun _ => registerHit_raw.bind fun _ => .pure) (find_raw.bind fun o => ?_)
  cases o with
  | none => exact .throw
  | some p => exact (derefIt_raw.bind fun _ => throwIfInvalidU_raw.bind fun _ => .pure).bind fun _ => .pure

/-- A known capacity stays known. -/
def Sized (m : Impl.CM K V α) : Prop := ∀ s, (m s).Post (fun s' => s'.c.capacity = s.c.capacity)

/-- Run `m`, which leaves the capacity alone, then `f`, which needs it. -/
theorem raw_sized {m : Impl.CM K V α} {f : α → Impl.CM K V β} (h : Raw m) (hm : Sized m) {s : St (Cache K V) K V}
    (hs : Bounded s) (hc : s.c.capacity ≠ none)
    (h' : ∀ a s', Bounded s' → s'.c.capacity ≠ none → (f a s').Post (RawStep s')) : ((m >>= f) s).Post (RawStep s) := by
  have h1 := h s hs
  have h2 := hm s
  show (M.bind m f s).Post _
  unfold M.bind
  cases hm : m s with
  | ok a s' =>
    rw [hm] at h1 h2
    exact (h' a s' h1.bounded (by rw [show s'.c.capacity = s.c.capacity from h2]; exact hc)).imp fun _ h => h1.trans h
  | throw e s' => rw [hm] at h1; exact h1
  | ub => trivial
  | terminate => trivial
  | diverge => trivial

theorem attempt_sized {site : Site} : Sized (attempt O site : Impl.CM K V Unit) := by
  intro s
  unfold attempt
  simp only
  split <;> rfl

theorem insertionTime_sized : Sized (Impl.insertionTime O : Impl.CM K V Int) := by
  intro s
  unfold Impl.insertionTime
  show (M.bind Impl.getKind _ s).Post _
  unfold M.bind Impl.getKind
  cases s.c.kind <;> rfl

theorem mapFind_sized {k : K} : Sized (Impl.mapFind k : Impl.CM K V _) := fun _ => rfl

theorem insertNode_tail {k : K} {v : V} {t : Int} {s : St (Cache K V) K V} (hs : Bounded s) (hc : s.c.capacity ≠ none) :
    ((Impl.insertNode O k v t >>= fun p => Impl.setLast p >>= fun _ => (pure (true, some p) :
      Impl.CM K V (Bool × Option Ptr))) s).Post (RawStep s) := by
  have h1 := insertNode_raw (O := O) (k := k) (v := v) (t := t) hs hc
  show (M.bind (Impl.insertNode O k v t) _ s).Post _
  unfold M.bind
  cases hm : Impl.insertNode O k v t s with
  | ok a s' =>
    rw [hm] at h1
    exact ((setLast_raw.bind fun _ => .pure : Raw (Impl.setLast a >>= fun _ =>
      (pure (true, some a) : Impl.CM K V (Bool × Option Ptr)))) s' h1.bounded).imp fun _ h => h1.trans h
  | throw e s' => rw [hm] at h1; exact h1
  | ub => trivial
  | terminate => trivial
  | diverge => trivial

theorem withCapacity_raw {f : Nat → Impl.CM K V α}
    (h : ∀ n s, Bounded s → s.c.capacity ≠ none → (f n s).Post (RawStep s)) : Raw (Impl.readCapacity >>= f) := by
  intro s hs
  show (M.bind Impl.readCapacity f s).Post _
  unfold M.bind Impl.readCapacity
  cases hc : s.c.capacity with
  | none => trivial
  | some n => exact h n s hs (by rw [hc]; simp)

theorem insert_raw {k : K} {v : V} : Raw (Impl.insert O k v) := by
  refine withCapacity_raw fun n s hs hc => ?_
  split
  · exact RawStep.refl hs
  · refine raw_sized mapFind_raw mapFind_sized hs hc fun o s hs hc => ?_
    cases o with
    | none =>
      refine raw_sized insertionTime_raw insertionTime_sized hs hc fun t s hs hc => ?_
      refine raw_sized attempt_raw attempt_sized hs hc fun _ s hs hc => ?_
      exact insertNode_tail hs hc
    | some n => exact (moveToFrontAssign_raw.bind fun _ => setLast_raw.bind fun _ => .pure) s hs

theorem emplace_raw {k : K} {v : V} : Raw (Impl.emplace O k v) := by
  refine withCapacity_raw fun n s hs hc => ?_
  split
  · exact RawStep.refl hs
  · refine raw_sized attempt_raw attempt_sized hs hc fun _ s hs hc => ?_
    refine raw_sized mapFind_raw mapFind_sized hs hc fun o s hs hc => ?_
    cases o with
    | none =>
      refine raw_sized attempt_raw attempt_sized hs hc fun _ s hs hc => ?_
      refine raw_sized insertionTime_raw insertionTime_sized hs hc fun t s hs hc => ?_
      exact insertNode_tail hs hc
    | some n =>
      exact (attempt_raw.bind fun _ => moveToFrontAssign_raw.bind fun _ => setLast_raw.bind fun _ => .pure) s hs

theorem insertRange_raw {l : List (K × V)} : Raw (Impl.insertRange O l) := by
  induction l with
  | nil => exact .pure
  | cons p r ih => exact insert_raw.bind fun _ => ih.bind fun _ => .pure

theorem insertRangeMove_raw {l : List (K × V)} : Raw (Impl.insertRangeMove O l) := by
  induction l with
  | nil => exact .pure
  | cons p r ih => exact emplace_raw.bind fun _ => ih.bind fun _ => .pure

theorem erase_raw {k : K} : Raw (Impl.erase k : Impl.CM K V Bool) := by
  refine lastIs_raw.bind fun _ => .ite (lastNode_raw.bind fun _ => eraseKeyInfo_raw.bind fun _ => .pure)
    (mapFind_raw.bind fun o => ?_)
  cases o with
  | none => exact .pure
  | some n => exact eraseIt_raw.bind fun _ => .pure

theorem eraseU_raw {it : Option Ptr} : Raw (Impl.eraseU it : Impl.CM K V Unit) := by
  cases it with
  | none => exact .throw
  | some p => exact eraseIt_raw

theorem eraseLruWhile_raw {n fuel : Nat} : Raw (Impl.eraseLruWhile n fuel : Impl.CM K V Unit) := by
  induction fuel with
  | zero => exact .diverge
  | succ m ih => exact size_raw.bind fun _ => .ite (eraseLru_raw.bind fun _ => ih) .pure

theorem eraseLruWhile_small {n fuel : Nat} {s s' : St (Cache K V) K V}
    (h : (Impl.eraseLruWhile n fuel : Impl.CM K V Unit) s = .ok () s') : s'.c.map.length ≤ n := by
  induction fuel generalizing s with
  | zero => cases h
  | succ m ih =>
    have h' : M.bind Impl.size (fun sz => if sz > n then (Impl.eraseLru >>= fun _ => Impl.eraseLruWhile n m) else
      (pure () : Impl.CM K V Unit)) s = .ok () s' := h
    unfold M.bind Impl.size at h'
    simp only at h'
    split at h'
    · have h2 : M.bind Impl.eraseLru (fun _ => Impl.eraseLruWhile n m) s = .ok () s' := h'
      unfold M.bind at h2
      cases he : Impl.eraseLru s <;> rw [he] at h2 <;> first | cases h2 | exact ih h2
    · next hn =>
      injection h' with _ h'
      rw [← h']
      exact Nat.not_lt.1 hn

theorem shrink_raw {n : Nat} : Raw (Impl.shrink n : Impl.CM K V Unit) :=
  size_raw.bind fun _ => .ite .pure (.ite clear_raw eraseLruWhile_raw)

theorem setCap_step {s : St (Cache K V) K V} (hs : Bounded s) {n : Nat} (h : s.c.map.length ≤ n) :
    RawStep s ⟨{ s.c with capacity := some n }, s.g⟩ := by
  refine ⟨⟨?_, fun h => (by cases h), hs.refs, hs.nodesLt, hs.refsLt, hs.extLt⟩, rfl, Nat.le_refl _, Nat.le_refl _, rfl,
    fun x hx => .inl ⟨x, hx, rfl, rfl⟩⟩
  intro m hm
  injection hm with hm
  exact hm ▸ h

theorem setCapacity_raw {n : Nat} : Raw (Impl.setCapacity n : Impl.CM K V Unit) := by
  refine size_raw.bind fun sz => ?_
  intro s hs
  have h1 := eraseLruWhile_raw (n := n) (fuel := sz + 1) s hs
  show (M.bind (Impl.eraseLruWhile n (sz + 1)) _ s).Post _
  unfold M.bind
  cases he : (Impl.eraseLruWhile n (sz + 1) : Impl.CM K V Unit) s with
  | ok a s' =>
    rw [he] at h1
    exact RawStep.trans h1 (setCap_step h1.bounded (eraseLruWhile_small he))
  | throw e s' => rw [he] at h1; exact h1
  | ub => trivial
  | terminate => trivial
  | diverge => trivial

theorem clearAndIncreaseCapacity_raw {n : Nat} : Raw (Impl.clearAndIncreaseCapacity n : Impl.CM K V Unit) := by
  intro s hs
  have h1 : RawStep s ⟨{ s.c with map := [], order := [], last := none }, s.g⟩ := clear_raw s hs
  show (M.bind Impl.readCapacity _ ⟨{ s.c with map := [], order := [], last := none }, s.g⟩).Post _
  unfold M.bind Impl.readCapacity
  cases hc : s.c.capacity with
  | none => trivial
  | some m =>
    simp only
    split
    · exact h1.trans (setCap_step h1.bounded (Nat.zero_le _))
    · exact h1

theorem keyAt_raw {p : Option Ptr} : Raw (Impl.keyAt p : Impl.CM K V K) := by
  cases p with
  | none => exact .ub
  | some p => exact derefOrder_raw.bind fun _ => keyOf_raw

theorem oLookup_raw {p : Option Ptr} : Raw (Impl.oLookup p : Impl.CM K V Ptr) := by
  refine keyAt_raw.bind fun k => mapFind_raw.bind fun o => ?_
  cases o with
  | none => exact .ub
  | some n => exact .pure

theorem hasExpiredO_raw {p : Option Ptr} : Raw (Impl.hasExpiredO O p : Impl.CM K V Bool) := by
  cases p with
  | none => exact .pure
  | some p =>
    refine oLookup_raw.bind fun _ => derefIt_raw.bind fun _ => mapFind_raw.bind fun o => ?_
    cases o with
    | none => exact .ub
    | some n => exact hasExpiredInfo_raw

theorem hasExpiredU_raw {p : Option Ptr} : Raw (Impl.hasExpiredU O p : Impl.CM K V Bool) := by
  cases p with
  | none => exact .pure
  | some p => exact derefIt_raw.bind fun _ => hasExpiredInfo_raw

theorem throwIfInvalidO_raw {p : Option Ptr} : Raw (Impl.throwIfInvalidO O p : Impl.CM K V Unit) := by
  cases p with
  | none => exact .throw
  | some p =>
    refine getKind_raw.bind fun kind => ?_
    cases kind with
    | basic => exact .pure
    | timed a b => exact hasExpiredO_raw.bind fun _ => .ite .throw .pure

theorem oKey_raw {it : Impl.OIt} : Raw (Impl.oKey O it : Impl.CM K V K) := throwIfInvalidO_raw.bind fun _ => keyAt_raw

theorem oDeref_raw {it : Impl.OIt} : Raw (Impl.oDeref it : Impl.CM K V _) := by
  unfold Impl.oDeref
  split
  · exact .pure
  · exact oLookup_raw.bind fun _ => .pure

theorem uDeref_raw {it : Impl.UIt} : Raw (Impl.uDeref it : Impl.CM K V _) := by
  unfold Impl.uDeref
  split
  · exact .pure
  · exact derefIt_raw.bind fun _ => .pure

theorem uEntry_raw {it : Impl.UIt} : Raw (Impl.uEntry O it : Impl.CM K V _) :=
  uDeref_raw.bind fun _ => throwIfInvalidU_raw.bind fun _ => .pure

theorem oValue_raw {it : Impl.OIt} : Raw (Impl.oValue O it : Impl.CM K V V) :=
  (throwIfInvalidO_raw.bind fun _ => oDeref_raw).bind fun _ => derefIt_raw.bind fun _ => .pure

theorem toOrdered_raw {it : Impl.UIt} : Raw (Impl.toOrdered it : Impl.CM K V _) := by
  unfold Impl.toOrdered
  split
  · exact .throw
  · refine derefIt_raw.bind fun n => ?_
    cases n.info.order with
    | none => exact .ub
    | some q => exact .pure

theorem eqOU_raw {o : Impl.OIt} {u : Impl.UIt} : Raw (Impl.eqOU o u : Impl.CM K V Bool) := by
  unfold Impl.eqOU
  refine .noexcept ?_
  cases u.pos with
  | none => exact .pure
  | some p => exact toOrdered_raw.bind fun _ => .pure

theorem isValidU_raw {p : Option Ptr} : Raw (Impl.isValidU O p : Impl.CM K V Bool) := by
  cases p with
  | none => exact .pure
  | some p =>
    refine getKind_raw.bind fun kind => ?_
    cases kind with
    | basic => exact .pure
    | timed a b => exact hasExpiredU_raw.bind fun _ => .pure

theorem isValidO_raw {p : Option Ptr} : Raw (Impl.isValidO O p : Impl.CM K V Bool) := by
  cases p with
  | none => exact .pure
  | some p =>
    refine getKind_raw.bind fun kind => ?_
    cases kind with
    | basic => exact .pure
    | timed a b => exact hasExpiredO_raw.bind fun _ => .pure

theorem eraseO_raw {p : Option Ptr} : Raw (Impl.eraseO O { pos := p } : Impl.CM K V Unit) := by
  cases p with
  | none => exact .throw
  | some p => exact oKey_raw.bind fun _ => mapFind_raw.bind fun _ => eraseIt_raw

theorem clearExpiredLoop_raw {n fuel : Nat} : Raw (Impl.clearExpiredLoop O n fuel : Impl.CM K V Nat) := by
  induction fuel generalizing n with
  | zero => exact .diverge
  | succ m ih =>
    refine orderFirst_raw.bind fun o => ?_
    cases o with
    | none => exact .pure
    | some l =>
      refine keyOf_raw.bind fun k => mapFind_raw.bind fun o => ?_
      cases o with
      | none => exact .ub
      | some n => exact hasExpiredInfo_raw.bind fun _ => .ite (eraseIt_raw.bind fun _ => ih) .pure

theorem isEmpty_raw : Raw (Impl.isEmpty : Impl.CM K V Bool) := size_raw.bind fun _ => .pure

theorem allExpired_raw : Raw (Impl.allExpired O : Impl.CM K V Bool) := by
  refine isEmpty_raw.bind fun _ => .ite .pure (orderBack_raw.bind fun _ => keyOf_raw.bind fun _ => mapFind_raw.bind fun o => ?_)
  cases o with
  | none => exact .ub
  | some n => exact hasExpiredInfo_raw

theorem hasExpired_raw {k : K} : Raw (Impl.hasExpired O k : Impl.CM K V Bool) := by
  refine mapFind_raw.bind fun o => ?_
  cases o with
  | none => exact .pure
  | some n => exact hasExpiredInfo_raw

theorem monitorNew_raw {ks : List K} : Raw (Impl.monitorNew ks : Impl.CM K V Nat) := by
  intro s hs
  refine ⟨⟨hs.cap, hs.unset, hs.refs, hs.nodesLt, hs.refsLt, hs.extLt⟩, rfl, Nat.le_refl _, Nat.le_refl _, rfl,
    fun x hx => .inl ⟨x, hx, rfl, rfl⟩⟩

theorem stats_raw : Raw (Impl.stats : Impl.CM K V Nat) := by
  refine getObs_raw.bind fun o => ?_
  cases o.stats with
  | none => exact .throw
  | some i => exact .pure

/-- Every public call. -/
theorem step_raw (op : Op K V) : Raw (Impl.step O op) := by
  cases op with
  | contains k => exact .ret contains_raw
  | find k => exact .ret find_raw
  | lookup k => exact .ret lookup_raw
  | insert k v => exact .ret insert_raw
  | emplace k v => exact .ret emplace_raw
  | insertRange l => exact .ret insertRange_raw
  | insertRangeMove l => exact .ret insertRangeMove_raw
  | assignRange l => exact .ret (clearAndIncreaseCapacity_raw.bind fun _ => insertRange_raw.bind fun _ => .pure)
  | assignRangeMove l => exact .ret (clearAndIncreaseCapacity_raw.bind fun _ => insertRangeMove_raw.bind fun _ => .pure)
  | erase k => exact .ret erase_raw
  | eraseU pos => exact .ret eraseU_raw
  | eraseO pos => exact .ret eraseO_raw
  | clear => exact .ret clear_raw
  | shrink n => exact .ret shrink_raw
  | setCapacity n => exact .ret setCapacity_raw
  | size => exact .ret size_raw
  | capacity => exact .ret readCapacity_raw
  | spaceLeft => exact .ret (readCapacity_raw.bind fun _ => size_raw.bind fun _ => .pure)
  | isEmpty => exact .ret isEmpty_raw
  | isFull => exact .ret (size_raw.bind fun _ => readCapacity_raw.bind fun _ => .pure)
  | front => exact .ret (.noexcept (isEmpty_raw.bind fun _ => .ite .throw (orderBack_raw.bind fun _ => keyOf_raw)))
  | back => exact .ret (.noexcept (isEmpty_raw.bind fun _ => .ite .throw (orderFront_raw.bind fun _ => keyOf_raw)))
  | allExpired => exact .ret allExpired_raw
  | clearExpired => exact .ret (isEmpty_raw.bind fun _ => .ite .pure (size_raw.bind fun _ => clearExpiredLoop_raw))
  | hasExpired k => exact .ret hasExpired_raw
  | hasExpiredU pos => exact .ret hasExpiredU_raw
  | hasExpiredO pos => exact .ret hasExpiredO_raw
  | isValidU pos => exact .ret isValidU_raw
  | isValidO pos => exact .ret isValidO_raw
  | uKey pos => exact .ret (uEntry_raw.bind fun _ => derefIt_raw.bind fun _ => .pure)
  | uValue pos => exact .ret (uEntry_raw.bind fun _ => derefIt_raw.bind fun _ => .pure)
  | oBegin => exact .ret (orderAddrs_raw.bind fun _ => .pure)
  | oNext pos =>
    refine .ret (orderAddrs_raw.bind fun as => ?_)
    cases pos with
    | none => exact .ub
    | some p =>
      simp only
      cases Impl.after p as with
      | none => exact .ub
      | some q => exact .pure
  | oPrev pos =>
    refine .ret (orderAddrs_raw.bind fun as => ?_)
    cases pos with
    | none =>
      simp only
      cases as.getLast? with
      | none => exact .ub
      | some q => exact .pure
    | some p =>
      simp only
      rcases Impl.after p as.reverse with _ | _ | q
      · exact .ub
      · exact .ub
      · exact .pure
  | oKey pos => exact .ret oKey_raw
  | oValue pos => exact .ret oValue_raw
  | toOrdered pos => exact .ret toOrdered_raw
  | eqOU o u => exact .ret eqOU_raw
  | monitor i => exact .ret (setObs_raw fun _ => rfl)
  | monitorNew ks => exact .ret monitorNew_raw
  | stopMonitoring => exact .ret (setObs_raw fun _ => rfl)
  | isMonitoring => exact .ret (getObs_raw.bind fun _ => .pure)
  | stats => exact .ret stats_raw
  | sharedStats => exact .ret (getObs_raw.bind fun _ => .pure)
  | addHitCallback cb => exact .ret (setObs_raw fun _ => rfl)
  | addMissCallback cb => exact .ret (setObs_raw fun _ => rfl)
  | addAccessCallback cb => exact .ret (setObs_raw fun _ => rfl)
  | clearHitCallbacks => exact .ret (setObs_raw fun _ => rfl)
  | clearMissCallbacks => exact .ret (setObs_raw fun _ => rfl)
  | clearAccessCallbacks => exact .ret (setObs_raw fun _ => rfl)
  | clearAllCallbacks => exact .ret (setObs_raw fun _ => rfl)
  | write p v => exact .ret (derefIt_raw.bind fun _ => assignValue_raw)
  | read p => exact .ret (derefIt_raw.bind fun _ => .pure)

theorem ctorBody_raw (ctor : Ctor K V) : Raw (Impl.ctorBody O ctor) := by
  cases ctor with
  | default => exact .pure
  | sized n => exact .pure
  | sizedItems n l => exact insertRange_raw
  | items l => exact insertRange_raw
  | initList l => exact insertRange_raw
  | sizedRangeMove n l => exact insertRangeMove_raw
  | rangeMove l => exact insertRangeMove_raw

end ops

end LRU
