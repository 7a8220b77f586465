import Verif.Spec.Table
import Verif.Proofs.Reenter
import Verif.Proofs.IterObjects
/-!
# The cache run together with its table
-/

set_option linter.unusedSectionVars false
set_option autoImplicit false

namespace LRU

variable {K V : Type} [KeyEqual K] [DecidableEq K] [DecidableEq V] {O : Oracle K V} {G : Growth} {α β γ δ : Type}

/-- The outcomes correspond; `R` holds of normal results, `E` of the state when an exception is thrown. -/
def Lifts (t : TSt K V) (m : Impl.TM K V α) (m0 : Impl.CM K V β) (R : α → β → TSt K V → Prop) (E : TSt K V → Prop) : Prop :=
  match m t, m0 t.s with
  | .ok a t', .ok b s' => t'.s = s' ∧ R a b t'
  | .throw e t', .throw e' s' => e = e' ∧ t'.s = s' ∧ E t'
  | .ub, .ub => True
  | .terminate, .terminate => True
  | .diverge, .diverge => True
  | _, _ => False

theorem Lifts.bind {t : TSt K V} {m : Impl.TM K V α} {m0 : Impl.CM K V β} {R : α → β → TSt K V → Prop} {E : TSt K V → Prop}
    {f : α → Impl.TM K V γ} {f0 : β → Impl.CM K V δ} {R' : γ → δ → TSt K V → Prop} (h : Lifts t m m0 R E)
    (hf : ∀ a b t', R a b t' → Lifts t' (f a) (f0 b) R' E) : Lifts t (m >>= f) (m0 >>= f0) R' E := by
  unfold Lifts at h
  show (match M.bind m f t, M.bind m0 f0 t.s with
    | .ok a t', .ok b s' => t'.s = s' ∧ R' a b t'
    | .throw e t', .throw e' s' => e = e' ∧ t'.s = s' ∧ E t'
    | .ub, .ub => True
    | .terminate, .terminate => True
    | .diverge, .diverge => True
    | _, _ => False)
  unfold M.bind
  cases hm : m t <;> cases hm0 : m0 t.s <;> rw [hm, hm0] at h <;> first | exact h.elim | skip
  · obtain ⟨rfl, h2⟩ := h
    exact hf _ _ _ h2
  · exact h
  all_goals trivial

theorem Lifts.mono {t : TSt K V} {m : Impl.TM K V α} {m0 : Impl.CM K V β} {R R' : α → β → TSt K V → Prop}
    {E E' : TSt K V → Prop} (h : Lifts t m m0 R E) (hR : ∀ a b t', R a b t' → R' a b t') (hE : ∀ t', E t' → E' t') :
    Lifts t m m0 R' E' := by
  unfold Lifts at h ⊢
  cases hm : m t <;> cases hm0 : m0 t.s <;> rw [hm, hm0] at h <;> first | exact h.elim | skip
  · exact ⟨h.1, hR _ _ _ h.2⟩
  · exact ⟨h.1, h.2.1, hE _ h.2.2⟩
  all_goals trivial

theorem Lifts.pure {t : TSt K V} {a : α} {b : β} {R : α → β → TSt K V → Prop} {E : TSt K V → Prop} (h : R a b t) :
    Lifts t (Pure.pure a) (Pure.pure b) R E := ⟨rfl, h⟩

theorem Lifts.onT {t : TSt K V} {m : Impl.CM K V α} {E : TSt K V → Prop} (hE : ∀ s, E ⟨s, t.table⟩) :
    Lifts t (Impl.onT m) m (fun a b t' => a = b ∧ t'.table = t.table ∧ m t.s = .ok a t'.s) E := by
  unfold Lifts Impl.onT
  cases hm : m t.s with
  | ok a s => exact ⟨rfl, rfl, rfl, rfl⟩
  | throw e s => exact ⟨rfl, rfl, hE s⟩
  | ub => trivial
  | terminate => trivial
  | diverge => trivial

/-- A step that acts on the table alone. -/
theorem Lifts.skip {t t1 : TSt K V} {m : Impl.TM K V α} {a : α} {f : α → Impl.TM K V γ} {m0 : Impl.CM K V δ}
    {R' : γ → δ → TSt K V → Prop} {E : TSt K V → Prop} (h : m t = .ok a t1) (hs : t1.s = t.s)
    (hf : Lifts t1 (f a) m0 R' E) : Lifts t (m >>= f) m0 R' E := by
  unfold Lifts at hf ⊢
  rw [bind_ok h, ← hs]
  exact hf

theorem Lifts.bare {t : TSt K V} {m : Impl.TM K V α} {m0 : Impl.CM K V α} {R : α → α → TSt K V → Prop}
    {E : TSt K V → Prop} (h : Lifts t m m0 R E) (hR : ∀ a b t', R a b t' → a = b) : (m t).bare = m0 t.s := by
  unfold Lifts at h
  cases hm : m t <;> cases hm0 : m0 t.s <;> rw [hm, hm0] at h <;> first | exact h.elim | rfl | skip
  · obtain ⟨h1, h2⟩ := h
    have := hR _ _ _ h2
    subst this h1
    rfl
  · obtain ⟨h1, h2, _⟩ := h
    subst h1 h2
    rfl

/-! ### A single insertion -/

/-- What a single insertion into a table with `n` elements does to it. -/
def Once (n : Nat) (a b : Table) : Prop :=
  b = a ∨ (a.limit < n + 1 ∧ n + 1 ≤ b.limit ∧ b.epoch = a.epoch + 1)

/-- What is known after an insertion. -/
structure Inserted (t : TSt K V) (r : Bool × Option (TIt Ptr)) (r0 : Bool × Option Ptr) (t' : TSt K V) : Prop where
  flag : r.1 = r0.1
  pos : r.2.map TIt.val = r0.2
  fresh : ∀ it, r.2 = some it → it.epoch = t'.table.epoch
  once : Once t.s.c.map.length t.table t'.table
  old : r.1 = false → t'.table = t.table
  new : r.1 = true → t.s.c.map.length + 1 ≤ t'.table.limit ∧
    (t.s.c.map.length + 1 ≤ t.table.limit → t'.table = t.table)

theorem useIt_ok {t : TSt K V} {it : TIt α} (h : it.epoch = t.table.epoch) : Impl.useIt it t = .ok it.val t := by
  unfold Impl.useIt
  rw [if_pos h]

theorem insertNodeT_lifts {t : TSt K V} {k : K} {v : V} {time : Int} {t0 : TSt K V} (h0 : t.s.c = t0.s.c)
    (h1 : t.table = t0.table) :
    Lifts t (Impl.insertNodeT O G k v time) (do
        let p ← Impl.insertNode O k v time
        Impl.setLast p
        Pure.pure (true, some p)) (Inserted t0) (fun t' => Once t0.s.c.map.length t0.table t'.table) := by
  have assoc : (do
        let p ← Impl.insertNode O k v time
        Impl.setLast p
        Pure.pure (true, some p) : Impl.CM K V (Bool × Option Ptr)) = (do
        let p ← Impl.mapEmplace O k v time
        let q ← Impl.insertNewKey O p
        Impl.setOrder p q
        Impl.setLast p
        Pure.pure (true, some p)) := by
    funext s
    unfold Impl.insertNode
    rw [bind_bind]
    show M.bind _ _ s = M.bind _ _ s
    congr 1
    funext p s
    rw [bind_bind]
    show M.bind _ _ s = M.bind _ _ s
    congr 1
  rw [assoc]
  unfold Impl.insertNodeT Impl.mapEmplaceT
  have assoc2 : ∀ f : TIt Ptr → Impl.TM K V (Bool × Option (TIt Ptr)), ((do
        let n ← Impl.onT Impl.size
        let p ← Impl.onT (Impl.mapEmplace O k v time)
        Impl.growFor G p (n + 1)
        Impl.itAt p : Impl.TM K V (TIt Ptr)) >>= f) = (do
        let n ← Impl.onT Impl.size
        let p ← Impl.onT (Impl.mapEmplace O k v time)
        Impl.growFor G p (n + 1)
        let it ← Impl.itAt p
        f it) := by
    intro f
    funext s
    rw [bind_bind]
    show M.bind _ _ s = M.bind _ _ s
    congr 1
    funext p s
    rw [bind_bind]
    show M.bind _ _ s = M.bind _ _ s
    congr 1
  rw [assoc2]
  refine Lifts.skip (m := Impl.onT Impl.size) (a := t.s.c.map.length) (t1 := t) rfl rfl ?_
  refine (Lifts.onT (fun s => .inl h1)).bind ?_
  rintro p _ t1 ⟨rfl, h2, _⟩
  have hg : ∃ t2, Impl.growFor G p (t.s.c.map.length + 1) t1 = .ok () t2 ∧ t2.s = t1.s ∧
      Once t0.s.c.map.length t0.table t2.table ∧ t0.s.c.map.length + 1 ≤ t2.table.limit ∧
      (t0.s.c.map.length + 1 ≤ t0.table.limit → t2.table = t0.table) := by
    refine ⟨if t.s.c.map.length + 1 ≤ t1.table.limit then t1 else
      { t1 with table := ⟨max (t.s.c.map.length + 1) (G.grow p (t.s.c.map.length + 1)), t1.table.epoch + 1⟩ }, rfl, ?_⟩
    rw [h2, h1, h0]
    split
    · rename_i hle
      rw [h2, h1]
      exact ⟨rfl, .inl rfl, hle, fun _ => rfl⟩
    · rename_i hle
      exact ⟨rfl, .inr ⟨Nat.lt_of_not_le hle, Nat.le_max_left .., rfl⟩, Nat.le_max_left .., fun h => absurd h hle⟩
  obtain ⟨t2, h3, h4, h5, h6, h7⟩ := hg
  refine Lifts.skip h3 h4 ?_
  refine Lifts.skip (m := Impl.itAt p) (a := ⟨p, t2.table.epoch⟩) (t1 := t2) rfl rfl ?_
  refine Lifts.skip (useIt_ok rfl) rfl ?_
  refine (Lifts.onT (fun s => h5)).bind ?_
  rintro q _ t3 ⟨rfl, h8, _⟩
  refine Lifts.skip (useIt_ok (by rw [h8])) rfl ?_
  refine (Lifts.onT (fun s => by rw [h8]; exact h5)).bind ?_
  rintro _ _ t4 ⟨_, h9, _⟩
  refine Lifts.skip (useIt_ok (by rw [h9, h8])) rfl ?_
  refine (Lifts.onT (fun s => by rw [h9, h8]; exact h5)).bind ?_
  rintro _ _ t5 ⟨_, h10, _⟩
  refine Lifts.pure ?_
  have ht : t5.table = t2.table := by rw [h10, h9, h8]
  refine ⟨rfl, rfl, ?_, ?_, ?_, ?_⟩
  · rintro it hit
    cases hit
    exact congrArg Table.epoch ht.symm
  · rw [ht]; exact h5
  · intro h; cases h
  · intro _; rw [ht]; exact ⟨h6, h7⟩

theorem updateNodeT_lifts {t t0 : TSt K V} {n : MapNode K V} {v : V} (h1 : t.table = t0.table) :
    Lifts t (Impl.updateNodeT O ⟨n, t.table.epoch⟩ v) (do
        Impl.moveToFrontAssign O n v
        Impl.setLast n.addr
        Pure.pure (false, some n.addr)) (Inserted t0) (fun t' => Once t0.s.c.map.length t0.table t'.table) := by
  unfold Impl.updateNodeT
  refine Lifts.skip (useIt_ok rfl) rfl ?_
  refine (Lifts.onT (fun s => .inl h1)).bind ?_
  rintro _ _ t2 ⟨_, h2, _⟩
  refine Lifts.skip (useIt_ok (by rw [h2])) rfl ?_
  refine (Lifts.onT (fun s => .inl (h2.trans h1))).bind ?_
  rintro _ _ t3 ⟨_, h3, _⟩
  refine Lifts.pure ?_
  have ht : t3.table = t.table := by rw [h3, h2]
  refine ⟨rfl, rfl, ?_, .inl (ht.trans h1), fun _ => ht.trans h1, ?_⟩
  · rintro it hit
    cases hit
    exact congrArg Table.epoch ht.symm
  · intro h; cases h

theorem mapFindT_lifts {t : TSt K V} {k : K} {E : TSt K V → Prop} :
    Lifts t (Impl.mapFindT k) (Impl.mapFind k)
      (fun a b t' => t' = t ∧ a = b.map fun n => ⟨n, t.table.epoch⟩) E := by
  have h0 : Impl.mapFind k t.s = .ok (t.s.c.map.find? (fun n => keq n.key k)) t.s := rfl
  unfold Lifts Impl.mapFindT
  rw [h0, bind_ok (m := Impl.onT (Impl.mapFind k)) (s := t) (a := t.s.c.map.find? (fun n => keq n.key k)) (s' := t) rfl]
  cases t.s.c.map.find? (fun n => keq n.key k) with
  | none => exact ⟨rfl, rfl, rfl⟩
  | some n => exact ⟨rfl, rfl, rfl⟩

theorem Still.onT {t : TSt K V} {m : Impl.CM K V α} (hm : Still m) {E : TSt K V → Prop} (hE : ∀ s, E ⟨s, t.table⟩) :
    Lifts t (Impl.onT m) m (fun a b t' => a = b ∧ t'.table = t.table ∧ t'.s.c = t.s.c) E := by
  refine (Lifts.onT hE).mono ?_ (fun _ h => h)
  rintro a b t' ⟨h1, h2, h3⟩
  have := hm t.s
  rw [h3] at this
  exact ⟨h1, h2, this.1⟩

theorem insertionTime_still' : Still (Impl.insertionTime O) := by
  refine getKind_still.bind fun kind => ?_
  cases kind with
  | basic => exact .pure
  | timed ttl res => exact now_still

theorem readCapacity_still' : Still (Impl.readCapacity : Impl.CM K V Nat) := by
  intro s
  unfold Impl.readCapacity
  split
  · exact ⟨rfl, rfl, Nat.le_refl _, Nat.le_refl _⟩
  · trivial

theorem insertT_lifts (t : TSt K V) (k : K) (v : V) :
    Lifts t (Impl.insertT O G k v) (Impl.insert O k v) (Inserted t) (fun t' => Once t.s.c.map.length t.table t'.table) := by
  unfold Impl.insertT Impl.insert
  refine (readCapacity_still'.onT (fun s => .inl rfl)).bind ?_
  rintro n _ t1 ⟨rfl, h1, h2⟩
  by_cases hn : n = 0
  · rw [if_pos hn, if_pos hn]
    exact Lifts.pure ⟨rfl, rfl, fun _ h => (by cases h), .inl h1, fun _ => h1, fun h => (by cases h)⟩
  · rw [if_neg hn, if_neg hn]
    refine mapFindT_lifts.bind ?_
    rintro a b _ ⟨rfl, rfl⟩
    cases b with
    | none =>
      refine (insertionTime_still'.onT (fun s => .inl h1)).bind ?_
      rintro x _ t2 ⟨rfl, h3, h4⟩
      refine (attempt_still.onT (fun s => .inl (h3.trans h1))).bind ?_
      rintro _ _ t3 ⟨_, h5, h6⟩
      exact insertNodeT_lifts (h6.trans (h4.trans h2)) (h5.trans (h3.trans h1))
    | some n => exact updateNodeT_lifts h1

theorem emplaceT_lifts (t : TSt K V) (k : K) (v : V) :
    Lifts t (Impl.emplaceT O G k v) (Impl.emplace O k v) (Inserted t)
      (fun t' => Once t.s.c.map.length t.table t'.table) := by
  unfold Impl.emplaceT Impl.emplace
  refine (readCapacity_still'.onT (fun s => .inl rfl)).bind ?_
  rintro n _ t1 ⟨rfl, h1, h2⟩
  by_cases hn : n = 0
  · rw [if_pos hn, if_pos hn]
    exact Lifts.pure ⟨rfl, rfl, fun _ h => (by cases h), .inl h1, fun _ => h1, fun h => (by cases h)⟩
  · rw [if_neg hn, if_neg hn]
    refine (attempt_still.onT (fun s => .inl h1)).bind ?_
    rintro _ _ t2 ⟨_, h3, h4⟩
    refine mapFindT_lifts.bind ?_
    rintro a b _ ⟨rfl, rfl⟩
    cases b with
    | none =>
      refine (attempt_still.onT (fun s => .inl (h3.trans h1))).bind ?_
      rintro _ _ t3 ⟨_, h5, h6⟩
      refine (insertionTime_still'.onT (fun s => .inl (h5.trans (h3.trans h1)))).bind ?_
      rintro x _ t4 ⟨rfl, h7, h8⟩
      exact insertNodeT_lifts (h8.trans (h6.trans (h4.trans h2))) (h7.trans (h5.trans (h3.trans h1)))
    | some n =>
      refine (attempt_still.onT (fun s => .inl (h3.trans h1))).bind ?_
      rintro _ _ t3 ⟨_, h5, h6⟩
      rw [← h5]
      exact updateNodeT_lifts (h5.trans (h3.trans h1))

/-! ### All calls -/

theorem Lifts.ret {t : TSt K V} {m : Impl.TM K V α} {m0 : Impl.CM K V β} {R : α → β → TSt K V → Prop} {E : TSt K V → Prop}
    {f : α → Res K V} {f0 : β → Res K V} (h : Lifts t m m0 R E) (hf : ∀ a b t', R a b t' → f a = f0 b) :
    Lifts t (Impl.ret m f) (Impl.ret m0 f0) (fun a b _ => a = b) E :=
  h.bind fun a b t' hR => Lifts.pure (hf a b t' hR)

theorem insertRangeT_lifts (l : List (K × V)) (t : TSt K V) :
    Lifts t (Impl.insertRangeT O G l) (Impl.insertRange O l) (fun a b _ => a = b) (fun _ => True) := by
  induction l generalizing t with
  | nil => exact Lifts.pure rfl
  | cons x l ih =>
    obtain ⟨k, v⟩ := x
    refine ((insertT_lifts t k v).mono (fun _ _ _ h => h) (fun _ _ => trivial)).bind fun a b t1 h1 => ?_
    refine (ih t1).bind fun n _ t2 h2 => ?_
    subst h2
    exact Lifts.pure (by rw [h1.flag])

theorem insertRangeMoveT_lifts (l : List (K × V)) (t : TSt K V) :
    Lifts t (Impl.insertRangeMoveT O G l) (Impl.insertRangeMove O l) (fun a b _ => a = b) (fun _ => True) := by
  induction l generalizing t with
  | nil => exact Lifts.pure rfl
  | cons x l ih =>
    obtain ⟨k, v⟩ := x
    refine ((emplaceT_lifts t k v).mono (fun _ _ _ h => h) (fun _ _ => trivial)).bind fun a b t1 h1 => ?_
    refine (ih t1).bind fun n _ t2 h2 => ?_
    subst h2
    exact Lifts.pure (by rw [h1.flag])

theorem clearT_lifts (t : TSt K V) : Lifts t (Impl.clearT G) Impl.clear
    (fun _ _ t' => t'.table = ⟨G.cleared t.table.limit, t.table.epoch⟩) (fun _ => False) := ⟨rfl, rfl⟩

theorem shrinkT_lifts (t : TSt K V) (n : Nat) : Lifts t (Impl.shrinkT G n) (Impl.shrink n)
    (fun _ _ t' => t'.table.epoch = t.table.epoch ∧ (n ≠ 0 → t'.table = t.table)) (fun t' => t'.table = t.table) := by
  unfold Impl.shrinkT Impl.shrink
  refine (Lifts.onT (fun _ => rfl)).bind ?_
  rintro sz _ t1 ⟨rfl, h1, _⟩
  split
  · exact Lifts.pure ⟨congrArg _ h1, fun _ => h1⟩
  · split
    · rename_i h0
      exact (clearT_lifts t1).mono (fun _ _ _ h => ⟨by rw [h, h1], fun hn => absurd h0 hn⟩) (fun _ h => h.elim)
    · refine (Lifts.onT (fun _ => h1)).mono ?_ (fun _ h => h)
      rintro _ _ t2 ⟨_, h2, _⟩
      exact ⟨by rw [h2, h1], fun _ => by rw [h2, h1]⟩

theorem clearAndIncreaseCapacityT_lifts (t : TSt K V) (n : Nat) :
    Lifts t (Impl.clearAndIncreaseCapacityT G n) (Impl.clearAndIncreaseCapacity n) (fun _ _ _ => True) (fun _ => True) := by
  refine ((clearT_lifts t).mono (fun _ _ _ h => h) (fun _ _ => trivial)).bind ?_
  rintro _ _ t1 h1
  refine (Lifts.onT (fun _ => trivial)).bind ?_
  rintro cap _ t2 ⟨rfl, _⟩
  split
  · exact (Lifts.onT (fun _ => trivial)).mono (fun _ _ _ _ => trivial) (fun _ h => h)
  · exact Lifts.pure trivial

theorem tstep_lifts {op : Op K V} {e : Nat} {t : TSt K V} (he : op.uArg = none ∨ e = t.table.epoch) :
    Lifts t (Impl.tstep O G op e) (Impl.step O op) (fun a b _ => a = b) (fun _ => True) := by
  have top : ∀ {α β : Type} {m : Impl.TM K V α} {m0 : Impl.CM K V β} {R : α → β → TSt K V → Prop} {E : TSt K V → Prop},
      Lifts t m m0 R E → Lifts t m m0 R (fun _ => True) := fun h => h.mono (fun _ _ _ h => h) (fun _ _ => trivial)
  have plain : Lifts t (Impl.onT (Impl.step O op)) (Impl.step O op) (fun a b _ => a = b) (fun _ => True) :=
    (Lifts.onT (fun _ => trivial)).mono (fun _ _ _ h => h.1) (fun _ h => h)
  have other : (Impl.tstep O G op e = match op.uArg with
      | none => Impl.onT (Impl.step O op)
      | some p => Impl.useIt (⟨p, e⟩ : TIt Ptr) >>= fun _ => Impl.onT (Impl.step O op)) →
      Lifts t (Impl.tstep O G op e) (Impl.step O op) (fun a b _ => a = b) (fun _ => True) := by
    intro h
    rw [h]
    cases hu : op.uArg with
    | none => exact plain
    | some p =>
      rcases he with he | he
      · rw [hu] at he; cases he
      · exact Lifts.skip (useIt_ok he) rfl plain
  cases op with
  | insert k v => exact (top (insertT_lifts t k v)).ret fun a b t' h => by rw [h.flag, h.pos]
  | emplace k v => exact (top (emplaceT_lifts t k v)).ret fun a b t' h => by rw [h.flag, h.pos]
  | insertRange l => exact (insertRangeT_lifts l t).ret fun a b t' h => congrArg _ h
  | insertRangeMove l => exact (insertRangeMoveT_lifts l t).ret fun a b t' h => congrArg _ h
  | assignRange l =>
    refine Lifts.ret (R := fun _ _ _ => True) ?_ fun _ _ _ _ => rfl
    exact (clearAndIncreaseCapacityT_lifts t l.length).bind fun _ _ t1 _ =>
      (insertRangeT_lifts l t1).bind fun _ _ _ _ => Lifts.pure trivial
  | assignRangeMove l =>
    refine Lifts.ret (R := fun _ _ _ => True) ?_ fun _ _ _ _ => rfl
    exact (clearAndIncreaseCapacityT_lifts t l.length).bind fun _ _ t1 _ =>
      (insertRangeMoveT_lifts l t1).bind fun _ _ _ _ => Lifts.pure trivial
  | clear => exact (top (clearT_lifts t)).ret fun _ _ _ _ => rfl
  | shrink n => exact (top (shrinkT_lifts t n)).ret fun _ _ _ _ => rfl
  | _ => exact other rfl

/-! ### Growth along a run -/

/-- What happens to the table of a cache whose capacity is at most `N`. -/
structure Path (N : Nat) (a b : Table) : Prop where
  epoch : a.epoch ≤ b.epoch
  limit : a.limit ≤ b.limit
  cost : b.epoch + min a.limit (N + 1) ≤ a.epoch + min b.limit (N + 1)

theorem Path.refl (N : Nat) (a : Table) : Path N a a := ⟨Nat.le_refl _, Nat.le_refl _, Nat.le_refl _⟩

theorem Path.trans {N : Nat} {a b c : Table} (h : Path N a b) (h' : Path N b c) : Path N a c := by
  obtain ⟨h1, h2, h3⟩ := h
  obtain ⟨h4, h5, h6⟩ := h'
  exact ⟨by omega, by omega, by omega⟩

theorem Once.path {N n : Nat} {a b : Table} (h : Once n a b) (hn : n ≤ N) : Path N a b := by
  rcases h with rfl | ⟨h1, h2, h3⟩
  · exact .refl N b
  · exact ⟨by omega, by omega, by omega⟩

theorem Lifts.known {t : TSt K V} {m : Impl.TM K V α} {m0 : Impl.CM K V β} {R : α → β → TSt K V → Prop}
    {E : TSt K V → Prop} (h : Lifts t m m0 R E) :
    Lifts t m m0 (fun a b t' => R a b t' ∧ m0 t.s = .ok b t'.s) E := by
  unfold Lifts at h ⊢
  cases hm : m t <;> cases hm0 : m0 t.s <;> rw [hm, hm0] at h <;> first | exact h.elim | skip
  · obtain ⟨rfl, h2⟩ := h
    exact ⟨rfl, h2, rfl⟩
  · exact h
  all_goals trivial

theorem Reachable.map_within {s : St (Cache K V) K V} (hO : NoListFault O) (h : Reachable O s) {N : Nat}
    (hc : CapWithin N s.c) : s.c.map.length ≤ N := by
  obtain ⟨t, hr, ht⟩ := h.rel hO
  have hl : s.c.map.length = t.c.ents.length := by rw [hr.rep.map.length_eq, List.length_map]
  rw [hl]
  cases hcap : t.c.cap with
  | none => rw [ht.awf.capNone hcap]; exact Nat.zero_le _
  | some n => exact Nat.le_trans (ht.awf.bound n hcap) (hc n (by rw [hr.rep.cap, hcap]))

theorem Reachable.insert_capacity {s s' : St (Cache K V) K V} (hO : NoListFault O) (h : Reachable O s) {op : Op K V} {k : K}
    {v : V} (hi : op.Inserts k v) {r : Res K V} (hd : Returns O op s r s') : s'.c.capacity = s.c.capacity := by
  obtain ⟨t, t', b, p, hr, ht, ho, hr', _⟩ := h.inserts hO hi hd
  rw [hr.rep.cap, hr'.rep.cap]
  cases ho <;> rfl

theorem insertRangeT_path (hO : NoListFault O) {N : Nat} (l : List (K × V)) {t : TSt K V} (hr : Reachable O t.s)
    (hc : CapWithin N t.s.c) :
    Lifts t (Impl.insertRangeT O G l) (Impl.insertRange O l) (fun a b t' => a = b ∧ Path N t.table t'.table)
      (fun t' => Path N t.table t'.table) := by
  suffices h : ∀ t1 : TSt K V, Path N t.table t1.table → Reachable O t1.s → CapWithin N t1.s.c →
      Lifts t1 (Impl.insertRangeT O G l) (Impl.insertRange O l) (fun a b t' => a = b ∧ Path N t.table t'.table)
        (fun t' => Path N t.table t'.table) from h t (.refl N _) hr hc
  induction l with
  | nil => exact fun t1 h1 _ _ => Lifts.pure ⟨rfl, h1⟩
  | cons x l ih =>
    intro t1 h1 hr1 hc1
    obtain ⟨k, v⟩ := x
    have hn := hr1.map_within hO hc1
    refine ((insertT_lifts t1 k v).known.mono (fun _ _ _ h => h) (fun _ h => h1.trans (h.path hn))).bind ?_
    rintro a b t2 ⟨h2, h3⟩
    have hd : Returns O (.insert k v) t1.s (.inserted b.1 b.2) t2.s := bind_ok h3
    have hc2 : CapWithin N t2.s.c := by
      intro n hcap
      rw [hr1.insert_capacity hO (.inl rfl) hd] at hcap
      exact hc1 n hcap
    refine (ih t2 (h1.trans (h2.once.path hn)) (hr1.after hO hd) hc2).bind ?_
    rintro m _ t3 ⟨rfl, h4⟩
    exact Lifts.pure ⟨by rw [h2.flag], h4⟩

theorem insertRangeMoveT_path (hO : NoListFault O) {N : Nat} (l : List (K × V)) {t : TSt K V} (hr : Reachable O t.s)
    (hc : CapWithin N t.s.c) :
    Lifts t (Impl.insertRangeMoveT O G l) (Impl.insertRangeMove O l) (fun a b t' => a = b ∧ Path N t.table t'.table)
      (fun t' => Path N t.table t'.table) := by
  suffices h : ∀ t1 : TSt K V, Path N t.table t1.table → Reachable O t1.s → CapWithin N t1.s.c →
      Lifts t1 (Impl.insertRangeMoveT O G l) (Impl.insertRangeMove O l) (fun a b t' => a = b ∧ Path N t.table t'.table)
        (fun t' => Path N t.table t'.table) from h t (.refl N _) hr hc
  induction l with
  | nil => exact fun t1 h1 _ _ => Lifts.pure ⟨rfl, h1⟩
  | cons x l ih =>
    intro t1 h1 hr1 hc1
    obtain ⟨k, v⟩ := x
    have hn := hr1.map_within hO hc1
    refine ((emplaceT_lifts t1 k v).known.mono (fun _ _ _ h => h) (fun _ h => h1.trans (h.path hn))).bind ?_
    rintro a b t2 ⟨h2, h3⟩
    have hd : Returns O (.emplace k v) t1.s (.inserted b.1 b.2) t2.s := bind_ok h3
    have hc2 : CapWithin N t2.s.c := by
      intro n hcap
      rw [hr1.insert_capacity hO (.inr rfl) hd] at hcap
      exact hc1 n hcap
    refine (ih t2 (h1.trans (h2.once.path hn)) (hr1.after hO hd) hc2).bind ?_
    rintro m _ t3 ⟨rfl, h4⟩
    exact Lifts.pure ⟨by rw [h2.flag], h4⟩

/-- The call can insert into the table. -/
def Op.stores : Op K V → Bool
  | .insert .. => true
  | .emplace .. => true
  | .insertRange _ => true
  | .insertRangeMove _ => true
  | .assignRange _ => true
  | .assignRangeMove _ => true
  | _ => false

theorem Lifts.inv {t : TSt K V} {m : Impl.TM K V α} {m0 : Impl.CM K V β} {R : α → β → TSt K V → Prop}
    {E : TSt K V → Prop} (h : Lifts t m m0 R E) :
    (∀ a t', m t = .ok a t' → ∃ b, m0 t.s = .ok b t'.s ∧ R a b t') ∧
    (∀ e t', m t = .throw e t' → m0 t.s = .throw e t'.s ∧ E t') := by
  unfold Lifts at h
  cases hm : m t <;> cases hm0 : m0 t.s <;> rw [hm, hm0] at h <;> first | exact h.elim | skip
  · obtain ⟨rfl, h2⟩ := h
    refine ⟨?_, fun _ _ h => (by cases h)⟩
    intro a t' h
    cases h
    exact ⟨_, rfl, h2⟩
  · obtain ⟨rfl, rfl, h2⟩ := h
    refine ⟨fun _ _ h => (by cases h), ?_⟩
    intro e t' h
    cases h
    exact ⟨rfl, h2⟩
  all_goals exact ⟨fun _ _ h => (by cases h), fun _ _ h => (by cases h)⟩

/-- Calls that neither insert into the table nor empty it leave it alone. -/
theorem tstep_table {op : Op K V} {e : Nat} {t t' : TSt K V} {res : Except Err (Res K V)} (h1 : op.stores = false)
    (h2 : op.resets = false) (h : TPerforms O G op e t res t') : t'.table = t.table := by
  have plain : ∀ {m : Impl.CM K V (Res K V)} {res : Except Err (Res K V)},
      (match res with | .ok r => Impl.onT m t = .ok r t' | .error x => Impl.onT m t = .throw x t') → t'.table = t.table := by
    intro m res hm
    have := (Lifts.onT (t := t) (m := m) (E := fun t' => t'.table = t.table) (fun _ => rfl)).inv
    cases res with
    | ok r => exact ((this.1 r t' hm).choose_spec).2.2.1
    | error x => exact (this.2 x t' hm).2
  have other : (Impl.tstep O G op e = match op.uArg with
      | none => Impl.onT (Impl.step O op)
      | some p => Impl.useIt (⟨p, e⟩ : TIt Ptr) >>= fun _ => Impl.onT (Impl.step O op)) → t'.table = t.table := by
    intro ht
    unfold TPerforms at h
    rw [ht] at h
    cases hu : op.uArg with
    | none => rw [hu] at h; exact plain h
    | some p =>
      rw [hu] at h
      by_cases he : e = t.table.epoch
      · dsimp only at h
        rw [bind_ok (useIt_ok (it := ⟨p, e⟩) he)] at h
        exact plain h
      · have hub : Impl.useIt (⟨p, e⟩ : TIt Ptr) t = .ub := by
          unfold Impl.useIt
          exact if_neg he
        dsimp only at h
        rw [bind_ub hub] at h
        cases res <;> cases h
  cases op with
  | shrink n =>
    have hn : n ≠ 0 := by
      rintro rfl
      cases h2
    have := ((shrinkT_lifts (G := G) t n).mono (R' := fun _ _ t' => t'.table = t.table) (fun _ _ _ h => h.2 hn)
      (fun _ h => h)).bind (f := fun _ => Pure.pure (Res.unit : Res K V))
      (f0 := fun _ => Pure.pure (Res.unit : Res K V)) (R' := fun _ _ t' => t'.table = t.table)
      (fun _ _ _ h => Lifts.pure h) |>.inv
    cases res with
    | ok r => exact ((this.1 r t' h).choose_spec).2
    | error x => exact (this.2 x t' h).2
  | insert k v => cases h1
  | emplace k v => cases h1
  | insertRange l => cases h1
  | insertRangeMove l => cases h1
  | assignRange l => cases h1
  | assignRangeMove l => cases h1
  | clear => cases h2
  | _ => exact other rfl

theorem Lifts.path_inv {t t' : TSt K V} {m : Impl.TM K V α} {m0 : Impl.CM K V β} {P : TSt K V → Prop}
    {R : α → β → TSt K V → Prop} {E : TSt K V → Prop} {f : α → Res K V}
    {res : Except Err (Res K V)} (h : Lifts t m m0 R E) (hR : ∀ a b t', R a b t' → P t') (hE : ∀ t', E t' → P t')
    (hp : match res with | .ok r => Impl.ret m f t = .ok r t' | .error x => Impl.ret m f t = .throw x t') : P t' := by
  have := ((h.mono (R' := fun _ _ t' => P t') (E' := P) hR hE).bind (f := fun a => Pure.pure (f a))
      (f0 := fun b => Pure.pure b) (R' := fun _ _ t' => P t') (fun _ _ _ h => Lifts.pure h)).inv
  cases res with
  | ok r => exact ((this.1 r t' hp).choose_spec).2
  | error x => exact (this.2 x t' hp).2

theorem tstep_path (hO : NoListFault O) {N : Nat} {op : Op K V} {e : Nat} {t t' : TSt K V} {res : Except Err (Res K V)}
    (hr : Reachable O t.s) (hc : CapWithin N t.s.c) (h2 : op.resets = false) (h : TPerforms O G op e t res t') :
    Path N t.table t'.table := by
  have hn := hr.map_within hO hc
  cases hs : op.stores with
  | false => rw [tstep_table hs h2 h]; exact .refl N _
  | true =>
    cases op <;> first | (cases hs; done) | (cases h2; done) | skip
    · exact (insertT_lifts t _ _).path_inv (P := fun t' => Path N t.table t'.table) (fun _ _ _ h => h.once.path hn)
        (fun _ h => h.path hn) h
    · exact (emplaceT_lifts t _ _).path_inv (P := fun t' => Path N t.table t'.table) (fun _ _ _ h => h.once.path hn)
        (fun _ h => h.path hn) h
    · exact (insertRangeT_path hO _ hr hc).path_inv (P := fun t' => Path N t.table t'.table) (fun _ _ _ h => h.2)
        (fun _ h => h) h
    · exact (insertRangeMoveT_path hO _ hr hc).path_inv (P := fun t' => Path N t.table t'.table) (fun _ _ _ h => h.2)
        (fun _ h => h) h

/-- The table is left out of account. -/
theorem TPerforms.bare {op : Op K V} {e : Nat} {t t' : TSt K V} {res : Except Err (Res K V)}
    (h : TPerforms O G op e t res t') :
    match res with | .ok r => Returns O op t.s r t'.s | .error x => Throws O op t.s x t'.s := by
  have he : op.uArg = none ∨ e = t.table.epoch := by
    cases hu : op.uArg with
    | none => exact .inl rfl
    | some p =>
      right
      apply Classical.byContradiction
      intro he
      have hub : Impl.tstep O G op e t = .ub := by
        have hub : Impl.useIt (⟨p, e⟩ : TIt Ptr) t = .ub := by
          unfold Impl.useIt
          exact if_neg he
        cases op <;> first | (cases hu; done) | skip
        all_goals
          cases hu
          exact bind_ub hub
      unfold TPerforms at h
      rw [hub] at h
      cases res <;> cases h
  have := (tstep_lifts (O := O) (G := G) he).inv
  cases res with
  | ok r =>
    obtain ⟨b, h1, rfl⟩ := this.1 r t' h
    exact h1
  | error x => exact (this.2 x t' h).1

theorem TRun.history {t t' : TSt K V} {h : List (Op K V × TSt K V)} (hh : TRun O G t h t') :
    ∃ l, History O t.s l t'.s := by
  induction hh with
  | nil => exact ⟨_, .nil⟩
  | @call h t1 t2 op e res _ hp ih =>
    obtain ⟨l, hl⟩ := ih
    cases res with
    | ok r => exact ⟨_, .ok hl hp.bare⟩
    | error x => exact ⟨_, .throw hl hp.bare⟩
  | elsewhere _ he ih =>
    obtain ⟨l, hl⟩ := ih
    exact ⟨_, .elsewhere hl he⟩

theorem TRun.reachable (hO : NoListFault O) {t t' : TSt K V} {h : List (Op K V × TSt K V)} (hr : Reachable O t.s)
    (hh : TRun O G t h t') : Reachable O t'.s := by
  obtain ⟨l, hl⟩ := hh.history
  exact hl.reachable hO hr

theorem TRun.path (hO : NoListFault O) {N : Nat} {t t' : TSt K V} {h : List (Op K V × TSt K V)} (hr : Reachable O t.s)
    (hh : TRun O G t h t') (hN : ∀ x ∈ h, x.1.resets = false ∧ CapWithin N x.2.s.c) : Path N t.table t'.table := by
  induction hh with
  | nil => exact .refl N _
  | call h1 hp ih =>
    have hx := hN _ (List.mem_cons_self ..)
    exact (ih fun x hx => hN x (List.mem_cons_of_mem _ hx)).trans (tstep_path hO (h1.reachable hO hr) hx.2 hx.1 hp)
  | elsewhere _ _ ih => exact ih hN

end LRU
