import Verif.Proofs.Equal
import Verif.Spec.Comparison
/-!
# Lemmas on comparing caches with the program's own comparisons
-/

set_option linter.unusedSectionVars false
set_option autoImplicit false

namespace LRU

variable {K V : Type} [KeyEqual K] [DecidableEq K] [DecidableEq V] {C : Comparison K V} {σ : Type}

/-- `m` changes nothing and tells whether `P`; or it throws, but only if `¬ P`, and for a reason `T`. -/
def Verdict (m : M σ Bool) (P T : Prop) : Prop :=
  ∀ s, (m s = .ok true s ∧ P) ∨ (m s = .ok false s ∧ ¬ P) ∨ (∃ e, m s = .throw e s ∧ ¬ P ∧ T)

theorem Verdict.mono {m : M σ Bool} {P P' T T' : Prop} (h : Verdict m P T) (hP : P ↔ P') (hT : T → T') :
    Verdict m P' T' := by
  intro s
  rcases h s with ⟨h1, h2⟩ | ⟨h1, h2⟩ | ⟨e, h1, h2, h3⟩
  · exact .inl ⟨h1, hP.1 h2⟩
  · exact .inr (.inl ⟨h1, fun h => h2 (hP.2 h)⟩)
  · exact .inr (.inr ⟨e, h1, fun h => h2 (hP.2 h), hT h3⟩)

theorem Verdict.and {m m' : M σ Bool} {P P' T : Prop} (h : Verdict m P T) (h' : P → Verdict m' P' T) :
    Verdict (do let eq ← m; if eq then m' else pure false) (P ∧ P') T := by
  intro s
  rcases h s with ⟨h1, h2⟩ | ⟨h1, h2⟩ | ⟨e, h1, h2, h3⟩
  · rw [bind_ok h1, if_pos rfl]
    rcases h' h2 s with ⟨h3, h4⟩ | ⟨h3, h4⟩ | ⟨e, h3, h4, h5⟩
    · exact .inl ⟨h3, h2, h4⟩
    · exact .inr (.inl ⟨h3, fun h => h4 h.2⟩)
    · exact .inr (.inr ⟨e, h3, fun h => h4 h.2, h5⟩)
  · rw [bind_ok h1]
    exact .inr (.inl ⟨rfl, fun h => h2 h.1⟩)
  · rw [bind_throw h1]
    exact .inr (.inr ⟨e, rfl, fun h => h2 h.1, h3⟩)

theorem verdict_pure {b : Bool} {T : Prop} : Verdict (pure b : M σ Bool) (b = true) T := by
  intro s
  cases b
  · exact .inr (.inl ⟨rfl, by simp⟩)
  · exact .inl ⟨rfl, rfl⟩

theorem compare_verdict (o : Option Bool) : Verdict (Impl.compare o : M σ Bool) (o = some true) (o = none) := by
  intro s
  cases o with
  | none => exact .inr (.inr ⟨_, rfl, by simp, rfl⟩)
  | some b =>
    cases b
    · exact .inr (.inl ⟨rfl, by simp⟩)
    · exact .inl ⟨rfl, rfl⟩

theorem infoEqBy_verdict (kind : Kind) (a b : Info V) :
    Verdict (Impl.infoEqBy C kind a b : M σ Bool) (C.valueNe a.value b.value = some false ∧ (kind ≠ .basic → a.time = b.time))
      (C.valueNe a.value b.value = none) := by
  intro s
  unfold Impl.infoEqBy
  cases h : C.valueNe a.value b.value with
  | none => exact .inr (.inr ⟨.user, rfl, by simp, rfl⟩)
  | some ne =>
    cases ne
    · cases kind with
      | basic => exact .inl ⟨rfl, by simp⟩
      | timed x y =>
        by_cases ht : a.time = b.time
        · refine .inl ⟨?_, rfl, fun _ => ht⟩
          show Out.ok (decide (a.time = b.time)) s = _
          rw [decide_eq_true ht]
        · refine .inr (.inl ⟨?_, fun h => ht (h.2 (by simp))⟩)
          show Out.ok (decide (a.time = b.time)) s = _
          rw [decide_eq_false ht]
    · exact .inr (.inl ⟨rfl, by simp⟩)

theorem pairEqBy_verdict (kind : Kind) (a b : MapNode K V) :
    Verdict (Impl.pairEqBy C kind a b : M σ Bool)
      (C.keyEq a.key b.key = some true ∧ C.valueNe a.info.value b.info.value = some false ∧
        (kind ≠ .basic → a.info.time = b.info.time)) (C.Fails a b) := by
  unfold Impl.pairEqBy
  exact Verdict.and ((compare_verdict _).mono Iff.rfl fun h => .inl h) fun _ =>
    (infoEqBy_verdict kind a.info b.info).mono Iff.rfl fun h => .inr (.inr (.inl h))

theorem Comparison.Fails.symm {x y : MapNode K V} (h : C.Fails x y) : C.Fails y x := by
  rcases h with h | h | h | h
  · exact .inr (.inl h)
  · exact .inl h
  · exact .inr (.inr (.inr h))
  · exact .inr (.inr (.inl h))

/-- What `std::unordered_map` finds out about an element `x` and the element `y` it has found for it. -/
def PairSame (C : Comparison K V) (kind : Kind) (x y : MapNode K V) : Prop :=
  (C.otherFirst = true → C.keyEq y.key x.key = some true ∧ C.valueNe y.info.value x.info.value = some false) ∧
  (C.otherFirst = false → C.keyEq x.key y.key = some true ∧ C.valueNe x.info.value y.info.value = some false) ∧
  (kind ≠ .basic → x.info.time = y.info.time)

theorem pairSame_verdict (kind : Kind) (x y : MapNode K V) :
    Verdict (Impl.elementEqBy C kind x y : M σ Bool) (PairSame C kind x y) (C.Fails x y) := by
  unfold PairSame Impl.elementEqBy
  cases h : C.otherFirst
  · rw [if_neg (by simp)]
    refine (pairEqBy_verdict kind x y).mono ?_ id
    simp [and_assoc]
  · rw [if_pos rfl]
    refine (pairEqBy_verdict kind y x).mono ?_ Comparison.Fails.symm
    simp [and_assoc, eq_comm]

theorem mapEqLoop_verdict (kind : Kind) (other : List (MapNode K V)) (l : List (MapNode K V)) :
    Verdict (Impl.mapEqLoop C kind other l : M σ Bool)
      (∀ x ∈ l, ∃ y, other.find? (fun m => keq m.key x.key) = some y ∧ PairSame C kind x y)
      (∃ x ∈ l, ∃ y ∈ other, C.Fails x y) := by
  induction l with
  | nil => exact verdict_pure.mono (by simp) id
  | cons n rest ih =>
    unfold Impl.mapEqLoop
    cases h : other.find? (fun m => keq m.key n.key) with
    | none =>
      refine verdict_pure.mono ?_ id
      simp [h]
    | some m =>
      have hm := List.mem_of_find?_eq_some h
      have h1 := Verdict.and (σ := σ) (T := ∃ x ∈ n :: rest, ∃ y ∈ other, C.Fails x y)
        ((pairSame_verdict (C := C) kind n m).mono Iff.rfl fun hf => ⟨n, List.mem_cons_self .., m, hm, hf⟩)
        (fun _ => ih.mono Iff.rfl fun ⟨x, hx, hy⟩ => ⟨x, List.mem_cons_of_mem _ hx, hy⟩)
      refine Verdict.mono h1 ?_ id
      rw [List.forall_mem_cons]
      constructor
      · rintro ⟨h1, h2⟩
        exact ⟨⟨m, h, h1⟩, h2⟩
      · rintro ⟨⟨y, hy, h1⟩, h2⟩
        rw [h] at hy
        cases hy
        exact ⟨h1, h2⟩

theorem keyFor_ok {s : St (Cache K V) K V} {x : St (MCache K V) K V} (hx : Rel s x) {e : Ent K V} (he : e ∈ x.c.ents)
    (w : σ) : Impl.keyFor s.c e.lnode w = .ok e.key w := by
  unfold Impl.keyFor
  rw [hx.rep.find_addr hx.awf, show e.lnode.ref = e.id from rfl, find?_key hx.awf.ids he]
  rfl

theorem pointwise_nil {α β : Type} {R : α → β → Prop} : Pointwise R ([] : List α) ([] : List β) :=
  ⟨rfl, fun i x y h => by simp at h⟩

theorem pointwise_cons {α β : Type} {R : α → β → Prop} {a : α} {b : β} {l : List α} {m : List β} :
    Pointwise R (a :: l) (b :: m) ↔ R a b ∧ Pointwise R l m := by
  constructor
  · rintro ⟨h1, h2⟩
    exact ⟨h2 0 a b rfl rfl, by simpa using h1, fun i x y hx hy => h2 (i + 1) x y (by simpa using hx) (by simpa using hy)⟩
  · rintro ⟨h1, h2, h3⟩
    refine ⟨by simp [h2], fun i x y hx hy => ?_⟩
    cases i with
    | zero =>
      simp at hx hy
      subst hx hy
      exact h1
    | succ i => exact h3 i x y (by simpa using hx) (by simpa using hy)

theorem pointwise_map {α β γ δ : Type} {R : γ → δ → Prop} {f : α → γ} {g : β → δ} {l : List α} {m : List β} :
    Pointwise R (l.map f) (m.map g) ↔ Pointwise (fun x y => R (f x) (g y)) l m := by
  constructor
  · rintro ⟨h1, h2⟩
    exact ⟨by simpa using h1, fun i x y hx hy => h2 i _ _ (by simp [hx]) (by simp [hy])⟩
  · rintro ⟨h1, h2⟩
    refine ⟨by simpa using h1, fun i x y hx hy => ?_⟩
    rw [List.getElem?_map, Option.map_eq_some_iff] at hx hy
    obtain ⟨a, ha, rfl⟩ := hx
    obtain ⟨b, hb, rfl⟩ := hy
    exact h2 i a b ha hb

theorem ordersEqBy_verdict {s t : St (Cache K V) K V} {x y : St (MCache K V) K V} (hx : Rel s x) (hy : Rel t y) :
    ∀ (l m : List (Ent K V)), (∀ e ∈ l, e ∈ x.c.ents) → (∀ e ∈ m, e ∈ y.c.ents) →
      Verdict (Impl.ordersEqBy C s.c t.c (l.map Ent.lnode) (m.map Ent.lnode) : M σ Bool)
        (Pointwise (fun e f => C.keyEq e.key f.key = some true) l m) (∃ e ∈ l, ∃ f ∈ m, C.Fails e.node f.node) := by
  intro l
  induction l with
  | nil =>
    intro m _ _
    cases m with
    | nil => exact verdict_pure.mono (by simp [pointwise_nil]) id
    | cons f m =>
      refine verdict_pure.mono (P := (false : Bool) = true) ?_ id
      simp [Pointwise]
  | cons e l ih =>
    intro m hl hm
    cases m with
    | nil =>
      refine verdict_pure.mono (P := (false : Bool) = true) ?_ id
      simp [Pointwise]
    | cons f m =>
      have h := Verdict.and (σ := σ) (T := ∃ e' ∈ e :: l, ∃ f' ∈ f :: m, C.Fails e'.node f'.node)
        ((compare_verdict (C.keyEq e.key f.key)).mono Iff.rfl fun h =>
          ⟨e, List.mem_cons_self .., f, List.mem_cons_self .., .inl h⟩)
        (fun _ => (ih m (fun z hz => hl z (List.mem_cons_of_mem _ hz)) (fun z hz => hm z (List.mem_cons_of_mem _ hz))).mono
          Iff.rfl fun ⟨a, ha, b, hb, h⟩ => ⟨a, List.mem_cons_of_mem _ ha, b, List.mem_cons_of_mem _ hb, h⟩)
      intro w
      have h := h.mono (P' := Pointwise (fun e f => C.keyEq e.key f.key = some true) (e :: l) (f :: m)) (pointwise_cons (R := fun e f : Ent K V => C.keyEq e.key f.key = some true)).symm id w
      simp only [List.map_cons, Impl.ordersEqBy]
      rw [bind_ok (keyFor_ok hx (hl e (List.mem_cons_self ..)) w),
        bind_ok (keyFor_ok hy (hm f (List.mem_cons_self ..)) w)]
      exact h

theorem mapEqBy_verdict (a b : Cache K V) :
    Verdict (Impl.mapEqBy C a b : M σ Bool)
      (a.map.length = b.map.length ∧ ∀ x ∈ a.map, ∃ y, b.map.find? (fun m => keq m.key x.key) = some y ∧
        PairSame C a.kind x y) (∃ x ∈ a.map, ∃ y ∈ b.map, C.Fails x y) := by
  unfold Impl.mapEqBy
  split
  · rename_i h
    exact (mapEqLoop_verdict a.kind b.map a.map).mono (by simp [h]) id
  · rename_i h
    refine verdict_pure.mono (P := (false : Bool) = true) ?_ id
    simp [h]

/-- Both comparisons together are those of the elements in order. -/
theorem same_iff (hC : C.Refines) {s t : St (Cache K V) K V} {x y : St (MCache K V) K V} (hx : Rel s x) (hy : Rel t y) :
    ((s.c.map.length = t.c.map.length ∧ ∀ a ∈ s.c.map, ∃ b, t.c.map.find? (fun m => keq m.key a.key) = some b ∧
        PairSame C s.c.kind a b) ∧ Pointwise (fun e f => C.keyEq e.key f.key = some true) x.c.ents y.c.ents) ↔
      Pointwise (C.Same s.c.kind) (elements s.c) (elements t.c) := by
  rw [hx.elements, hy.elements, pointwise_map]
  have found : ∀ e f : Ent K V, f ∈ y.c.ents → C.keyEq e.key f.key = some true →
      t.c.map.find? (fun m => keq m.key e.node.key) = some f.node := by
    intro e f hf he
    have hk : keq f.key e.key = true := by
      rw [KeyEqual.symm]
      exact hC _ _ he
    rw [show e.node.key = e.key from rfl, hy.rep.find_key hy.awf,
      find?_of_unique hf hk (fun z hz hz' =>
        key_inj_of_pairwise' hy.awf.keys z hz f hf hz' hk)]
    rfl
  have split : ∀ e f : Ent K V, C.Same s.c.kind e.node f.node ↔
      C.keyEq e.key f.key = some true ∧ PairSame C s.c.kind e.node f.node := by
    intro e f
    unfold Comparison.Same PairSame
    show C.keyEq e.key f.key = some true ∧ _ ↔ _
    constructor
    · rintro ⟨h1, h2, h3, h4⟩
      exact ⟨h1, h2, fun h => ⟨h1, h3 h⟩, h4⟩
    · rintro ⟨h1, h2, h3, h4⟩
      exact ⟨h1, h2, fun h => (h3 h).2, h4⟩
  constructor
  · rintro ⟨⟨-, h1⟩, h2, h3⟩
    refine ⟨h2, fun i e f he hf => (split e f).2 ⟨h3 i e f he hf, ?_⟩⟩
    have hk := h3 i e f he hf
    obtain ⟨b, hb, h4⟩ := h1 e.node (hx.rep.map.mem_iff.2 (List.mem_map.2 ⟨e, List.mem_of_getElem? he, rfl⟩))
    rw [found e f (List.mem_of_getElem? hf) hk] at hb
    cases hb
    exact h4
  · rintro ⟨h1, h2⟩
    refine ⟨⟨by rw [hx.map_length, hy.map_length, h1], fun a ha => ?_⟩, h1, fun i e f he hf => ((split e f).1 (h2 i e f he hf)).1⟩
    obtain ⟨e, he, rfl⟩ := List.mem_map.1 (hx.rep.map.mem_iff.1 ha)
    obtain ⟨i, hi⟩ := List.getElem?_of_mem he
    have hlt : i < y.c.ents.length := by
      rw [← h1]
      exact (List.getElem?_eq_some_iff.1 hi).1
    obtain ⟨h3, h4⟩ := (split e _).1 (h2 i e _ hi (List.getElem?_eq_getElem hlt))
    exact ⟨_, found e _ (List.getElem_mem hlt) h3, h4⟩

/-- Comparing two different caches. -/
theorem cachesEqBy_verdict (hC : C.Refines) {s t : St (Cache K V) K V} {x y : St (MCache K V) K V} (hx : Rel s x)
    (hy : Rel t y) : Verdict (do
      let eq ← Impl.mapEqBy C s.c t.c
      if eq then Impl.ordersEqBy C s.c t.c s.c.order t.c.order else pure false : M σ Bool)
      (Pointwise (C.Same s.c.kind) (elements s.c) (elements t.c))
      (∃ a ∈ elements s.c, ∃ b ∈ elements t.c, C.Fails a b) := by
  refine (Verdict.and ((mapEqBy_verdict s.c t.c).mono Iff.rfl ?_) fun _ => ?_).mono (same_iff hC hx hy) id
  · rintro ⟨a, ha, b, hb, h⟩
    rw [hx.elements, hy.elements]
    exact ⟨a, hx.rep.map.mem_iff.1 ha, b, hy.rep.map.mem_iff.1 hb, h⟩
  · rw [show s.c.order = x.c.ents.map Ent.lnode from hx.rep.order, show t.c.order = y.c.ents.map Ent.lnode from hy.rep.order]
    refine (ordersEqBy_verdict hx hy _ _ (fun _ h => h) (fun _ h => h)).mono Iff.rfl ?_
    rintro ⟨e, he, f, hf, h⟩
    rw [hx.elements, hy.elements]
    exact ⟨_, List.mem_map.2 ⟨e, he, rfl⟩, _, List.mem_map.2 ⟨f, hf, rfl⟩, h⟩

/-! ### Why caches are not equal -/

theorem ok_of_noexcept {α : Type} {m : M σ α} {s s' : σ} {r : α} (h : M.noexcept m s = .ok r s') : m s = .ok r s' := by
  unfold M.noexcept at h
  split at h
  · cases h
  · exact h

/-- If `m` returns false, then `D`. -/
def FalseOnly (m : M σ Bool) (D : Prop) : Prop := ∀ s s', m s = .ok false s' → D

theorem FalseOnly.and {m m' : M σ Bool} {D : Prop} (h : FalseOnly m D) (h' : FalseOnly m' D) :
    FalseOnly (do let eq ← m; if eq then m' else pure false) D := by
  intro s s' e
  cases hm : m s with
  | ok b t =>
    rw [bind_ok hm] at e
    cases b
    · exact h s t hm
    · exact h' t s' e
  | throw x t => rw [bind_throw hm] at e; cases e
  | ub => simp [Bind.bind, M.bind, hm] at e
  | terminate => rw [bind_terminate hm] at e; cases e
  | diverge => simp [Bind.bind, M.bind, hm] at e

theorem compare_false (o : Option Bool) : FalseOnly (Impl.compare o : M σ Bool) (o = some false) := by
  intro s s' e
  rcases o with _ | _ | _
  · cases e
  · rfl
  · cases e

theorem infoEqBy_false (kind : Kind) (a b : Info V) : FalseOnly (Impl.infoEqBy C kind a b : M σ Bool)
    (C.valueNe a.value b.value = some true ∨ (kind ≠ .basic ∧ a.time ≠ b.time)) := by
  intro s s' e
  unfold Impl.infoEqBy at e
  cases h : C.valueNe a.value b.value with
  | none => rw [h] at e; cases e
  | some ne =>
    rw [h] at e
    cases ne
    · cases kind with
      | basic => cases e
      | timed x y =>
        refine .inr ⟨by simp, fun ht => ?_⟩
        change Out.ok (decide (a.time = b.time)) s = _ at e
        rw [decide_eq_true ht] at e
        cases e
    · exact .inl rfl

theorem pairEqBy_false (kind : Kind) (a b : MapNode K V) : FalseOnly (Impl.pairEqBy C kind a b : M σ Bool)
    ((C.keyEq a.key b.key = some false ∨ C.valueNe a.info.value b.info.value = some true) ∨
      (kind ≠ .basic ∧ a.info.time ≠ b.info.time)) := by
  unfold Impl.pairEqBy
  refine FalseOnly.and (fun s s' e => .inl (.inl (compare_false _ s s' e))) fun s s' e => ?_
  exact (infoEqBy_false kind a.info b.info s s' e).elim (fun h => .inl (.inr h)) .inr

theorem elementEqBy_false (kind : Kind) (x y : MapNode K V) :
    FalseOnly (Impl.elementEqBy C kind x y : M σ Bool) (C.Differ kind x y) := by
  intro s s' e
  unfold Impl.elementEqBy at e
  cases h : C.otherFirst
  · rw [h, if_neg (by simp)] at e
    exact (pairEqBy_false kind x y s s' e).elim (fun h1 => .inr (.inl ⟨h, h1⟩)) fun h1 => .inr (.inr h1)
  · rw [h, if_pos rfl] at e
    exact (pairEqBy_false kind y x s s' e).elim (fun h1 => .inl ⟨h, h1⟩) fun h1 => .inr (.inr ⟨h1.1, Ne.symm h1.2⟩)

theorem mapEqLoop_false (kind : Kind) (other l : List (MapNode K V)) : FalseOnly (Impl.mapEqLoop C kind other l : M σ Bool)
    ((∃ x ∈ l, ∀ y ∈ other, keq y.key x.key ≠ true) ∨ ∃ x ∈ l, ∃ y ∈ other, keq y.key x.key = true ∧ C.Differ kind x y) := by
  induction l with
  | nil => intro s s' e; cases e
  | cons n rest ih =>
    unfold Impl.mapEqLoop
    cases h : other.find? (fun m => keq m.key n.key) with
    | none => exact fun _ _ _ => .inl ⟨n, List.mem_cons_self .., fun y hy => List.find?_eq_none.1 h y hy⟩
    | some m =>
      refine FalseOnly.and (fun s s' e => .inr ⟨n, List.mem_cons_self .., m, List.mem_of_find?_eq_some h, ?_, elementEqBy_false kind n m s s' e⟩)
        fun s s' e => (ih s s' e).imp (fun ⟨x, hx, h⟩ => ⟨x, List.mem_cons_of_mem _ hx, h⟩) fun ⟨x, hx, h⟩ => ⟨x, List.mem_cons_of_mem _ hx, h⟩
      simpa using List.find?_some h

theorem ordersEqBy_false {s t : St (Cache K V) K V} {x y : St (MCache K V) K V} (hx : Rel s x) (hy : Rel t y) :
    ∀ (l m : List (Ent K V)), (∀ e ∈ l, e ∈ x.c.ents) → (∀ e ∈ m, e ∈ y.c.ents) →
      FalseOnly (Impl.ordersEqBy C s.c t.c (l.map Ent.lnode) (m.map Ent.lnode) : M σ Bool)
        (l.length ≠ m.length ∨ ∃ (n : Nat) (e f : Ent K V), l[n]? = some e ∧ m[n]? = some f ∧ C.keyEq e.key f.key = some false) := by
  intro l
  induction l with
  | nil =>
    intro m _ _ w w' h
    cases m with
    | nil => cases h
    | cons f m => exact .inl (by simp)
  | cons e l ih =>
    intro m hl hm w w' h
    cases m with
    | nil => exact .inl (by simp)
    | cons f m =>
      simp only [List.map_cons, Impl.ordersEqBy] at h
      rw [bind_ok (keyFor_ok hx (hl e (List.mem_cons_self ..)) w), bind_ok (keyFor_ok hy (hm f (List.mem_cons_self ..)) w)] at h
      refine FalseOnly.and (fun s s' e' => .inr ⟨0, e, f, rfl, rfl, compare_false _ s s' e'⟩) (fun s s' e' => ?_) w w' h
      rcases ih m (fun z hz => hl z (List.mem_cons_of_mem _ hz)) (fun z hz => hm z (List.mem_cons_of_mem _ hz)) s s' e' with h | ⟨n, a, b, h⟩
      · exact .inl (by simpa using h)
      · exact .inr ⟨n + 1, a, b, by simpa using h⟩

theorem cachesEqBy_false {s t : St (Cache K V) K V} {x y : St (MCache K V) K V} (hx : Rel s x) (hy : Rel t y) :
    FalseOnly (do
      let eq ← Impl.mapEqBy C s.c t.c
      if eq then Impl.ordersEqBy C s.c t.c s.c.order t.c.order else pure false : M σ Bool) (C.Reason s.c t.c) := by
  have ma : ∀ {z}, z ∈ s.c.map ↔ z ∈ elements s.c := fun {z} => by rw [hx.elements]; exact hx.rep.map.mem_iff
  have mb : ∀ {z}, z ∈ t.c.map ↔ z ∈ elements t.c := fun {z} => by rw [hy.elements]; exact hy.rep.map.mem_iff
  have la : count s.c = x.c.ents.length := by rw [count, hx.elements, List.length_map]
  have lb : count t.c = y.c.ents.length := by rw [count, hy.elements, List.length_map]
  refine FalseOnly.and ?_ ?_
  · intro w w' e
    unfold Impl.mapEqBy at e
    split at e
    · rcases mapEqLoop_false _ _ _ w w' e with ⟨a, ha, h⟩ | ⟨a, ha, b, hb, h⟩
      · exact .inr (.inl ⟨a, ma.1 ha, fun ⟨b, hb, hk⟩ => h b (mb.2 hb) hk⟩)
      · exact .inr (.inr (.inl ⟨a, ma.1 ha, b, mb.1 hb, h⟩))
    · rename_i h
      refine .inl fun h' => h ?_
      rw [hx.map_length, hy.map_length, ← la, ← lb, h']
  · intro w w' e
    rw [show s.c.order = x.c.ents.map Ent.lnode from hx.rep.order, show t.c.order = y.c.ents.map Ent.lnode from hy.rep.order] at e
    rcases ordersEqBy_false hx hy _ _ (fun _ h => h) (fun _ h => h) w w' e with h | ⟨n, a, b, h1, h2, h3⟩
    · exact .inl (by rw [la, lb]; exact h)
    · exact .inr (.inr (.inr ⟨n, a.node, b.node, by rw [hx.elements]; simp [h1], by rw [hy.elements]; simp [h2], h3⟩))

end LRU
