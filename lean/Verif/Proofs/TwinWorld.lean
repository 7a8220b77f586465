import Verif.Proofs.TwinStep
import Verif.Proofs.Pair
/-!
# Programs behave the same under every order of the hash tables
-/

set_option linter.unusedSectionVars false
set_option autoImplicit false

namespace LRU

variable {K V : Type} [KeyEqual K] [DecidableEq K] [DecidableEq V] {O O' : Oracle K V}

theorem ret_terminate {σ α : Type} {m : M σ α} {f : α → Res K V} {s : σ} (h : m s = .terminate) :
    Impl.ret m f s = .terminate := bind_terminate h

theorem SameButOrder.refl (O : Oracle K V) : SameButOrder O O := ⟨rfl, rfl, rfl⟩

theorem Reordered.refl (c : Cache K V) : Reordered c c := ⟨.refl _, rfl, rfl, rfl, rfl, rfl⟩

theorem SameShared.refl (g : Shared K V) : SameShared g g := ⟨rfl, rfl, rfl, rfl, rfl, rfl⟩

/-! ### The invariant -/

/-- Nodes are well separated inside each cache. -/
def UBound (c : Cache K V) (n : Ptr) : Prop := CBound c n ∧ Uniq c.map n

/-- Caches have no nodes in common. -/
def UClear (c d : Cache K V) : Prop := Clear c d ∧ Apart c d

theorem UBound.weak {w : World K V} (h : WPair UBound UClear w) : WPair CBound Clear w :=
  ⟨fun i c hc => (h.each i c hc).1, fun i j c d hij hc hd => (h.pair i j c d hij hc hd).1⟩

theorem Twin.self {c : Cache K V} {g : Shared K V} (h : Uniq c.map g.next) : Twin ⟨c, g⟩ ⟨c, g⟩ :=
  ⟨.refl _, rfl, fun _ => rfl, h⟩

theorem TS.uniq {α : Type} {m : Impl.CM K V α} (h : TS m m) {s s' : St (Cache K V) K V} (hu : Uniq s.c.map s.g.next)
    (hs : (∃ a, m s = .ok a s') ∨ ∃ e, m s = .throw e s') : Uniq s'.c.map s'.g.next := by
  have h1 := h s s (Twin.self hu) trivial
  rcases hs with ⟨a, hs⟩ | ⟨e, hs⟩ <;> rw [hs] at h1
  · exact h1.2.1.uniq
  · exact h1.2.uniq

theorem ctorBody_t (h : SameButOrder O O') (ctor : Ctor K V) : TS (Impl.ctorBody O ctor) (Impl.ctorBody O' ctor) := by
  cases ctor with
  | default => exact .pure
  | sized n => exact .pure
  | sizedItems n l => exact insertRange_t h
  | items l => exact insertRange_t h
  | initList l => exact insertRange_t h
  | sizedRangeMove n l => exact insertRangeMove_t h
  | rangeMove l => exact insertRangeMove_t h

theorem copyNodes_uniq {base : Ptr} {l : List (MapNode K V)} (h : Uniq l base) :
    Uniq (Impl.copyNodes base l) (base + base) := by
  unfold Impl.copyNodes
  refine ⟨?_, ?_, ?_⟩
  · rw [List.map_map]
    have := h.addrs
    unfold List.Nodup at this ⊢
    rw [List.pairwise_map] at this ⊢
    exact this.imp fun hne e => hne (Nat.add_left_cancel e)
  · rw [List.pairwise_map]
    exact h.keys
  · intro x hx
    obtain ⟨y, hy, rfl⟩ := List.mem_map.1 hx
    exact Nat.add_lt_add_left (h.lt y hy) _

theorem separate_ok : PairOK O (UBound (K := K) (V := V)) UClear where
  mono := fun h hn => ⟨bound_ok (O := O).mono h.1 hn, h.2.mono hn⟩
  same := fun e h => ⟨bound_ok (O := O).same e h.1, by rw [e.map]; exact h.2⟩
  sameL := fun e h => ⟨bound_ok (O := O).sameL e h.1, by unfold Apart; rw [e.map]; exact h.2⟩
  sameR := fun e h => ⟨bound_ok (O := O).sameR e h.1, by unfold Apart; rw [e.map]; exact h.2⟩
  empty := fun h1 h2 h3 => ⟨bound_ok (O := O).empty h1 h2 h3, by rw [h1]; exact .nil _⟩
  emptyL := fun h1 h2 h3 => ⟨bound_ok (O := O).emptyL h1 h2 h3, by unfold Apart; simp [h1]⟩
  emptyR := fun h1 h2 h3 => ⟨bound_ok (O := O).emptyR h1 h2 h3, by unfold Apart; simp [h1]⟩
  call := by
    intro w i c op res s' h hc hp
    have hw := UBound.weak h
    obtain ⟨h1, h2, h3⟩ := bound_ok.call hw hc hp
    have hu : Uniq s'.c.map s'.g.next := by
      refine (step_t (SameButOrder.refl O) op).uniq (s := viewOf w i c) (h.each i c hc).2 ?_
      cases res with
      | ok r => exact .inl ⟨r, hp⟩
      | error e => exact .inr ⟨e, hp⟩
    have hraw : RawStep (viewOf w i c) s' := by
      have h4 := step_raw (O := O) op _ (hw.bounded hc)
      cases res <;> (unfold Performs at hp; simp only at hp; rw [hp] at h4; exact h4)
    have hap : ∀ (j : Nat) (d : Cache K V), j ≠ i → w.caches[j]? = some (some d) → Apart s'.c d := by
      intro j d hj hd x hx y hy e
      rcases hraw.nodes x hx with ⟨z, hz, e1, -⟩ | hn
      · exact (h.pair i j c d (fun e => hj e.symm) hc hd).2 z hz y hy (e1.trans e)
      · have := (hw.each j d hd).nodesLt y hy
        rw [← e] at this
        exact absurd (Nat.lt_of_lt_of_le this hn) (Nat.lt_irrefl _)
    exact ⟨⟨h1, hu⟩, h2, fun j d hj hd => ⟨⟨(h3 j d hj hd).1, hap j d hj hd⟩, ⟨(h3 j d hj hd).2,
      fun x hx y hy e => hap j d hj hd y hy x hx e.symm⟩⟩⟩
  create := by
    intro w kind ctor n s' h hb
    have hw := UBound.weak h
    obtain ⟨h1, h2, h3⟩ := bound_ok.create hw hb
    have hu : Uniq s'.c.map s'.g.next :=
      (ctorBody_t (SameButOrder.refl O) ctor).uniq (s := ⟨_, _⟩) (.nil _) (.inl ⟨n, hb⟩)
    have h0 : Bounded (⟨Impl.emptyCache kind (Impl.ctorCapacity ctor),
        { w.g with ext := Impl.allNodes w.caches }⟩ : St (Cache K V) K V) := by
      refine ⟨fun m _ => Nat.zero_le m, fun _ => rfl, fun l hl => (by cases hl), fun l hl => (by cases hl),
        fun l hl => (by cases hl), fun x hx => ?_⟩
      obtain ⟨j, d, hd, hx⟩ := mem_allNodes.1 hx
      exact (hw.each j d hd).nodesLt x hx
    have hraw := ctorBody_raw (O := O) ctor _ h0
    rw [hb] at hraw
    have hap : ∀ (j : Nat) (d : Cache K V), w.caches[j]? = some (some d) → Apart s'.c d := by
      intro j d hd x hx y hy e
      rcases RawStep.nodes hraw x hx with ⟨z, hz, -⟩ | hn
      · cases hz
      · have := (hw.each j d hd).nodesLt y hy
        rw [← e] at this
        exact absurd (Nat.lt_of_lt_of_le this hn) (Nat.lt_irrefl _)
    exact ⟨⟨h1, hu⟩, h2, fun j d hd => ⟨⟨(h3 j d hd).1, hap j d hd⟩, ⟨(h3 j d hd).2,
      fun x hx y hy e => hap j d hd y hy x hx e.symm⟩⟩⟩
  createThrow := fun h hb => bound_ok.createThrow (UBound.weak h) hb
  copy := by
    intro w i b c h hb hc
    have hw := UBound.weak h
    obtain ⟨h1, h2⟩ := bound_ok.copy hw hb hc
    obtain ⟨hm, -⟩ := copyOf_parts hc
    have hu : Uniq c.map (w.g.next + w.g.next + b.order.length) := by
      rw [hm]
      exact ((copyNodes_uniq (h.each i b hb).2).perm (O.shuffle_perm _ _)).mono (Nat.le_add_right _ _)
    have hap : ∀ (j : Nat) (d : Cache K V), w.caches[j]? = some (some d) → Apart c d := by
      intro j d hd x hx y hy e
      rw [hm] at hx
      have h3 := (copyNodes_range (h.each i b hb).1.nodesLt ((O.shuffle_perm _ _).mem_iff.1 hx)).1
      have := (hw.each j d hd).nodesLt y hy
      rw [← e] at this
      exact absurd (Nat.lt_of_lt_of_le this h3) (Nat.lt_irrefl _)
    exact ⟨⟨h1, hu⟩, fun j d hd => ⟨⟨(h2 j d hd).1, hap j d hd⟩, ⟨(h2 j d hd).2,
      fun x hx y hy e => hap j d hd y hy x hx e.symm⟩⟩⟩

/-! ### Two worlds -/

variable {w x : World K V}

theorem ReorderedWorld.get (h : ReorderedWorld w x) {i : Nat} {c : Cache K V} (hc : w.caches[i]? = some (some c)) :
    ∃ d, x.caches[i]? = some (some d) ∧ Reordered c d := by
  have h1 := h.caches i
  rw [hc] at h1
  cases hx : x.caches[i]? with
  | none => rw [hx] at h1; exact h1.elim
  | some o =>
    cases o with
    | none => rw [hx] at h1; exact h1.elim
    | some d => rw [hx] at h1; exact ⟨d, rfl, h1⟩

theorem ReorderedWorld.get' (h : ReorderedWorld w x) {i : Nat} {d : Cache K V} (hd : x.caches[i]? = some (some d)) :
    ∃ c, w.caches[i]? = some (some c) ∧ Reordered c d := by
  have h1 := h.caches i
  rw [hd] at h1
  cases hx : w.caches[i]? with
  | none => rw [hx] at h1; exact h1.elim
  | some o =>
    cases o with
    | none => rw [hx] at h1; exact h1.elim
    | some c => rw [hx] at h1; exact ⟨c, rfl, h1⟩

theorem getCache_ub {i : Nat} (h : ∀ c, w.caches[i]? ≠ some (some c)) : Impl.getCache i w = .ub := by
  rcases getCache_cases i w with ⟨c, hc, -⟩ | h1
  · exact absurd hc (h c)
  · exact h1

theorem getCache_ok {i : Nat} {c : Cache K V} (h : w.caches[i]? = some (some c)) : Impl.getCache i w = .ok c w := by
  unfold Impl.getCache; rw [h]

theorem ReorderedWorld.pair (h : ReorderedWorld w x) (i : Nat) :
    (∃ c d, w.caches[i]? = some (some c) ∧ x.caches[i]? = some (some d) ∧ Reordered c d ∧
      Impl.getCache i w = .ok c w ∧ Impl.getCache i x = .ok d x) ∨
    ((∀ c, w.caches[i]? ≠ some (some c)) ∧ (∀ c, x.caches[i]? ≠ some (some c)) ∧
      Impl.getCache i w = .ub ∧ Impl.getCache i x = .ub) := by
  rcases getCache_cases i w with ⟨c, hc, hg⟩ | hu
  · obtain ⟨d, hd, hr⟩ := h.get hc
    exact .inl ⟨c, d, hc, hd, hr, hg, getCache_ok hd⟩
  · have h1 : ∀ c, w.caches[i]? ≠ some (some c) := fun c hc => by rw [getCache_ok hc] at hu; cases hu
    have h2 : ∀ d, x.caches[i]? ≠ some (some d) := fun d hd => by
      obtain ⟨c, hc, -⟩ := h.get' hd
      exact h1 c hc
    exact .inr ⟨h1, h2, hu, getCache_ub h2⟩

theorem ReorderedWorld.length (h : ReorderedWorld w x) : x.caches.length = w.caches.length := by
  have h1 : ∀ i : Nat, w.caches[i]? = none ↔ x.caches[i]? = none := by
    intro i
    have := h.caches i
    rcases hw : w.caches[i]? with _ | _ | c <;> rcases hx : x.caches[i]? with _ | _ | d <;> rw [hw, hx] at this <;>
      first | exact this.elim | simp
  have h2 := (h1 w.caches.length).1 (by simp)
  have h3 := (h1 x.caches.length).2 (by simp)
  rw [List.getElem?_eq_none_iff] at h2 h3
  omega

theorem ReorderedWorld.set (h : ReorderedWorld w x) {g g' : Shared K V} (hg : SameShared g g') (i : Nat)
    {a b : Option (Cache K V)} (hab : ReorderedAt (some a) (some b)) :
    ReorderedWorld ⟨w.caches.set i a, g⟩ ⟨x.caches.set i b, g'⟩ := by
  refine ⟨fun k => ?_, hg⟩
  show ReorderedAt (w.caches.set i a)[k]? (x.caches.set i b)[k]?
  rw [List.getElem?_set, List.getElem?_set, h.length]
  split
  · split
    · exact hab
    · trivial
  · exact h.caches k

theorem ReorderedWorld.push (h : ReorderedWorld w x) {g g' : Shared K V} (hg : SameShared g g')
    {a b : Option (Cache K V)} (hab : ReorderedAt (some a) (some b)) :
    ReorderedWorld ⟨w.caches ++ [a], g⟩ ⟨x.caches ++ [b], g'⟩ := by
  refine ⟨fun k => ?_, hg⟩
  show ReorderedAt (w.caches ++ [a])[k]? (x.caches ++ [b])[k]?
  rw [List.getElem?_append, List.getElem?_append, h.length]
  split
  · exact h.caches k
  · cases k - w.caches.length with
    | zero => exact hab
    | succ n => trivial

theorem ReorderedWorld.others (h : ReorderedWorld w x) (hg : SameShared w.g x.g) : ReorderedWorld w ⟨x.caches, x.g⟩ :=
  ⟨h.caches, hg⟩

theorem ReorderedWorld.setG (h : ReorderedWorld w x) {g g' : Shared K V} (hg : SameShared g g') :
    ReorderedWorld ⟨w.caches, g⟩ ⟨x.caches, g'⟩ := ⟨h.caches, hg⟩

theorem find?_same_mem {α : Type} {p : α → Bool} {l m : List α} (h : ∀ y, y ∈ l ↔ y ∈ m)
    (u : ∀ y ∈ l, ∀ z ∈ l, p y = true → p z = true → y = z) : m.find? p = l.find? p := by
  cases hl : l.find? p with
  | none =>
    rw [List.find?_eq_none] at hl ⊢
    intro y hy
    exact hl y ((h y).2 hy)
  | some a =>
    have h1 := List.mem_of_find?_eq_some hl
    have h2 := List.find?_some hl
    exact find?_of_unique ((h a).1 h1) h2 fun y hy hp => u y ((h y).2 hy) a h1 hp h2

theorem all_find (hw : WPair UBound UClear w) (h : ReorderedWorld w x) (o : Nat → Prop) {l m : List (MapNode K V)}
    (hl : ∀ y, y ∈ l ↔ ∃ (j : Nat) (c : Cache K V), o j ∧ w.caches[j]? = some (some c) ∧ y ∈ c.map)
    (hm : ∀ y, y ∈ m ↔ ∃ (j : Nat) (c : Cache K V), o j ∧ x.caches[j]? = some (some c) ∧ y ∈ c.map) (p : Ptr) :
    m.find? (fun n => n.addr == p) = l.find? (fun n => n.addr == p) := by
  refine find?_same_mem (fun y => ?_) ?_
  · rw [hl, hm]
    constructor
    · rintro ⟨j, c, ho, hc, hy⟩
      obtain ⟨d, hd, hr⟩ := h.get hc
      exact ⟨j, d, ho, hd, hr.map.mem_iff.2 hy⟩
    · rintro ⟨j, d, ho, hd, hy⟩
      obtain ⟨c, hc, hr⟩ := h.get' hd
      exact ⟨j, c, ho, hc, hr.map.mem_iff.1 hy⟩
  · intro y hy z hz h1 h2
    obtain ⟨j, c, -, hc, hy⟩ := (hl y).1 hy
    obtain ⟨k, d, -, hd, hz⟩ := (hl z).1 hz
    have e : y.addr = z.addr := (eq_of_beq h1).trans (eq_of_beq h2).symm
    by_cases hjk : j = k
    · subst hjk
      rw [hc] at hd
      injection hd with hd
      injection hd with hd
      subst hd
      exact map_inj_of_nodup (hw.each j c hc).2.addrs y hy z hz e
    · exact absurd e ((hw.pair j k c d hjk hc hd).2 y hy z hz)

theorem ReorderedWorld.view (hw : WPair UBound UClear w) (h : ReorderedWorld w x) {i : Nat} {c d : Cache K V}
    (hc : w.caches[i]? = some (some c)) (hr : Reordered c d) : Twin (viewOf w i c) (viewOf x i d) := by
  refine ⟨hr, ?_, ?_, (hw.each i c hc).2⟩
  · show ({ x.g with ext := _ } : Shared K V) = _
    unfold viewOf
    simp only [h.shared.stats, h.shared.nextStat, h.shared.log, h.shared.next, h.shared.ticks, h.shared.steps]
  · refine all_find hw h (fun j => j ≠ i) (fun y => ?_) (fun y => ?_)
    · exact mem_others
    · exact mem_others

theorem ReorderedWorld.fresh (hw : WPair UBound UClear w) (h : ReorderedWorld w x) (kind : Kind) (n : Nat) :
    Twin (⟨Impl.emptyCache kind n, { w.g with ext := Impl.allNodes w.caches }⟩ : St (Cache K V) K V)
      ⟨Impl.emptyCache kind n, { x.g with ext := Impl.allNodes x.caches }⟩ := by
  refine ⟨.refl _, ?_, ?_, .nil _⟩
  · simp only [h.shared.stats, h.shared.nextStat, h.shared.log, h.shared.next, h.shared.ticks, h.shared.steps]
  · refine all_find hw h (fun _ => True) (fun y => ?_) (fun y => ?_)
    · exact mem_allNodes.trans ⟨fun ⟨j, c, h1, h2⟩ => ⟨j, c, trivial, h1, h2⟩, fun ⟨j, c, _, h1, h2⟩ => ⟨j, c, h1, h2⟩⟩
    · exact mem_allNodes.trans ⟨fun ⟨j, c, h1, h2⟩ => ⟨j, c, trivial, h1, h2⟩, fun ⟨j, c, _, h1, h2⟩ => ⟨j, c, h1, h2⟩⟩

theorem Twin.shared {s t : St (Cache K V) K V} (h : Twin s t) : SameShared s.g t.g := by
  refine ⟨?_, ?_, ?_, ?_, ?_, ?_⟩ <;> rw [h.g]

/-! ### Copying and comparing -/

theorem copyOrder_congr {base : Ptr} {src src' dst dst' : List (MapNode K V)}
    (h1 : ∀ p, src'.find? (fun n => n.addr == p) = src.find? (fun n => n.addr == p))
    (h2 : ∀ k, dst'.find? (fun n => keq n.key k) = dst.find? (fun n => keq n.key k)) (l : List ListNode) :
    Impl.copyOrder base src' dst' l = Impl.copyOrder base src dst l := by
  induction l generalizing base with
  | nil => rfl
  | cons a r ih =>
    unfold Impl.copyOrder
    rw [h1]
    cases src.find? (fun n => n.addr == a.ref) with
    | none => rfl
    | some n =>
      simp only [h2]
      cases dst.find? (fun m => keq m.key n.key) with
      | none => rfl
      | some m => simp only [ih]

theorem copyOf_pair {base : Ptr} {b d : Cache K V} (hu : Uniq b.map base) (hr : Reordered b d) :
    (Impl.copyOf O base b = none ∧ Impl.copyOf O' base d = none) ∨
    ∃ c e, Impl.copyOf O base b = some c ∧ Impl.copyOf O' base d = some e ∧ Reordered c e := by
  have hp : (O'.shuffle base (Impl.copyNodes base d.map)).Perm (O.shuffle base (Impl.copyNodes base b.map)) :=
    (O'.shuffle_perm _ _).trans ((hr.map.map _).trans (O.shuffle_perm _ _).symm)
  have hc := copyOrder_congr (base := base + base) (fun p => hu.find_addr hr.map p)
    (fun k => ((copyNodes_uniq hu).perm (O.shuffle_perm base _)).find_key hp k) b.order
  unfold Impl.copyOf
  simp only
  rw [hr.order, hc]
  cases Impl.copyOrder (base + base) b.map (O.shuffle base (Impl.copyNodes base b.map)) b.order with
  | none => exact .inl ⟨rfl, rfl⟩
  | some o => exact .inr ⟨_, _, rfl, rfl, ⟨hp, rfl, hr.last, hr.capacity, hr.kind, hr.obs⟩⟩

theorem cacheEq_pair {n : Ptr} {a b a' b' : Cache K V} (ha : Uniq a.map n) (hb : Uniq b.map n) (h1 : Reordered a a')
    (h2 : Reordered b b') : Impl.cacheEq a' b' = Impl.cacheEq a b := by
  have e1 : Impl.mapEq a' b' = Impl.mapEq a b := by
    unfold Impl.mapEq
    rw [h1.map.length_eq, h2.map.length_eq, h1.map.all_eq, h1.kind]
    congr 1
    apply List.all_congr rfl
    intro y
    rw [hb.find_key h2.map]
  have e2 : ∀ {c d : Cache K V}, Uniq c.map n → Reordered c d → Impl.orderKeys d = Impl.orderKeys c := by
    intro c d hc hr
    unfold Impl.orderKeys
    rw [hr.order]
    congr 1
    funext l
    rw [hc.find_addr hr.map]
  unfold Impl.cacheEq
  rw [e1, e2 ha h1, e2 hb h2]

/-- One step of a program. -/
theorem wstep_reordered (hO : SameButOrder O O') (hw : WPair UBound UClear w) (h : ReorderedWorld w x) (op : WOp K V) :
    SameOutcome ReorderedWorld (Impl.wstep O op w) (Impl.wstep O' op x) := by
  have hg := h.shared
  have att : (Impl.worldAttempt O .mapNode w = .ok () ⟨w.caches, stepG w.g⟩ ∧
      Impl.worldAttempt O' .mapNode x = .ok () ⟨x.caches, stepG x.g⟩) ∨
      (Impl.worldAttempt O .mapNode w = .throw .badAlloc ⟨w.caches, stepG w.g⟩ ∧
      Impl.worldAttempt O' .mapNode x = .throw .badAlloc ⟨x.caches, stepG x.g⟩) := by
    have e : O'.fails .mapNode x.g.steps = O.fails .mapNode w.g.steps := by rw [hO.fails, hg.steps]
    rcases worldAttempt_cases (O := O) .mapNode w with ⟨h1, h2⟩ | ⟨h1, h2⟩ <;>
      rcases worldAttempt_cases (O := O') .mapNode x with ⟨h3, h4⟩ | ⟨h3, h4⟩
    · exact .inl ⟨h1, h3⟩
    · rw [e, h2] at h4; cases h4
    · rw [e, h2] at h4; cases h4
    · exact .inr ⟨h1, h3⟩
  have hs : SameShared (stepG w.g) (stepG x.g) := by
    refine ⟨hg.stats, hg.nextStat, hg.log, hg.next, hg.ticks, ?_⟩
    show x.g.steps + 1 = w.g.steps + 1
    rw [hg.steps]
  cases op with
  | create kind ctor =>
    have h1 := ctorBody_t hO ctor _ _ (h.fresh hw kind (Impl.ctorCapacity ctor)) trivial
    show SameOutcome _ (Impl.ret (Impl.create O kind ctor) _ w) (Impl.ret (Impl.create O' kind ctor) _ x)
    show SameOutcome _ (M.bind (Impl.create O kind ctor) _ w) (M.bind (Impl.create O' kind ctor) _ x)
    unfold M.bind Impl.create
    revert h1
    cases Impl.ctorBody O ctor _ <;> cases Impl.ctorBody O' ctor _ <;> intro h1 <;>
      first | exact h1.elim | trivial | skip
    · exact ⟨rfl, h.push h1.2.1.shared h1.2.1.c⟩
    · exact ⟨h1.1, h.setG h1.2.shared⟩
  | destroy i =>
    show SameOutcome _ (Impl.ret (Impl.getCache i >>= _) _ w) (Impl.ret (Impl.getCache i >>= _) _ x)
    rcases h.pair i with ⟨c, d, hc, hd, hr, h1, h2⟩ | ⟨-, -, h1, h2⟩
    · rw [ret_ok (a := ()) (s' := ⟨w.caches.set i none, w.g⟩) (by rw [bind_ok h1]; rfl),
        ret_ok (a := ()) (s' := ⟨x.caches.set i none, x.g⟩) (by rw [bind_ok h2]; rfl)]
      exact ⟨rfl, h.set hg i trivial⟩
    · rw [ret_ub (bind_ub h1), ret_ub (bind_ub h2)]; trivial
  | op i o =>
    show SameOutcome _ (Impl.onCache i (Impl.step O o) w) (Impl.onCache i (Impl.step O' o) x)
    unfold Impl.onCache
    rcases h.pair i with ⟨c, d, hc, hd, hr, -, -⟩ | ⟨h1, h2, -, -⟩
    · have h1 := step_t hO o _ _ (h.view hw hc hr) trivial
      rw [hc, hd]
      simp only
      unfold viewOf at h1
      revert h1
      cases Impl.step O o _ <;> cases Impl.step O' o _ <;> intro h1 <;> first | exact h1.elim | trivial | skip
      · exact ⟨h1.1, h.set h1.2.1.shared i h1.2.1.c⟩
      · exact ⟨h1.1, h.set h1.2.shared i h1.2.c⟩
    · have e1 : ∀ (y : World K V), (∀ c, y.caches[i]? ≠ some (some c)) → ∀ (m : Impl.CM K V (Res K V)),
          Impl.onCache i m y = .ub := by
        intro y hy m
        unfold Impl.onCache
        rcases hc : y.caches[i]? with _ | _ | c
        · rfl
        · rfl
        · exact absurd hc (hy c)
      have e2 := e1 w h1 (Impl.step O o)
      have e3 := e1 x h2 (Impl.step O' o)
      unfold Impl.onCache at e2 e3
      rw [e2, e3]
      trivial
  | swap i j =>
    show SameOutcome _ (Impl.ret (Impl.swap i j) _ w) (Impl.ret (Impl.swap i j) _ x)
    unfold Impl.swap
    rcases h.pair i with ⟨a, a', ha, ha', hra, h1, h2⟩ | ⟨-, -, h1, h2⟩
    · rcases h.pair j with ⟨b, b', hb, hb', hrb, h3, h4⟩ | ⟨-, -, h3, h4⟩
      · by_cases hc : (i = j || !Impl.sameType a.kind b.kind) = true
        · rw [ret_ok (a := ()) (s' := w) (by rw [bind_ok h1, bind_ok h3, if_pos (by simpa using hc)]; rfl),
            ret_ok (a := ()) (s' := x) (by
              rw [bind_ok h2, bind_ok h4, hra.kind, hrb.kind, if_pos (by simpa using hc)]; rfl)]
          exact ⟨rfl, h⟩
        · rw [ret_ok (a := ()) (s' := _) (by rw [bind_ok h1, bind_ok h3, if_neg (by simpa using hc)]; rfl),
            ret_ok (a := ()) (s' := _) (by
              rw [bind_ok h2, bind_ok h4, hra.kind, hrb.kind, if_neg (by simpa using hc)]; rfl)]
          refine ⟨rfl, ReorderedWorld.set (h.set hg i ?_) hg j ?_⟩
          · exact ⟨hrb.map, hrb.order, hrb.last, hrb.capacity, rfl, hra.obs⟩
          · exact ⟨hra.map, hra.order, hra.last, hra.capacity, rfl, hrb.obs⟩
      · rw [ret_ub (by rw [bind_ok h1, bind_ub h3]), ret_ub (by rw [bind_ok h2, bind_ub h4])]; trivial
    · rw [ret_ub (bind_ub h1), ret_ub (bind_ub h2)]; trivial
  | swapBase i j =>
    show SameOutcome _ (Impl.ret (Impl.swapThroughBase i j) _ w) (Impl.ret (Impl.swapThroughBase i j) _ x)
    unfold Impl.swapThroughBase
    rcases h.pair i with ⟨a, a', ha, ha', hra, h1, h2⟩ | ⟨-, -, h1, h2⟩
    · rcases h.pair j with ⟨b, b', hb, hb', hrb, h3, h4⟩ | ⟨-, -, h3, h4⟩
      · by_cases hc : (i = j || !Impl.sameBase a.kind b.kind) = true
        · rw [ret_ok (a := ()) (s' := w) (by rw [bind_ok h1, bind_ok h3, if_pos (by simpa using hc)]; rfl),
            ret_ok (a := ()) (s' := x) (by
              rw [bind_ok h2, bind_ok h4, hra.kind, hrb.kind, if_pos (by simpa using hc)]; rfl)]
          exact ⟨rfl, h⟩
        · rw [ret_ok (a := ()) (s' := _) (by rw [bind_ok h1, bind_ok h3, if_neg (by simpa using hc)]; rfl),
            ret_ok (a := ()) (s' := _) (by
              rw [bind_ok h2, bind_ok h4, hra.kind, hrb.kind, if_neg (by simpa using hc)]; rfl)]
          refine ⟨rfl, ReorderedWorld.set (h.set hg i ?_) hg j ?_⟩
          · exact ⟨hrb.map, hrb.order, hrb.last, hrb.capacity, hra.kind, hra.obs⟩
          · exact ⟨hra.map, hra.order, hra.last, hra.capacity, hrb.kind, hrb.obs⟩
      · rw [ret_ub (by rw [bind_ok h1, bind_ub h3]), ret_ub (by rw [bind_ok h2, bind_ub h4])]; trivial
    · rw [ret_ub (bind_ub h1), ret_ub (bind_ub h2)]; trivial
  | moveCtor i =>
    show SameOutcome _ (Impl.ret (Impl.moveCtor i) _ w) (Impl.ret (Impl.moveCtor i) _ x)
    unfold Impl.moveCtor
    rcases h.pair i with ⟨b, b', hb, hb', hrb, h1, h2⟩ | ⟨-, -, h1, h2⟩
    · rw [ret_ok (a := ()) (s' := _) (by rw [bind_ok h1]; rfl), ret_ok (a := ()) (s' := _) (by rw [bind_ok h2]; rfl)]
      refine ⟨rfl, ReorderedWorld.push (h.set hg i ?_) hg ?_⟩
      · exact ⟨.nil, rfl, rfl, rfl, hrb.kind, hrb.obs⟩
      · exact ⟨hrb.map, hrb.order, hrb.last, hrb.capacity, hrb.kind, rfl⟩
    · rw [ret_ub (bind_ub h1), ret_ub (bind_ub h2)]; trivial
  | moveAssign i j =>
    show SameOutcome _ (Impl.ret (Impl.moveAssign i j) _ w) (Impl.ret (Impl.moveAssign i j) _ x)
    unfold Impl.moveAssign
    rcases h.pair i with ⟨a, a', ha, ha', hra, h1, h2⟩ | ⟨-, -, h1, h2⟩
    · rcases h.pair j with ⟨b, b', hb, hb', hrb, h3, h4⟩ | ⟨-, -, h3, h4⟩
      · by_cases hc : (i = j || !Impl.sameType a.kind b.kind) = true
        · rw [ret_ok (a := ()) (s' := w) (by rw [bind_ok h1, bind_ok h3, if_pos (by simpa using hc)]; rfl),
            ret_ok (a := ()) (s' := x) (by
              rw [bind_ok h2, bind_ok h4, hra.kind, hrb.kind, if_pos (by simpa using hc)]; rfl)]
          exact ⟨rfl, h⟩
        · rw [ret_ok (a := ()) (s' := _) (by rw [bind_ok h1, bind_ok h3, if_neg (by simpa using hc)]; rfl),
            ret_ok (a := ()) (s' := _) (by
              rw [bind_ok h2, bind_ok h4, hra.kind, hrb.kind, if_neg (by simpa using hc)]; rfl)]
          refine ⟨rfl, ReorderedWorld.set (h.set hg i ?_) hg j ?_⟩
          · exact ⟨hrb.map, hrb.order, hrb.last, hrb.capacity, rfl, hra.obs⟩
          · exact ⟨hra.map, hra.order, hra.last, hra.capacity, hrb.kind, hrb.obs⟩
      · rw [ret_ub (by rw [bind_ok h1, bind_ub h3]), ret_ub (by rw [bind_ok h2, bind_ub h4])]; trivial
    · rw [ret_ub (bind_ub h1), ret_ub (bind_ub h2)]; trivial
  | copyCtor i =>
    show SameOutcome _ (Impl.ret (Impl.copyCtor O i) _ w) (Impl.ret (Impl.copyCtor O' i) _ x)
    unfold Impl.copyCtor
    rcases h.pair i with ⟨b, b', hb, hb', hrb, h1, h2⟩ | ⟨-, -, h1, h2⟩
    · rcases att with ⟨h3, h4⟩ | ⟨h3, h4⟩
      · rcases copyOf_pair (O := O) (O' := O') (hw.each i b hb).2 hrb with ⟨h5, h6⟩ | ⟨c, e, h5, h6, hr⟩
        · rw [ret_ub (by rw [bind_ok h1, bind_ok h3, bind_ub (makeCopy_none (by exact h5))]),
            ret_ub (by rw [bind_ok h2, bind_ok h4, bind_ub (makeCopy_none (by show Impl.copyOf O' x.g.next b' = none; rw [hg.next]; exact h6))])]
          trivial
        · rw [ret_ok (a := ()) (s' := _) (by rw [bind_ok h1, bind_ok h3, bind_ok (makeCopy_some (by exact h5))]; rfl),
            ret_ok (a := ()) (s' := _) (by
              rw [bind_ok h2, bind_ok h4, bind_ok (makeCopy_some (c := e) (by show Impl.copyOf O' x.g.next b' = some e; rw [hg.next]; exact h6))]; rfl)]
          refine ⟨rfl, ReorderedWorld.push h ?_ hr⟩
          refine ⟨hg.stats, hg.nextStat, hg.log, ?_, hg.ticks, hs.steps⟩
          show x.g.next + x.g.next + b'.order.length = w.g.next + w.g.next + b.order.length
          rw [hg.next, hrb.order]
      · rw [ret_throw (by rw [bind_ok h1, bind_throw h3]), ret_throw (by rw [bind_ok h2, bind_throw h4])]
        exact ⟨rfl, h.setG hs⟩
    · rw [ret_ub (bind_ub h1), ret_ub (bind_ub h2)]; trivial
  | copyAssign i j =>
    show SameOutcome _ (Impl.ret (Impl.copyAssign O i j) _ w) (Impl.ret (Impl.copyAssign O' i j) _ x)
    unfold Impl.copyAssign
    rcases h.pair i with ⟨a, a', ha, ha', hra, h1, h2⟩ | ⟨-, -, h1, h2⟩
    · rcases h.pair j with ⟨b, b', hb, hb', hrb, h3, h4⟩ | ⟨-, -, h3, h4⟩
      · by_cases hc : (i = j || !Impl.sameType a.kind b.kind) = true
        · rw [ret_ok (a := ()) (s' := w) (noexcept_ok (by rw [bind_ok h1, bind_ok h3, if_pos (by simpa using hc)]; rfl)),
            ret_ok (a := ()) (s' := x) (noexcept_ok (by
              rw [bind_ok h2, bind_ok h4, hra.kind, hrb.kind, if_pos (by simpa using hc)]; rfl))]
          exact ⟨rfl, h⟩
        · have hc1 : ¬ (decide (i = j) || !Impl.sameType a.kind b.kind) = true := by simpa using hc
          rcases att with ⟨h5, h6⟩ | ⟨h5, h6⟩
          · rcases copyOf_pair (O := O) (O' := O') (hw.each j b hb).2 hrb with ⟨h7, h8⟩ | ⟨c, e, h7, h8, hr⟩
            · rw [ret_ub (noexcept_ub (by
                rw [bind_ok h1, bind_ok h3, if_neg (by simpa using hc), bind_ok h5, bind_ub (makeCopy_none (by exact h7))])),
                ret_ub (noexcept_ub (by
                rw [bind_ok h2, bind_ok h4, hra.kind, hrb.kind, if_neg (by simpa using hc), bind_ok h6,
                  bind_ub (makeCopy_none (by show Impl.copyOf O' x.g.next b' = none; rw [hg.next]; exact h8))]))]
              trivial
            · rw [ret_ok (a := ()) (s' := _) (noexcept_ok (by
                rw [bind_ok h1, bind_ok h3, if_neg (by simpa using hc), bind_ok h5, bind_ok (makeCopy_some (by exact h7))]; rfl)),
                ret_ok (a := ()) (s' := _) (noexcept_ok (by
                rw [bind_ok h2, bind_ok h4, hra.kind, hrb.kind, if_neg (by simpa using hc), bind_ok h6,
                  bind_ok (makeCopy_some (c := e) (by show Impl.copyOf O' x.g.next b' = some e; rw [hg.next]; exact h8))]; rfl))]
              refine ⟨rfl, ReorderedWorld.set h ?_ i hr⟩
              refine ⟨hg.stats, hg.nextStat, hg.log, ?_, hg.ticks, hs.steps⟩
              show x.g.next + x.g.next + b'.order.length = w.g.next + w.g.next + b.order.length
              rw [hg.next, hrb.order]
          · rw [ret_terminate (noexcept_throw (e := .badAlloc) (s' := ⟨w.caches, stepG w.g⟩) (by
                rw [bind_ok h1, bind_ok h3, if_neg (by simpa using hc), bind_throw h5])),
              ret_terminate (noexcept_throw (e := .badAlloc) (s' := ⟨x.caches, stepG x.g⟩) (by
                rw [bind_ok h2, bind_ok h4, hra.kind, hrb.kind, if_neg (by simpa using hc), bind_throw h6]))]
            trivial
      · rw [ret_ub (noexcept_ub (by rw [bind_ok h1, bind_ub h3])), ret_ub (noexcept_ub (by rw [bind_ok h2, bind_ub h4]))]
        trivial
    · rw [ret_ub (noexcept_ub (bind_ub h1)), ret_ub (noexcept_ub (bind_ub h2))]; trivial
  | eq i j =>
    show SameOutcome _ (Impl.ret (Impl.equal i j) _ w) (Impl.ret (Impl.equal i j) _ x)
    unfold Impl.equal
    rcases h.pair i with ⟨a, a', ha, ha', hra, h1, h2⟩ | ⟨-, -, h1, h2⟩
    · rcases h.pair j with ⟨b, b', hb, hb', hrb, h3, h4⟩ | ⟨-, -, h3, h4⟩
      · by_cases hij : i = j
        · rw [ret_ok (a := true) (s' := w) (by rw [bind_ok h1, bind_ok h3, if_pos hij]; rfl),
            ret_ok (a := true) (s' := x) (by rw [bind_ok h2, bind_ok h4, if_pos hij]; rfl)]
          exact ⟨rfl, h⟩
        · have e := cacheEq_pair (hw.each i a ha).2 (hw.each j b hb).2 hra hrb
          cases hc : Impl.cacheEq a b with
          | none =>
            rw [ret_ub (by rw [bind_ok h1, bind_ok h3, if_neg hij, hc]; rfl),
              ret_ub (by rw [bind_ok h2, bind_ok h4, if_neg hij, e, hc]; rfl)]
            trivial
          | some r =>
            rw [ret_ok (a := r) (s' := w) (by rw [bind_ok h1, bind_ok h3, if_neg hij, hc]; rfl),
              ret_ok (a := r) (s' := x) (by rw [bind_ok h2, bind_ok h4, if_neg hij, e, hc]; rfl)]
            exact ⟨rfl, h⟩
      · rw [ret_ub (by rw [bind_ok h1, bind_ub h3]), ret_ub (by rw [bind_ok h2, bind_ub h4])]; trivial
    · rw [ret_ub (bind_ub h1), ret_ub (bind_ub h2)]; trivial
  | newStats ks =>
    show SameOutcome _ (Impl.ret (Impl.newStats ks) _ w) (Impl.ret (Impl.newStats ks) _ x)
    rw [ret_ok (m := Impl.newStats ks) (s := w) (by rfl), ret_ok (m := Impl.newStats ks) (s := x) (by rfl)]
    refine ⟨by rw [hg.nextStat], h.setG ?_⟩
    refine ⟨?_, ?_, hg.log, hg.next, hg.ticks, hg.steps⟩
    · simp only [hg.nextStat, hg.stats]
    · show x.g.nextStat + 1 = w.g.nextStat + 1
      rw [hg.nextStat]
  | stat id o =>
    show SameOutcome _ (Impl.ret (Impl.stat id o) _ w) (Impl.ret (Impl.stat id o) _ x)
    show SameOutcome _ (M.bind (Impl.stat id o) _ w) (M.bind (Impl.stat id o) _ x)
    unfold M.bind Impl.stat
    rw [hg.stats]
    cases Impl.statStep (w.g.stats id) o with
    | error e => exact ⟨rfl, h⟩
    | ok st => exact ⟨rfl, h.setG ⟨rfl, hg.nextStat, hg.log, hg.next, hg.ticks, hg.steps⟩⟩

end LRU
