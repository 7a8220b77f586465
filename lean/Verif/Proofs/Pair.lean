import Verif.Proofs.Raw
/-!
# Invariants of all programs, copying ones included

`WPair P Q`: every live cache satisfies `P`, any two different ones satisfy `Q`. `PairOK` lists what has to be shown for
member functions, construction and copying so that this holds in every world a program can reach.
-/

set_option linter.unusedSectionVars false
set_option autoImplicit false

namespace LRU

theorem le_add_add (a b c : Nat) : a ≤ a + b + c := by omega

theorem lt_add_add {a b c d : Nat} (h : d < a + b) : d < a + b + c := by omega

theorem get_set {α : Type} {l : List α} {i k : Nat} {x y : α} (h : (l.set i x)[k]? = some y) :
    (k = i ∧ y = x) ∨ (k ≠ i ∧ l[k]? = some y) := by
  rw [List.getElem?_set] at h
  by_cases hik : i = k
  · rw [if_pos hik] at h
    split at h
    · injection h with h
      exact .inl ⟨hik.symm, h.symm⟩
    · cases h
  · rw [if_neg hik] at h
    exact .inr ⟨fun e => hik e.symm, h⟩

theorem get_push {α : Type} {l : List α} {k : Nat} {x y : α} (h : (l ++ [x])[k]? = some y) :
    (k = l.length ∧ y = x) ∨ (k ≠ l.length ∧ l[k]? = some y) := by
  rw [List.getElem?_append] at h
  split at h
  · next hk => exact .inr ⟨Nat.ne_of_lt hk, h⟩
  · next hk =>
    left
    cases hz : k - l.length with
    | zero =>
      rw [hz] at h
      injection h with h
      exact ⟨by omega, h.symm⟩
    | succ m => rw [hz] at h; cases h

theorem set_get {α : Type} {l : List α} {i : Nat} {x y : α} (h : l[i]? = some y) : (l.set i x)[i]? = some x := by
  have := (List.getElem?_eq_some_iff.1 h).1
  simp [this]

theorem set_get_ne {α : Type} {l : List α} {i k : Nat} {x : α} (h : k ≠ i) : (l.set i x)[k]? = l[k]? := by
  rw [List.getElem?_set, if_neg (fun e => h e.symm)]

variable {K V : Type} [KeyEqual K] [DecidableEq K] [DecidableEq V] {O : Oracle K V}

/-- Every live cache satisfies `P`, any two satisfy `Q`. -/
structure WPair (P : Cache K V → Ptr → Prop) (Q : Cache K V → Cache K V → Prop) (w : World K V) : Prop where
  each : ∀ (i : Nat) (c : Cache K V), w.caches[i]? = some (some c) → P c w.g.next
  pair : ∀ (i j : Nat) (c d : Cache K V), i ≠ j → w.caches[i]? = some (some c) → w.caches[j]? = some (some d) → Q c d

/-- Two caches with the same contents. -/
structure SameParts (c d : Cache K V) : Prop where
  map : d.map = c.map
  order : d.order = c.order
  last : d.last = c.last
  capacity : d.capacity = c.capacity

/-- What has to be shown. -/
structure PairOK (O : Oracle K V) (P : Cache K V → Ptr → Prop) (Q : Cache K V → Cache K V → Prop) : Prop where
  mono : ∀ {c n m}, P c n → n ≤ m → P c m
  same : ∀ {c c' n}, SameParts c c' → P c n → P c' n
  sameL : ∀ {c c' d}, SameParts c c' → Q c d → Q c' d
  sameR : ∀ {c c' d}, SameParts c c' → Q d c → Q d c'
  empty : ∀ {c : Cache K V} {n}, c.map = [] → c.order = [] → c.last = none → P c n
  emptyL : ∀ {c d : Cache K V}, c.map = [] → c.order = [] → c.last = none → Q c d
  emptyR : ∀ {c d : Cache K V}, c.map = [] → c.order = [] → c.last = none → Q d c
  call : ∀ {w : World K V} {i : Nat} {c op res s'}, WPair P Q w → w.caches[i]? = some (some c) →
    Performs O op (viewOf w i c) res s' →
    P s'.c s'.g.next ∧ w.g.next ≤ s'.g.next ∧
      ∀ (j : Nat) (d : Cache K V), j ≠ i → w.caches[j]? = some (some d) → Q s'.c d ∧ Q d s'.c
  create : ∀ {w : World K V} {kind ctor n s'}, WPair P Q w →
    Impl.ctorBody O ctor ⟨Impl.emptyCache kind (Impl.ctorCapacity ctor), { w.g with ext := Impl.allNodes w.caches }⟩
      = .ok n s' →
    P s'.c s'.g.next ∧ w.g.next ≤ s'.g.next ∧
      ∀ (j : Nat) (d : Cache K V), w.caches[j]? = some (some d) → Q s'.c d ∧ Q d s'.c
  createThrow : ∀ {w : World K V} {kind ctor e s'}, WPair P Q w →
    Impl.ctorBody O ctor ⟨Impl.emptyCache kind (Impl.ctorCapacity ctor), { w.g with ext := Impl.allNodes w.caches }⟩
      = .throw e s' → w.g.next ≤ s'.g.next
  copy : ∀ {w : World K V} {i : Nat} {b c : Cache K V}, WPair P Q w → w.caches[i]? = some (some b) →
    Impl.copyOf O w.g.next b = some c →
    P c (w.g.next + w.g.next + b.order.length) ∧
      ∀ (j : Nat) (d : Cache K V), w.caches[j]? = some (some d) → Q c d ∧ Q d c

variable {P : Cache K V → Ptr → Prop} {Q : Cache K V → Cache K V → Prop}

theorem PairOK.shared (hP : PairOK O P Q) {w : World K V} (h : WPair P Q w) {g' : Shared K V} (hn : w.g.next ≤ g'.next) :
    WPair P Q ⟨w.caches, g'⟩ :=
  ⟨fun i c hc => hP.mono (h.each i c hc) hn, h.pair⟩

theorem PairOK.push (hP : PairOK O P Q) {w : World K V} (h : WPair P Q w) {c' : Cache K V} {g' : Shared K V}
    (hn : w.g.next ≤ g'.next) (hc : P c' g'.next)
    (hq : ∀ (j : Nat) (d : Cache K V), w.caches[j]? = some (some d) → Q c' d ∧ Q d c') :
    WPair P Q ⟨w.caches ++ [some c'], g'⟩ := by
  constructor
  · intro i c hi
    rcases get_push hi with ⟨-, h1⟩ | ⟨-, h1⟩
    · injection h1 with h1
      exact h1 ▸ hc
    · exact hP.mono (h.each i c h1) hn
  · intro i j c d hij hi hj
    rcases get_push hi with ⟨h0, h1⟩ | ⟨-, h1⟩ <;> rcases get_push hj with ⟨h2, h3⟩ | ⟨-, h3⟩
    · omega
    · injection h1 with h1
      exact h1 ▸ (hq j d h3).1
    · injection h3 with h3
      exact h3 ▸ (hq i c h1).2
    · exact h.pair i j c d hij h1 h3

theorem PairOK.replace (hP : PairOK O P Q) {w : World K V} (h : WPair P Q w) {i : Nat} {c' : Cache K V} {g' : Shared K V}
    (hn : w.g.next ≤ g'.next) (hc : P c' g'.next)
    (hq : ∀ (j : Nat) (d : Cache K V), j ≠ i → w.caches[j]? = some (some d) → Q c' d ∧ Q d c') :
    WPair P Q ⟨w.caches.set i (some c'), g'⟩ := by
  constructor
  · intro k c hk
    rcases get_set hk with ⟨-, h1⟩ | ⟨-, h1⟩
    · injection h1 with h1
      exact h1 ▸ hc
    · exact hP.mono (h.each k c h1) hn
  · intro k j c d hkj hk hj
    rcases get_set hk with ⟨h0, h1⟩ | ⟨h0, h1⟩ <;> rcases get_set hj with ⟨h2, h3⟩ | ⟨h2, h3⟩
    · omega
    · injection h1 with h1
      exact h1 ▸ (hq j d h2 h3).1
    · injection h3 with h3
      exact h3 ▸ (hq k c h0 h1).2
    · exact h.pair k j c d hkj h1 h3

/-- Two caches exchange their contents. -/
theorem PairOK.exchange (hP : PairOK O P Q) {w : World K V} (h : WPair P Q w) {i j : Nat} {a b a' b' : Cache K V}
    (hij : i ≠ j) (ha : w.caches[i]? = some (some a)) (hb : w.caches[j]? = some (some b)) (ha' : SameParts b a')
    (hb' : SameParts a b') : WPair P Q ⟨(w.caches.set i (some a')).set j (some b'), w.g⟩ := by
  have hget : ∀ (k : Nat) (e : Cache K V), ((w.caches.set i (some a')).set j (some b'))[k]? = some (some e) →
      (k = j ∧ e = b') ∨ (k = i ∧ e = a') ∨ (k ≠ i ∧ k ≠ j ∧ w.caches[k]? = some (some e)) := by
    intro k e hk
    rcases get_set hk with ⟨h1, h2⟩ | ⟨h1, h2⟩
    · injection h2 with h2
      exact .inl ⟨h1, h2⟩
    · rcases get_set h2 with ⟨h3, h4⟩ | ⟨h3, h4⟩
      · injection h4 with h4
        exact .inr (.inl ⟨h3, h4⟩)
      · exact .inr (.inr ⟨h3, h1, h4⟩)
  constructor
  · intro k e hk
    rcases hget k e hk with ⟨rfl, rfl⟩ | ⟨rfl, rfl⟩ | ⟨h1, h2, h3⟩
    · exact hP.same hb' (h.each i a ha)
    · exact hP.same ha' (h.each j b hb)
    · exact h.each k e h3
  · intro k l e f hkl hk hl
    rcases hget k e hk with ⟨rfl, rfl⟩ | ⟨rfl, rfl⟩ | ⟨h1, h2, h3⟩ <;>
      rcases hget l f hl with ⟨rfl, rfl⟩ | ⟨rfl, rfl⟩ | ⟨h4, h5, h6⟩
    · omega
    · exact hP.sameL hb' (hP.sameR ha' (h.pair _ _ _ _ hij ha hb))
    · exact hP.sameL hb' (h.pair _ _ _ _ (fun e => h4 e.symm) ha h6)
    · exact hP.sameL ha' (hP.sameR hb' (h.pair _ _ _ _ (fun e => hij e.symm) hb ha))
    · omega
    · exact hP.sameL ha' (h.pair _ _ _ _ (fun e => h5 e.symm) hb h6)
    · exact hP.sameR hb' (h.pair _ _ _ _ h1 h3 ha)
    · exact hP.sameR ha' (h.pair _ _ _ _ h2 h3 hb)
    · exact h.pair _ _ _ _ hkl h3 h6

theorem PairOK.wstep (hP : PairOK O P Q) {w w' : World K V} {op : WOp K V} {res : Except Err (Res K V)}
    (h : WPair P Q w) (hp : WPerforms O op w res w') : WPair P Q w' := by
  cases hp.effect with
  | created kind ctor n s' hb =>
    obtain ⟨h1, h2, h3⟩ := hP.create h hb
    exact hP.push h h2 h1 h3
  | createThrow kind ctor e s' hb => exact hP.shared h (hP.createThrow h hb)
  | destroyed i c hc =>
    constructor
    · intro k e hk
      rcases get_set hk with ⟨-, h1⟩ | ⟨-, h1⟩
      · cases h1
      · exact h.each k e h1
    · intro k l e f hkl hk hl
      rcases get_set hk with ⟨-, h1⟩ | ⟨-, h1⟩
      · cases h1
      · rcases get_set hl with ⟨-, h2⟩ | ⟨-, h2⟩
        · cases h2
        · exact h.pair k l e f hkl h1 h2
  | called i o c res s' hc hs =>
    obtain ⟨h1, h2, h3⟩ := hP.call h hc hs
    exact hP.replace h h2 h1 h3
  | swapped i j a b ha hb hij ht => exact hP.exchange h hij ha hb ⟨rfl, rfl, rfl, rfl⟩ ⟨rfl, rfl, rfl, rfl⟩
  | swapNothing i j a b ha hb hij => exact h
  | baseSwapped i j a b ha hb hij ht => exact hP.exchange h hij ha hb ⟨rfl, rfl, rfl, rfl⟩ ⟨rfl, rfl, rfl, rfl⟩
  | baseSwapNothing i j a b ha hb hij => exact h
  | moved i b hb =>
    have h1 : WPair P Q ⟨w.caches.set i (some { b with map := [], order := [], last := none, capacity := none }), w.g⟩ :=
      hP.replace h (Nat.le_refl _) (hP.empty rfl rfl rfl) fun j d _ _ => ⟨hP.emptyL rfl rfl rfl, hP.emptyR rfl rfl rfl⟩
    refine hP.push h1 (Nat.le_refl _) (hP.same (c := b) ⟨rfl, rfl, rfl, rfl⟩ (h.each i b hb)) fun j d hj => ?_
    rcases get_set hj with ⟨-, h2⟩ | ⟨h0, h2⟩
    · injection h2 with h2
      subst h2
      exact ⟨hP.emptyR rfl rfl rfl, hP.emptyL rfl rfl rfl⟩
    · exact ⟨hP.sameL (c := b) ⟨rfl, rfl, rfl, rfl⟩ (h.pair i j b d (fun e => h0 e.symm) hb h2),
        hP.sameR (c := b) ⟨rfl, rfl, rfl, rfl⟩ (h.pair j i d b h0 h2 hb)⟩
  | moveAssigned i j a b ha hb hij ht => exact hP.exchange h hij ha hb ⟨rfl, rfl, rfl, rfl⟩ ⟨rfl, rfl, rfl, rfl⟩
  | moveNothing i j a b ha hb hij => exact h
  | copied i b c hb hc =>
    obtain ⟨h1, h2⟩ := hP.copy h hb hc
    exact hP.push h (le_add_add _ _ _) h1 h2
  | copyThrow i b hb hf => exact hP.shared h (Nat.le_refl _)
  | copyAssigned i j a b c ha hb hij ht hc =>
    obtain ⟨h1, h2⟩ := hP.copy h hb hc
    exact hP.replace h (le_add_add _ _ _) h1 fun k d _ hk => h2 k d hk
  | copyNothing i j a b ha hb hij => exact h
  | same i a ha => exact h
  | compared i j a b r ha hb hij he => exact h
  | newStats ks => exact hP.shared h (Nat.le_refl _)
  | stat id o st hs => exact hP.shared h (Nat.le_refl _)
  | statThrow id o e hs => exact h

theorem PairOK.reach (hP : PairOK O P Q) {ok : WOp K V → Prop} {w : World K V} (h : Reach O ok w) : WPair P Q w := by
  induction h with
  | init => exact ⟨by intro i c h; simp [Impl.initWorld] at h, by intro i j c d _ h; simp [Impl.initWorld] at h⟩
  | step op _ _ hs ih => exact hP.wstep ih (res := .ok _) hs
  | throw op _ _ hs ih => exact hP.wstep ih (res := .error _) hs

/-! ### The bound on the size -/

/-- A cache whose size is bounded, with references and addresses below `n`. -/
structure CBound (c : Cache K V) (n : Ptr) : Prop where
  cap : ∀ m, c.capacity = some m → c.map.length ≤ m
  unset : c.capacity = none → c.map = []
  nodesLt : ∀ x ∈ c.map, x.addr < n
  refsLt : ∀ l ∈ c.order, l.ref < n

/-- The references of `c` do not lead to `d`. -/
def Clear (c d : Cache K V) : Prop := ∀ l ∈ c.order, ∀ x ∈ d.map, x.addr ≠ l.ref

theorem WPair.bounded {w : World K V} (h : WPair CBound Clear w) {i : Nat} {c : Cache K V}
    (hc : w.caches[i]? = some (some c)) : Bounded (viewOf w i c) := by
  have h1 := h.each i c hc
  refine ⟨h1.cap, h1.unset, ?_, h1.nodesLt, h1.refsLt, ?_⟩
  · intro l hl x hx
    obtain ⟨j, d, hj, hd, hx⟩ := mem_others.1 hx
    exact h.pair i j c d (fun e => hj e.symm) hc hd l hl x hx
  · intro x hx
    obtain ⟨j, d, hj, hd, hx⟩ := mem_others.1 hx
    exact (h.each j d hd).nodesLt x hx

theorem Bounded.cbound {s : St (Cache K V) K V} (h : Bounded s) : CBound s.c s.g.next :=
  ⟨h.cap, h.unset, h.nodesLt, h.refsLt⟩

theorem copyNodes_length (base : Ptr) (l : List (MapNode K V)) : (Impl.copyNodes base l).length = l.length := by
  simp [Impl.copyNodes]

theorem copyNodes_range {base : Ptr} {l : List (MapNode K V)} {x : MapNode K V} (hl : ∀ n ∈ l, n.addr < base)
    (h : x ∈ Impl.copyNodes base l) : base ≤ x.addr ∧ x.addr < base + base := by
  obtain ⟨n, hn, rfl⟩ := List.mem_map.1 h
  exact ⟨Nat.le_add_right _ _, Nat.add_lt_add_left (hl n hn) _⟩

theorem copyOrder_refs {base : Ptr} {src dst : List (MapNode K V)} {o o' : List ListNode}
    (h : Impl.copyOrder base src dst o = some o') : ∀ l ∈ o', ∃ m ∈ dst, m.addr = l.ref := by
  induction o generalizing base o' with
  | nil =>
    unfold Impl.copyOrder at h
    injection h with h
    subst h
    intro l hl
    cases hl
  | cons a r ih =>
    unfold Impl.copyOrder at h
    split at h
    · cases h
    · split at h
      · cases h
      · next m hm =>
        split at h
        · cases h
        · next rest hr =>
          injection h with h
          subst h
          intro l hl
          rcases List.mem_cons.1 hl with rfl | hl
          · exact ⟨m, List.mem_of_find?_eq_some hm, rfl⟩
          · exact ih hr l hl

theorem copyOf_parts {base : Ptr} {b c : Cache K V} (h : Impl.copyOf O base b = some c) :
    c.map = O.shuffle base (Impl.copyNodes base b.map) ∧
      Impl.copyOrder (base + base) b.map c.map b.order = some c.order := by
  unfold Impl.copyOf at h
  simp only at h
  split at h
  · cases h
  · next o ho => injection h with h; subst h; exact ⟨rfl, ho⟩

theorem bound_ok : PairOK O (CBound (K := K) (V := V)) Clear where
  mono := fun h hn => ⟨h.cap, h.unset, fun x hx => Nat.lt_of_lt_of_le (h.nodesLt x hx) hn,
    fun x hx => Nat.lt_of_lt_of_le (h.refsLt x hx) hn⟩
  same := fun e h => ⟨by rw [e.map, e.capacity]; exact h.cap, by rw [e.map, e.capacity]; exact h.unset,
    by rw [e.map]; exact h.nodesLt, by rw [e.order]; exact h.refsLt⟩
  sameL := fun e h => by unfold Clear; rw [e.order]; exact h
  sameR := fun e h => by unfold Clear; rw [e.map]; exact h
  empty := fun h1 h2 _ => ⟨by rw [h1]; exact fun m _ => Nat.zero_le m, fun _ => h1, by simp [h1], by simp [h2]⟩
  emptyL := fun _ h2 _ => by unfold Clear; simp [h2]
  emptyR := fun h1 _ _ => by unfold Clear; simp [h1]
  call := by
    intro w i c op res s' h hc hp
    have hb := h.bounded hc
    have h1 := step_raw (O := O) op _ hb
    have h2 : RawStep (viewOf w i c) s' := by
      cases res <;> (unfold Performs at hp; simp only at hp; rw [hp] at h1; exact h1)
    refine ⟨h2.bounded.cbound, h2.next, fun j d hj hd => ⟨fun l hl x hx => ?_, fun l hl x hx => ?_⟩⟩
    · refine h2.bounded.refs l hl x ?_
      rw [h2.ext]
      exact mem_others.2 ⟨j, d, hj, hd, hx⟩
    · rcases h2.nodes x hx with ⟨y, hy, e, -⟩ | hn
      · rw [← e]; exact h.pair j i d c hj hd hc l hl y hy
      · have h3 := (h.each j d hd).refsLt l hl
        exact fun e => Nat.lt_irrefl _ (Nat.lt_of_lt_of_le (e ▸ h3) hn)
  create := by
    intro w kind ctor n s' h hb
    have h0 : Bounded (⟨Impl.emptyCache kind (Impl.ctorCapacity ctor),
        { w.g with ext := Impl.allNodes w.caches }⟩ : St (Cache K V) K V) := by
      refine ⟨fun m _ => Nat.zero_le m, fun _ => rfl, fun l hl => (by cases hl), fun l hl => (by cases hl),
        fun l hl => (by cases hl), fun x hx => ?_⟩
      obtain ⟨j, d, hd, hx⟩ := mem_allNodes.1 hx
      exact (h.each j d hd).nodesLt x hx
    have h1 := ctorBody_raw (O := O) ctor _ h0
    rw [hb] at h1
    have h2 : RawStep _ s' := h1
    refine ⟨h2.bounded.cbound, h2.next, fun j d hd => ⟨fun l hl x hx => ?_, fun l hl x hx => ?_⟩⟩
    · refine h2.bounded.refs l hl x ?_
      rw [h2.ext]
      exact mem_allNodes.2 ⟨j, d, hd, hx⟩
    · rcases h2.nodes x hx with ⟨y, hy, e, -⟩ | hn
      · cases hy
      · have h3 := (h.each j d hd).refsLt l hl
        exact fun e => Nat.lt_irrefl _ (Nat.lt_of_lt_of_le (e ▸ h3) hn)
  createThrow := by
    intro w kind ctor e s' h hb
    have h0 : Bounded (⟨Impl.emptyCache kind (Impl.ctorCapacity ctor),
        { w.g with ext := Impl.allNodes w.caches }⟩ : St (Cache K V) K V) := by
      refine ⟨fun m _ => Nat.zero_le m, fun _ => rfl, fun l hl => (by cases hl), fun l hl => (by cases hl),
        fun l hl => (by cases hl), fun x hx => ?_⟩
      obtain ⟨j, d, hd, hx⟩ := mem_allNodes.1 hx
      exact (h.each j d hd).nodesLt x hx
    have h1 := ctorBody_raw (O := O) ctor _ h0
    rw [hb] at h1
    exact RawStep.next h1
  copy := by
    intro w i b c h hb hc
    have h1 := h.each i b hb
    obtain ⟨hm, ho⟩ := copyOf_parts hc
    have hf := copyOf_fields hc
    have hperm := O.shuffle_perm w.g.next (Impl.copyNodes w.g.next b.map)
    rw [← hm] at hperm
    have hlen : c.map.length = b.map.length := by rw [hperm.length_eq, copyNodes_length]
    have hcap : c.capacity = b.capacity := by rw [hf]
    have hrange : ∀ x ∈ c.map, w.g.next ≤ x.addr ∧ x.addr < w.g.next + w.g.next :=
      fun x hx => copyNodes_range h1.nodesLt (hperm.mem_iff.1 hx)
    refine ⟨⟨?_, ?_, ?_, ?_⟩, fun j d hd => ⟨fun l hl x hx => ?_, fun l hl x hx => ?_⟩⟩
    · rw [hlen, hcap]; exact h1.cap
    · intro hn
      have := h1.unset (hcap ▸ hn)
      rw [this] at hlen
      exact List.length_eq_zero_iff.1 hlen
    · intro x hx
      exact lt_add_add (hrange x hx).2
    · intro l hl
      obtain ⟨m, hm, e⟩ := copyOrder_refs ho l hl
      rw [← e]
      exact lt_add_add (hrange m hm).2
    · obtain ⟨m, hm, e⟩ := copyOrder_refs ho l hl
      have h2 := (hrange m hm).1
      have h3 := (h.each j d hd).nodesLt x hx
      exact fun e' => Nat.lt_irrefl _ (Nat.lt_of_lt_of_le h3 (by rw [e', ← e]; exact h2))
    · have h2 := (hrange x hx).1
      have h3 := (h.each j d hd).refsLt l hl
      exact fun e' => Nat.lt_irrefl _ (Nat.lt_of_lt_of_le h3 (by rw [← e']; exact h2))

end LRU
