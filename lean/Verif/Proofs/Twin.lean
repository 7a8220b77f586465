import Verif.Proofs.Prim
import Verif.Spec.Reorder
/-!
# Running a member function with two orders of the hash table
-/

set_option linter.unusedSectionVars false
set_option autoImplicit false

namespace LRU

variable {K V : Type} [KeyEqual K]

/-- Addresses and keys of the nodes are different, and addresses below `n`. -/
structure Uniq (l : List (MapNode K V)) (n : Ptr) : Prop where
  addrs : (l.map (·.addr)).Nodup
  keys : l.Pairwise (fun x y => keq x.key y.key = false)
  lt : ∀ x ∈ l, x.addr < n

theorem Uniq.mono {l : List (MapNode K V)} {n m : Ptr} (h : Uniq l n) (hn : n ≤ m) : Uniq l m :=
  ⟨h.addrs, h.keys, fun x hx => Nat.lt_of_lt_of_le (h.lt x hx) hn⟩

theorem Uniq.perm {l m : List (MapNode K V)} {n : Ptr} (h : Uniq l n) (hp : m.Perm l) : Uniq m n := by
  refine ⟨(hp.map _).nodup_iff.2 h.addrs, ?_, fun x hx => h.lt x (hp.mem_iff.1 hx)⟩
  refine (List.Perm.pairwise_iff ?_ hp).2 h.keys
  intro x y hxy
  rw [keq_comm]
  exact hxy

theorem Uniq.filter {l : List (MapNode K V)} {n : Ptr} (h : Uniq l n) (p : MapNode K V → Bool) : Uniq (l.filter p) n :=
  ⟨(List.filter_sublist.map _).nodup h.addrs, h.keys.sublist List.filter_sublist,
    fun x hx => h.lt x (List.mem_filter.1 hx).1⟩

theorem Uniq.map {l : List (MapNode K V)} {n : Ptr} (h : Uniq l n) (f : MapNode K V → MapNode K V)
    (h1 : ∀ x, (f x).addr = x.addr) (h2 : ∀ x, (f x).key = x.key) : Uniq (l.map f) n := by
  refine ⟨?_, ?_, ?_⟩
  · rw [List.map_map]
    have : ((fun x : MapNode K V => x.addr) ∘ f) = fun x => x.addr := funext h1
    rw [this]
    exact h.addrs
  · rw [List.pairwise_map]
    simp only [h2]
    exact h.keys
  · intro x hx
    obtain ⟨y, hy, rfl⟩ := List.mem_map.1 hx
    rw [h1]
    exact h.lt y hy

theorem Uniq.nil (n : Ptr) : Uniq ([] : List (MapNode K V)) n := ⟨List.nodup_nil, .nil, fun _ h => nomatch h⟩

theorem Uniq.cons {l : List (MapNode K V)} {n : Ptr} (h : Uniq l n) {x : MapNode K V} (h1 : x.addr = n)
    (h2 : ∀ y ∈ l, keq y.key x.key = false) : Uniq (x :: l) (n + 1) := by
  refine ⟨?_, ?_, ?_⟩
  · rw [List.map_cons, List.nodup_cons]
    refine ⟨fun hm => ?_, h.addrs⟩
    obtain ⟨y, hy, e⟩ := List.mem_map.1 hm
    have := h.lt y hy
    rw [e, h1] at this
    exact Nat.lt_irrefl _ this
  · refine .cons (fun y hy => ?_) h.keys
    rw [keq_comm]
    exact h2 y hy
  · intro y hy
    rcases List.mem_cons.1 hy with rfl | hy
    · rw [h1]; exact Nat.lt_succ_self _
    · exact Nat.lt_succ_of_lt (h.lt y hy)

theorem Uniq.key_inj {l : List (MapNode K V)} {n : Ptr} (h : Uniq l n) {k : K} :
    ∀ x ∈ l, ∀ y ∈ l, keq x.key k = true → keq y.key k = true → x = y := by
  have key : ∀ l : List (MapNode K V), l.Pairwise (fun x y => keq x.key y.key = false) →
      ∀ x ∈ l, ∀ y ∈ l, keq x.key y.key = true → x = y := by
    intro l hl
    induction l with
    | nil => simp
    | cons a t ih =>
      rw [List.pairwise_cons] at hl
      intro x hx y hy hk
      rcases List.mem_cons.1 hx with hxa | hx' <;> rcases List.mem_cons.1 hy with hya | hy'
      · rw [hxa, hya]
      · subst hxa; rw [hl.1 y hy'] at hk; cases hk
      · subst hya; rw [keq_comm, hl.1 x hx'] at hk; cases hk
      · exact ih hl.2 x hx' y hy' hk
  intro x hx y hy hxk hyk
  exact key l h.keys x hx y hy (KeyEqual.trans _ _ _ hxk (by rw [keq_comm]; exact hyk))

theorem Uniq.find_key {l m : List (MapNode K V)} {n : Ptr} (h : Uniq l n) (hp : m.Perm l) (k : K) :
    m.find? (fun x => keq x.key k) = l.find? (fun x => keq x.key k) := find?_perm hp h.key_inj

theorem Uniq.find_addr {l m : List (MapNode K V)} {n : Ptr} (h : Uniq l n) (hp : m.Perm l) (p : Ptr) :
    m.find? (fun x => x.addr == p) = l.find? (fun x => x.addr == p) :=
  find?_perm hp fun x hx y hy h1 h2 =>
    map_inj_of_nodup h.addrs x hx y hy ((eq_of_beq h1).trans (eq_of_beq h2).symm)

/-- Two states of a member function that differ in the order of the hash table. -/
structure Twin (s t : St (Cache K V) K V) : Prop where
  c : Reordered s.c t.c
  g : t.g = { s.g with ext := t.g.ext }
  ext : ∀ p, t.g.ext.find? (fun n => n.addr == p) = s.g.ext.find? (fun n => n.addr == p)
  uniq : Uniq s.c.map s.g.next

theorem Twin.setG {s t : St (Cache K V) K V} (h : Twin s t) (f : Shared K V → Shared K V)
    (h1 : ∀ g : Shared K V, (f g).ext = g.ext) (h2 : ∀ (g : Shared K V) e, f { g with ext := e } = { f g with ext := e })
    (h3 : s.g.next ≤ (f s.g).next) : Twin ⟨s.c, f s.g⟩ ⟨t.c, f t.g⟩ := by
  refine ⟨h.c, ?_, ?_, h.uniq.mono h3⟩
  · show f t.g = { f s.g with ext := (f t.g).ext }
    rw [h1]
    conv => lhs; rw [h.g, h2]
  · intro p
    show (f t.g).ext.find? _ = (f s.g).ext.find? _
    rw [h1, h1]
    exact h.ext p

theorem Twin.setC {s t : St (Cache K V) K V} (h : Twin s t) {c d : Cache K V} (h1 : Reordered c d)
    (h2 : Uniq c.map s.g.next) : Twin ⟨c, s.g⟩ ⟨d, t.g⟩ := ⟨h1, h.g, h.ext, h2⟩

/-- From twin states satisfying `P` the two programs end alike, in twin states satisfying `Q`. -/
def TSim {α : Type} (P : Cache K V → Prop) (m m' : Impl.CM K V α) (Q : α → Cache K V → Prop) : Prop :=
  ∀ s t, Twin s t → P s.c → match m s, m' t with
    | .ok a s', .ok b t' => b = a ∧ Twin s' t' ∧ Q a s'.c
    | .throw e s', .throw f t' => f = e ∧ Twin s' t'
    | .ub, .ub => True
    | .terminate, .terminate => True
    | .diverge, .diverge => True
    | _, _ => False

/-- The two programs end alike from twin states. -/
def TS {α : Type} (m m' : Impl.CM K V α) : Prop := TSim (fun _ => True) m m' (fun _ _ => True)

section rules

variable {α β : Type} {P : Cache K V → Prop}

theorem TSim.bind {m m' : Impl.CM K V α} {f f' : α → Impl.CM K V β} {Q : α → Cache K V → Prop} {R : β → Cache K V → Prop}
    (h : TSim P m m' Q) (h' : ∀ a, TSim (Q a) (f a) (f' a) R) : TSim P (m >>= f) (m' >>= f') R := by
  intro s t ht hp
  have h1 := h s t ht hp
  show match M.bind m f s, M.bind m' f' t with
    | .ok a s', .ok b t' => b = a ∧ Twin s' t' ∧ R a s'.c
    | .throw e s', .throw f t' => f = e ∧ Twin s' t'
    | .ub, .ub => True
    | .terminate, .terminate => True
    | .diverge, .diverge => True
    | _, _ => False
  unfold M.bind
  cases hm : m s <;> cases hm' : m' t <;> rw [hm, hm'] at h1 <;> first | exact h1.elim | exact h1 | skip
  obtain ⟨rfl, h2, h3⟩ := h1
  exact h' _ _ _ h2 h3

theorem TSim.mono {m m' : Impl.CM K V α} {P' : Cache K V → Prop} {Q Q' : α → Cache K V → Prop}
    (h : TSim P m m' Q) (hp : ∀ c, P' c → P c) (hq : ∀ a c, Q a c → Q' a c) : TSim P' m m' Q' := by
  intro s t ht hp'
  have h1 := h s t ht (hp _ hp')
  cases hm : m s <;> cases hm' : m' t <;> rw [hm, hm'] at h1 <;> first | exact h1.elim | exact h1 | skip
  exact ⟨h1.1, h1.2.1, hq _ _ h1.2.2⟩

theorem TSim.ts {m m' : Impl.CM K V α} {Q : α → Cache K V → Prop} (h : TSim (fun _ => True) m m' Q) : TS m m' :=
  h.mono (fun _ h => h) (fun _ _ _ => trivial)

theorem TS.any {m m' : Impl.CM K V α} (h : TS m m') : TSim P m m' (fun _ _ => True) :=
  TSim.mono h (fun _ _ => trivial) (fun _ _ h => h)

theorem TS.bind {m m' : Impl.CM K V α} {f f' : α → Impl.CM K V β} (h : TS m m') (h' : ∀ a, TS (f a) (f' a)) :
    TS (m >>= f) (m' >>= f') := TSim.bind h h'

theorem TS.pure {a : α} : TS (Pure.pure a : Impl.CM K V α) (Pure.pure a) := fun _ _ h _ => ⟨rfl, h, trivial⟩
theorem TS.throw {e : Err} : TS (M.throw e : Impl.CM K V α) (M.throw e) := fun _ _ h _ => ⟨rfl, h⟩
theorem TS.ub : TS (M.ub : Impl.CM K V α) M.ub := fun _ _ _ _ => trivial
theorem TS.diverge : TS (M.diverge : Impl.CM K V α) M.diverge := fun _ _ _ _ => trivial

theorem TS.ite {c : Prop} [Decidable c] {m₁ m₂ m₁' m₂' : Impl.CM K V α} (h₁ : TS m₁ m₁') (h₂ : TS m₂ m₂') :
    TS (if c then m₁ else m₂) (if c then m₁' else m₂') := by
  split <;> assumption

theorem TS.opt {γ : Type} {o : Option γ} {m m' : Impl.CM K V α} {f f' : γ → Impl.CM K V α} (h₁ : TS m m')
    (h₂ : ∀ x, TS (f x) (f' x)) :
    TS (match o with | none => m | some x => f x) (match o with | none => m' | some x => f' x) := by
  cases o with
  | none => exact h₁
  | some x => exact h₂ x

theorem TS.noexcept {m m' : Impl.CM K V α} (h : TS m m') : TS (M.noexcept m) (M.noexcept m') := by
  intro s t ht hp
  have h1 := h s t ht hp
  unfold M.noexcept
  cases hm : m s <;> cases hm' : m' t <;> rw [hm, hm'] at h1 <;> first | exact h1.elim | exact h1 | trivial

theorem TS.ret {m m' : Impl.CM K V α} {f : α → Res K V} (h : TS m m') : TS (Impl.ret m f) (Impl.ret m' f) :=
  h.bind fun _ => .pure

theorem TS.read {f f' : St (Cache K V) K V → α} (h : ∀ s t, Twin s t → f' t = f s) :
    TS (fun s => .ok (f s) s) (fun s => .ok (f' s) s) := fun s t ht _ => ⟨h s t ht, ht, trivial⟩

theorem TS.setSelf {f f' : Cache K V → Cache K V} (h1 : ∀ c d, Reordered c d → Reordered (f c) (f' d))
    (h2 : ∀ c n, Uniq c.map n → Uniq (f c).map n) : TS (Impl.setSelf f) (Impl.setSelf f') :=
  fun s _ ht _ => ⟨rfl, ht.setC (h1 _ _ ht.c) (h2 _ s.g.next ht.uniq), trivial⟩

end rules

section effects

variable {O O' : Oracle K V} {P : Cache K V → Prop}

theorem attempt_t (h : SameButOrder O O') {site : Site} : TSim P (attempt O site) (attempt O' site) (fun _ => P) := by
  intro s t ht hp
  have h1 := ht.setG (fun g => { g with steps := g.steps + 1 }) (fun _ => rfl) (fun _ _ => rfl) (Nat.le_refl _)
  have e1 : O'.fails site t.g.steps = O.fails site s.g.steps := by rw [h.fails, ht.g]
  unfold attempt
  simp only [e1]
  cases O.fails site s.g.steps with
  | true => simp only [if_true]; exact ⟨trivial, h1⟩
  | false => exact by simp only [Bool.false_eq_true, if_false]; exact ⟨trivial, h1, hp⟩

theorem may_t (h : SameButOrder O O') {site : Site} : TSim P (may O site) (may O' site) (fun _ => P) := by
  intro s t ht hp
  have h1 := ht.setG (fun g => { g with steps := g.steps + 1 }) (fun _ => rfl) (fun _ _ => rfl) (Nat.le_refl _)
  unfold may
  exact ⟨by rw [h.fails, ht.g], h1, hp⟩

theorem now_t (h : SameButOrder O O') : TSim P (now O) (now O') (fun _ => P) := by
  intro s t ht hp
  have h1 := ht.setG (fun g => { g with ticks := g.ticks + 1 }) (fun _ => rfl) (fun _ _ => rfl) (Nat.le_refl _)
  unfold now
  exact ⟨by rw [h.clock, ht.g], h1, hp⟩

theorem emit_t {e : Event K V} : TS (emit e) (emit e) := by
  intro s t ht _
  exact ⟨rfl, ht.setG (fun g => { g with log := g.log ++ [e] }) (fun _ => rfl) (fun _ _ => rfl) (Nat.le_refl _), trivial⟩

theorem modStats_t {i : Nat} {f : Statistics K → Statistics K} : TS (V := V) (modStats i f) (modStats i f) := by
  intro s t ht _
  exact ⟨rfl, ht.setG (fun g => { g with stats := fun j => if j = i then f (g.stats j) else g.stats j }) (fun _ => rfl)
    (fun _ _ => rfl) (Nat.le_refl _), trivial⟩

theorem callEach_t (h : SameButOrder O O') {ev : Nat → Event K V} {l : List Nat} :
    TS (callEach O ev l) (callEach O' ev l) := by
  induction l with
  | nil => exact .pure
  | cons a r ih => exact emit_t.bind fun _ => (attempt_t h).ts.bind fun _ => ih

variable [DecidableEq K]

theorem registerHit_t (h : SameButOrder O O') {o : Obs} {k : K} {v : V} :
    TS (registerHit O o k v) (registerHit O' o k v) := by
  refine TS.bind ?_ fun _ => (callEach_t h).bind fun _ => callEach_t h
  unfold countHit
  cases o.stats with
  | none => exact .pure
  | some i => exact modStats_t

theorem registerMiss_t (h : SameButOrder O O') {o : Obs} {k : K} :
    TS (registerMiss O o k) (registerMiss O' o k) := by
  refine TS.bind ?_ fun _ => (callEach_t h).bind fun _ => callEach_t h
  unfold countMiss
  cases o.stats with
  | none => exact .pure
  | some i => exact modStats_t

end effects

section prims

theorem getKind_t : TS (Impl.getKind (K := K) (V := V)) Impl.getKind := .read fun _ _ h => h.c.kind
theorem getObs_t : TS (Impl.getObs (K := K) (V := V)) Impl.getObs := .read fun _ _ h => h.c.obs
theorem getLast_t : TS (Impl.getLast (K := K) (V := V)) Impl.getLast := .read fun _ _ h => h.c.last
theorem orderFirst_t : TS (Impl.orderFirst (K := K) (V := V)) Impl.orderFirst := .read fun _ _ h => by rw [h.c.order]
theorem orderLast_t : TS (Impl.orderLast (K := K) (V := V)) Impl.orderLast := .read fun _ _ h => by rw [h.c.order]
theorem orderAddrs_t : TS (Impl.orderAddrs (K := K) (V := V)) Impl.orderAddrs := .read fun _ _ h => by rw [h.c.order]
theorem size_t : TS (Impl.size (K := K) (V := V)) Impl.size := .read fun _ _ h => h.c.map.length_eq

theorem mapFind_t {k : K} : TSim (V := V) (fun _ => True) (Impl.mapFind k) (Impl.mapFind k)
    (fun o c => o = none → ∀ n ∈ c.map, keq n.key k = false) := by
  intro s t ht _
  refine ⟨ht.uniq.find_key ht.c.map k, ht, ?_⟩
  intro h n hn
  simpa using List.find?_eq_none.1 h n hn

theorem deref_t {p : Ptr} : TS (K := K) (V := V) (Impl.deref p) (Impl.deref p) := by
  intro s t ht _
  unfold Impl.deref
  rw [ht.uniq.find_addr ht.c.map p, ht.ext p]
  cases s.c.map.find? (fun n => n.addr == p) with
  | some n => exact ⟨rfl, ht, trivial⟩
  | none =>
    cases s.g.ext.find? (fun n => n.addr == p) with
    | some n => exact ⟨rfl, ht, trivial⟩
    | none => trivial

theorem derefIt_t {it : Option Ptr} : TS (K := K) (V := V) (Impl.derefIt it) (Impl.derefIt it) := by
  cases it with
  | none => exact .ub
  | some p =>
    intro s t ht _
    unfold Impl.derefIt
    simp only
    rw [ht.uniq.find_addr ht.c.map p]
    cases s.c.map.find? (fun n => n.addr == p) with
    | some n => exact ⟨rfl, ht, trivial⟩
    | none => trivial

theorem derefOrder_t {p : Ptr} : TS (K := K) (V := V) (Impl.derefOrder p) (Impl.derefOrder p) := by
  intro s t ht _
  unfold Impl.derefOrder
  rw [ht.c.order]
  cases s.c.order.find? (fun n => n.addr == p) with
  | some n => exact ⟨rfl, ht, trivial⟩
  | none => trivial

theorem readCapacity_t : TS (K := K) (V := V) Impl.readCapacity Impl.readCapacity := by
  intro s t ht _
  unfold Impl.readCapacity
  rw [ht.c.capacity]
  cases s.c.capacity with
  | some n => exact ⟨rfl, ht, trivial⟩
  | none => trivial

/-- Assignments to members that leave the hash table alone. -/
theorem setOther_t {f : Cache K V → Cache K V} (h1 : ∀ c, (f c).map = c.map)
    (h2 : ∀ c d, Reordered c d → Reordered (f c) (f d)) : TS (Impl.setSelf f) (Impl.setSelf f) :=
  .setSelf h2 fun c n h => by rw [h1]; exact h

theorem assignCapacity_t {n : Nat} : TS (K := K) (V := V) (Impl.assignCapacity n) (Impl.assignCapacity n) :=
  setOther_t (fun _ => rfl) fun _ _ h => ⟨h.map, h.order, h.last, rfl, h.kind, h.obs⟩

theorem setObs_t {f : Obs → Obs} : TS (K := K) (V := V) (Impl.setSelf fun c => { c with obs := f c.obs })
    (Impl.setSelf fun c => { c with obs := f c.obs }) :=
  setOther_t (fun _ => rfl) fun _ _ h => ⟨h.map, h.order, h.last, h.capacity, h.kind, congrArg f h.obs⟩

theorem setOrderList_t {f : List ListNode → List ListNode} :
    TS (K := K) (V := V) (Impl.setSelf fun c => { c with order := f c.order })
      (Impl.setSelf fun c => { c with order := f c.order }) :=
  setOther_t (fun _ => rfl) fun _ _ h => ⟨h.map, congrArg f h.order, h.last, h.capacity, h.kind, h.obs⟩

theorem setLastTo_t {p : Option Ptr} : TS (K := K) (V := V) (Impl.setSelf fun c => { c with last := p })
    (Impl.setSelf fun c => { c with last := p }) :=
  setOther_t (fun _ => rfl) fun _ _ h => ⟨h.map, h.order, rfl, h.capacity, h.kind, h.obs⟩

theorem setLast_t {p : Ptr} : TS (K := K) (V := V) (Impl.setLast p) (Impl.setLast p) := setLastTo_t

theorem lastInvalidate_t : TS (K := K) (V := V) Impl.lastInvalidate Impl.lastInvalidate := setLastTo_t

theorem filterMap_t {p : MapNode K V → Bool} : TS (Impl.setSelf fun c => { c with map := c.map.filter p })
    (Impl.setSelf fun c => { c with map := c.map.filter p }) :=
  .setSelf (fun _ _ h => ⟨h.map.filter p, h.order, h.last, h.capacity, h.kind, h.obs⟩) fun _ _ h => h.filter p

theorem mapMap_t {f : MapNode K V → MapNode K V} (h1 : ∀ x, (f x).addr = x.addr) (h2 : ∀ x, (f x).key = x.key) :
    TS (Impl.setSelf fun c => { c with map := c.map.map f }) (Impl.setSelf fun c => { c with map := c.map.map f }) :=
  .setSelf (fun _ _ h => ⟨h.map.map f, h.order, h.last, h.capacity, h.kind, h.obs⟩) fun _ _ h => h.map f h1 h2

theorem assignValue_t {p : Ptr} {v : V} : TS (K := K) (Impl.assignValue p v) (Impl.assignValue p v) :=
  mapMap_t (fun x => by split <;> rfl) (fun x => by split <;> rfl)

theorem tearValue_t {p : Ptr} {f : V → V} : TS (K := K) (Impl.tearValue p f) (Impl.tearValue p f) :=
  mapMap_t (fun x => by split <;> rfl) (fun x => by split <;> rfl)

theorem setOrder_t {p q : Ptr} : TS (K := K) (V := V) (Impl.setOrder p q) (Impl.setOrder p q) :=
  mapMap_t (fun x => by split <;> rfl) (fun x => by split <;> rfl)

theorem clear_t : TS (K := K) (V := V) Impl.clear Impl.clear :=
  .setSelf (fun _ _ h => ⟨.nil, rfl, rfl, h.capacity, h.kind, h.obs⟩) fun _ n _ => .nil n

theorem mapEmplace_t {O O' : Oracle K V} (h : SameButOrder O O') {k : K} {v : V} {t : Int} :
    TSim (fun c => ∀ n ∈ c.map, keq n.key k = false) (Impl.mapEmplace O k v t) (Impl.mapEmplace O' k v t)
      (fun _ _ => True) := by
  refine (attempt_t h).bind fun _ => ?_
  intro s u hu hp
  have e1 : u.g.next = s.g.next := by rw [hu.g]
  show match (Out.ok s.g.next (⟨{ s.c with map := O.shuffle s.g.next ({ addr := s.g.next, key := k, info := ⟨v, none, t⟩ } :: s.c.map) },
      { s.g with next := s.g.next + 1 }⟩ : St (Cache K V) K V) : Out (St (Cache K V) K V) Ptr),
      (Out.ok u.g.next (⟨{ u.c with map := O'.shuffle u.g.next ({ addr := u.g.next, key := k, info := ⟨v, none, t⟩ } :: u.c.map) },
      { u.g with next := u.g.next + 1 }⟩ : St (Cache K V) K V) : Out (St (Cache K V) K V) Ptr) with
    | .ok a s', .ok b t' => b = a ∧ Twin s' t' ∧ True
    | .throw e s', .throw f t' => f = e ∧ Twin s' t'
    | .ub, .ub => True
    | .terminate, .terminate => True
    | .diverge, .diverge => True
    | _, _ => False
  have h1 := hu.setG (fun g => { g with next := g.next + 1 }) (fun _ => rfl) (fun _ _ => rfl) (Nat.le_succ _)
  refine ⟨e1, h1.setC ?_ ?_, trivial⟩
  · refine ⟨?_, hu.c.order, hu.c.last, hu.c.capacity, hu.c.kind, hu.c.obs⟩
    show (O'.shuffle _ _).Perm (O.shuffle _ _)
    rw [e1]
    exact (O'.shuffle_perm _ _).trans ((hu.c.map.cons _).trans (O.shuffle_perm _ _).symm)
  · show Uniq (O.shuffle _ _) (s.g.next + 1)
    exact (hu.uniq.cons (x := { addr := s.g.next, key := k, info := ⟨v, none, t⟩ }) rfl hp).perm (O.shuffle_perm _ _)

theorem alloc_t : TS (alloc : Impl.CM K V Ptr) alloc := by
  intro s t ht _
  exact ⟨by rw [ht.g], ht.setG (fun g => { g with next := g.next + 1 }) (fun _ => rfl) (fun _ _ => rfl) (Nat.le_succ _), trivial⟩

theorem monitorNew_t [DecidableEq K] {ks : List K} : TS (V := V) (Impl.monitorNew ks) (Impl.monitorNew ks) := by
  intro s t ht _
  have e1 : t.g.nextStat = s.g.nextStat := by rw [ht.g]
  unfold Impl.monitorNew
  simp only
  have h1 := ht.setG (fun g => { g with nextStat := s.g.nextStat + 1, stats := fun j => if j = s.g.nextStat then Statistics.ofKeys ks else g.stats j })
    (fun _ => rfl) (fun _ _ => rfl) (Nat.le_refl _)
  rw [e1]
  refine ⟨rfl, h1.setC ⟨ht.c.map, ht.c.order, ht.c.last, ht.c.capacity, ht.c.kind, ?_⟩ ht.uniq, trivial⟩
  simp only [ht.c.obs]

end prims

end LRU
