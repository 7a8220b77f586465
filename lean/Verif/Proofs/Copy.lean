import Verif.Proofs.Pair
/-!
# Invariant of programs that copy caches

A copy keeps the list iterators and the last-accessed pointer of its source (`World.lean`, `copyOf`), so `Clean` fails for
it. What remains true of every cache is that it has a counterpart on the list machine (`Rel`), and that stale
iterators lead to no position of the cache that holds them.
-/

set_option linter.unusedSectionVars false
set_option autoImplicit false

namespace LRU

variable {K V : Type} [KeyEqual K]

/-- A cache that is well-formed on its own; its list iterators may be stale. -/
def LWf (c : Cache K V) (n : Ptr) : Prop := ∃ a, Rep c a ∧ AWF a (baseG n)

/-- If the last-accessed pointer of `c` leads to a node of `d`, the list iterator there leads to no position of `c`. -/
def Astray (c d : Cache K V) : Prop :=
  ∀ p n q, c.last = some p → (∀ x ∈ c.map, x.addr ≠ p) → n ∈ d.map → n.addr = p → n.info.order = some q →
    ∀ l ∈ c.order, l.addr ≠ q

/-- Two caches of a program. -/
structure Sep (c d : Cache K V) : Prop where
  apart : Apart c d
  astray : Astray c d

theorem LWf.ids {c : Cache K V} {n : Ptr} (h : LWf c n) : ∀ x ∈ c.map, x.addr < n := by
  obtain ⟨a, hr, hw⟩ := h
  intro x hx
  obtain ⟨e, he, rfl⟩ := List.mem_map.1 (hr.map.mem_iff.1 hx)
  exact (hw.lt e he).1

theorem LWf.ords {c : Cache K V} {n : Ptr} (h : LWf c n) : ∀ x ∈ c.map, ∀ q, x.info.order = some q → q < n := by
  obtain ⟨a, hr, hw⟩ := h
  intro x hx q hq
  obtain ⟨e, he, rfl⟩ := List.mem_map.1 (hr.map.mem_iff.1 hx)
  exact (hw.lt e he).2.2 q hq

theorem LWf.lastLt {c : Cache K V} {n : Ptr} (h : LWf c n) : ∀ p, c.last = some p → p < n := by
  obtain ⟨a, hr, hw⟩ := h
  intro p hp
  exact hw.lastLt p (hr.last ▸ hp)

theorem Rep.not_own {c : Cache K V} {a : MCache K V} (hr : Rep c a) {p : Ptr} (h : p ∉ a.ents.map (·.id)) :
    ∀ x ∈ c.map, x.addr ≠ p := by
  intro x hx e
  obtain ⟨y, hy, rfl⟩ := List.mem_map.1 (hr.map.mem_iff.1 hx)
  exact h (List.mem_map.2 ⟨y, hy, e⟩)

theorem Rep.not_own_iff {c : Cache K V} {a : MCache K V} (hr : Rep c a) {p : Ptr} (h : ∀ x ∈ c.map, x.addr ≠ p) :
    p ∉ a.ents.map (·.id) := by
  intro hp
  obtain ⟨y, hy, rfl⟩ := List.mem_map.1 hp
  exact h y.node (hr.map.mem_iff.2 (List.mem_map.2 ⟨y, hy, rfl⟩)) rfl

theorem Rep.not_slot {c : Cache K V} {a : MCache K V} (hr : Rep c a) {q : Ptr} (h : ∀ l ∈ c.order, l.addr ≠ q) :
    q ∉ a.ents.map (·.slot) := by
  intro hq
  obtain ⟨y, hy, rfl⟩ := List.mem_map.1 hq
  exact h y.lnode (by rw [hr.order]; exact List.mem_map.2 ⟨y, hy, rfl⟩) rfl

theorem Rep.slot_not {c : Cache K V} {a : MCache K V} (hr : Rep c a) {q : Ptr} (h : q ∉ a.ents.map (·.slot)) :
    ∀ l ∈ c.order, l.addr ≠ q := by
  intro l hl e
  rw [hr.order] at hl
  obtain ⟨y, hy, rfl⟩ := List.mem_map.1 hl
  exact h (List.mem_map.2 ⟨y, hy, e⟩)

theorem Rel.lwf {s : St (Cache K V) K V} {t : St (MCache K V) K V} (h : Rel s t) : LWf s.c s.g.next :=
  ⟨t.c, h.rep, by rw [h.g]; exact h.awf.base⟩

theorem Rel.bounded {s : St (Cache K V) K V} {t : St (MCache K V) K V} (h : Rel s t) : Bounded s := by
  refine ⟨?_, ?_, ?_, h.lwf.ids, ?_, ?_⟩
  · intro n hn
    rw [h.rep.length]
    exact h.awf.bound n (h.rep.cap ▸ hn)
  · intro hn
    have := h.awf.capNone (h.rep.cap ▸ hn)
    have h1 := h.rep.length
    rw [this] at h1
    exact List.length_eq_zero_iff.1 h1
  · intro l hl x hx
    rw [h.rep.order] at hl
    obtain ⟨e, he, rfl⟩ := List.mem_map.1 hl
    rw [h.g] at hx
    exact h.awf.extDisj e he x hx
  · intro l hl
    rw [h.rep.order] at hl
    obtain ⟨e, he, rfl⟩ := List.mem_map.1 hl
    rw [h.g]
    exact (h.awf.lt e he).1
  · rw [h.g]; exact h.awf.extLt

/-- A cache that is well-formed on its own, among other caches. -/
theorem Rep.rel {c : Cache K V} {a : MCache K V} {g : Shared K V} (hr : Rep c a) (hw : AWF a (baseG g.next))
    (h1 : ∀ x ∈ c.map, ∀ n ∈ g.ext, n.addr ≠ x.addr) (h2 : ∀ n ∈ g.ext, n.addr < g.next)
    (h3 : ∀ n ∈ g.ext, ∀ q, n.info.order = some q → q < g.next)
    (h4 : ∀ p n q, c.last = some p → (∀ x ∈ c.map, x.addr ≠ p) → n ∈ g.ext → n.addr = p → n.info.order = some q →
      ∀ l ∈ c.order, l.addr ≠ q) : Rel ⟨c, g⟩ ⟨a, g⟩ := by
  refine ⟨hr, rfl, { hw with lt := hw.lt, foreign := ?_, lastLt := hw.lastLt, extDisj := ?_, extLt := h2 }⟩
  · intro p n q hp hn hx he hq
    exact ⟨hr.not_slot (h4 p n q (hr.last.trans hp) (hr.not_own hn) hx he hq), h3 n hx q hq⟩
  · intro e he n hn
    exact h1 e.node (hr.map.mem_iff.2 (List.mem_map.2 ⟨e, he, rfl⟩)) n hn

variable [DecidableEq K] [DecidableEq V] {O : Oracle K V}

/-- Every live cache of a program has a counterpart on the list machine. -/
theorem WPair.rel {w : World K V} (h : WPair LWf Sep w) {i : Nat} {c : Cache K V} (hc : w.caches[i]? = some (some c)) :
    ∃ t, Rel (viewOf w i c) t := by
  obtain ⟨a, hr, hw⟩ := h.each i c hc
  refine ⟨⟨a, _⟩, hr.rel (g := (viewOf w i c).g) hw ?_ ?_ ?_ ?_⟩
  · intro x hx n hn
    obtain ⟨j, d, hj, hd, hn⟩ := mem_others.1 hn
    exact (h.pair j i d c hj hd hc).apart n hn x hx
  · intro n hn
    obtain ⟨j, d, hj, hd, hn⟩ := mem_others.1 hn
    exact (h.each j d hd).ids n hn
  · intro n hn
    obtain ⟨j, d, hj, hd, hn⟩ := mem_others.1 hn
    exact (h.each j d hd).ords n hn
  · intro p n q hp hown hn
    obtain ⟨j, d, hj, hd, hn⟩ := mem_others.1 hn
    exact (h.pair i j c d (fun e => hj e.symm) hc hd).astray p n q hp hown hn

/-! ### The copy on the list machine -/

/-- The copied entries: new nodes (`f`) and new positions, counted from `base`; the stored list iterators are not
changed. -/
def copyEnts (f : Ptr → Ptr) : Ptr → List (Ent K V) → List (Ent K V)
  | _, [] => []
  | base, e :: r => { e with id := f e.id, slot := base } :: copyEnts f (base + 1) r

theorem copyEnts_map {β : Type} {f : Ptr → Ptr} {base : Ptr} {l : List (Ent K V)} {g g' : Ent K V → β}
    (h : ∀ e q, g { e with id := f e.id, slot := q } = g' e) : (copyEnts f base l).map g = l.map g' := by
  induction l generalizing base with
  | nil => rfl
  | cons e r ih => simp only [copyEnts, List.map_cons, h, ih]

theorem copyEnts_mem {f : Ptr → Ptr} {base : Ptr} {l : List (Ent K V)} {x : Ent K V} (h : x ∈ copyEnts f base l) :
    ∃ e ∈ l, ∃ q, base ≤ q ∧ q < base + l.length ∧ x = { e with id := f e.id, slot := q } := by
  induction l generalizing base with
  | nil => cases h
  | cons e r ih =>
    rcases List.mem_cons.1 h with rfl | h
    · exact ⟨e, List.mem_cons_self .., base, Nat.le_refl _, Nat.lt_add_of_pos_right (Nat.succ_pos _), rfl⟩
    · obtain ⟨y, hy, q, h1, h2, rfl⟩ := ih h
      refine ⟨y, List.mem_cons_of_mem _ hy, q, Nat.le_of_succ_le h1, Nat.lt_of_lt_of_eq h2 ?_, rfl⟩
      rw [List.length_cons, Nat.add_assoc, Nat.add_comm 1]

theorem copyEnts_slots {f : Ptr → Ptr} {base : Ptr} {l : List (Ent K V)} :
    ((copyEnts f base l).map (·.slot)).Nodup := by
  induction l generalizing base with
  | nil => exact List.nodup_nil
  | cons e r ih =>
    refine List.nodup_cons.2 ⟨?_, ih⟩
    intro h
    obtain ⟨x, hx, e1⟩ := List.mem_map.1 h
    obtain ⟨_, _, q, h1, _, rfl⟩ := copyEnts_mem hx
    exact Nat.lt_irrefl _ (Nat.lt_of_lt_of_eq (Nat.lt_of_succ_le h1) e1)

/-- Where the node at address `p` is copied to. -/
def copyAddr (base : Ptr) (p : Ptr) : Ptr := base + p

/-- The list machine's copy. -/
def MCache.copy (a : MCache K V) (base : Ptr) : MCache K V :=
  { a with ents := copyEnts (copyAddr base) (base + base) a.ents }

theorem addrs_nodup {b : Cache K V} {a : MCache K V} {n : Ptr} (hr : Rep b a) (hw : AWF a (baseG n)) :
    (b.map.map (·.addr)).Nodup := by
  have h1 : (b.map.map (·.addr)).Perm (a.ents.map (·.id)) := by
    have := hr.map.map (·.addr)
    rw [List.map_map] at this
    exact this
  exact h1.symm.nodup hw.ids

theorem copy_awf {b : Cache K V} {a : MCache K V} {n : Ptr} (hr : Rep b a) (hw : AWF a (baseG n)) :
    AWF (a.copy n) (baseG (n + n + b.order.length)) := by
  have hol : b.order.length = a.ents.length := by rw [hr.order, List.length_map]
  have hn : n ≤ n + n + b.order.length := le_add_add _ _ _
  have hslot : ∀ q ∈ (copyEnts (copyAddr n) (n + n) a.ents).map (·.slot), n ≤ q := by
    intro q hq
    obtain ⟨x, hx, rfl⟩ := List.mem_map.1 hq
    obtain ⟨e, he, q, h1, h2, rfl⟩ := copyEnts_mem hx
    exact Nat.le_trans (Nat.le_add_right _ _) h1
  have hlen : (copyEnts (copyAddr n) (n + n) a.ents).length = a.ents.length := by
    have := congrArg List.length (copyEnts_map (f := copyAddr n) (base := n + n) (l := a.ents)
      (g := fun e => e.key) (g' := fun e => e.key) fun _ _ => rfl)
    simpa using this
  refine ⟨?_, copyEnts_slots, ?_, ?_, ?_, ?_, ?_, ?_, ?_, ?_, ?_⟩
  · show ((copyEnts _ _ _).map (fun e => e.id)).Nodup
    rw [copyEnts_map (f := copyAddr n) (g := fun e => e.id) (g' := fun e => copyAddr n e.id) fun _ _ => rfl]
    have : (a.ents.map (fun e => copyAddr n e.id)) = (a.ents.map (·.id)).map (copyAddr n) := by
      rw [List.map_map]; rfl
    rw [this]
    unfold List.Nodup
    rw [List.pairwise_map]
    refine List.Pairwise.imp_of_mem ?_ hw.ids
    intro p q hp hq hpq he
    obtain ⟨e, he1, rfl⟩ := List.mem_map.1 hp
    obtain ⟨e', he2, rfl⟩ := List.mem_map.1 hq
    exact hpq (Nat.add_left_cancel he)
  · show (copyEnts _ _ _).Pairwise _
    have := hw.keys
    rw [← List.pairwise_map (f := fun e : Ent K V => e.key) (R := fun x y => keq x y = false)] at this ⊢
    rw [copyEnts_map (g := fun e => e.key) (g' := fun e => e.key) fun _ _ => rfl]
    exact this
  · intro x hx q hq hs
    obtain ⟨e, he, q', h1, h2, rfl⟩ := copyEnts_mem hx
    have h3 := (hw.lt e he).2.2 q hq
    exact absurd (Nat.lt_of_lt_of_le h3 (hslot q hs)) (Nat.lt_irrefl _)
  · intro m hm
    show (copyEnts _ _ _).length ≤ m
    rw [hlen]
    exact hw.bound m hm
  · intro hm
    show copyEnts _ _ a.ents = []
    rw [hw.capNone hm]
    rfl
  · intro x hx
    obtain ⟨e, he, q, h1, h2, rfl⟩ := copyEnts_mem hx
    refine ⟨?_, ?_, ?_⟩
    · show copyAddr n e.id < _
      exact lt_add_add (Nat.add_lt_add_left (hw.lt e he).1 n)
    · show q < _
      rw [hol]; exact h2
    · intro q' hq'
      exact Nat.lt_of_lt_of_le ((hw.lt e he).2.2 q' hq') hn
  · intro p m q _ _ h; simp [baseG] at h
  · intro p hp
    exact Nat.lt_of_lt_of_le (hw.lastLt p hp) hn
  · intro e _ m h; simp [baseG] at h
  · intro m h; simp [baseG] at h

theorem copyNodes_perm {b : Cache K V} {a : MCache K V} {n : Ptr} (hr : Rep b a) (hw : AWF a (baseG n)) (base : Ptr) :
    (Impl.copyNodes base b.map).Perm ((a.copy base).ents.map Ent.node) := by
  have := hr.map.map (fun m => { m with addr := copyAddr base m.addr })
  refine this.trans ?_
  rw [List.map_map]
  show List.Perm _ ((copyEnts _ _ _).map Ent.node)
  rw [copyEnts_map (f := copyAddr base) (g := Ent.node) (g' := fun e => { e.node with addr := copyAddr base e.id }) fun _ _ => rfl]
  exact List.Perm.refl _

theorem copyOrder_eq {b : Cache K V} {a : MCache K V} {n : Ptr} (hr : Rep b a) (hw : AWF a (baseG n)) (base : Ptr)
    {dst : List (MapNode K V)} (hd : dst.Perm (a.ents.map fun e => { e.node with addr := copyAddr base e.id })) :
    ∀ (q : Ptr) (l : List (Ent K V)), (∀ e ∈ l, e ∈ a.ents) →
      Impl.copyOrder q b.map dst (l.map Ent.lnode) = some ((copyEnts (copyAddr base) q l).map Ent.lnode) := by
  intro q l hl
  induction l generalizing q with
  | nil => rfl
  | cons e r ih =>
    have he := hl e (List.mem_cons_self ..)
    have h1 : b.map.find? (fun n => n.addr == e.lnode.ref) = some e.node := by
      have : b.map.find? (fun n => n.addr == e.id) = (a.ents.find? (fun x => x.id == e.id)).map Ent.node := by
        rw [find?_perm hr.map, find?_map_eq]
        · rfl
        · intro x hx y hy h h'
          obtain ⟨u, hu, rfl⟩ := List.mem_map.1 hx
          obtain ⟨v, hv, rfl⟩ := List.mem_map.1 hy
          exact congrArg _ (map_inj_of_nodup hw.ids u hu v hv ((eq_of_beq h).trans (eq_of_beq h').symm))
      rw [show e.lnode.ref = e.id from rfl, this, find?_key hw.ids he]
      rfl
    have h2 : dst.find? (fun m => keq m.key e.node.key) = some { e.node with addr := copyAddr base e.id } := by
      rw [find?_perm hd, find?_map_eq]
      · have h3 : a.ents.find? (fun y => keq y.key e.key) = some e :=
          find?_of_unique he (KeyEqual.refl e.key) (fun y hy hy' =>
            key_inj_of_pairwise' hw.keys y hy e he hy' (KeyEqual.refl _))
        exact congrArg (Option.map _) h3
      · intro x hx y hy h h'
        obtain ⟨u, hu, rfl⟩ := List.mem_map.1 hx
        obtain ⟨v, hv, rfl⟩ := List.mem_map.1 hy
        have : u = v := key_inj_of_pairwise' hw.keys u hu v hv h h'
        rw [this]
    rw [List.map_cons]
    unfold Impl.copyOrder
    rw [h1]
    simp only [h2, ih (q + 1) (fun x hx => hl x (List.mem_cons_of_mem _ hx))]
    rfl

/-- A copy succeeds, and corresponds to the list machine's copy. -/
theorem copyOf_rep {b : Cache K V} {a : MCache K V} {n : Ptr} (hr : Rep b a) (hw : AWF a (baseG n)) (base : Ptr) :
    ∃ c, Impl.copyOf O base b = some c ∧ Rep c (a.copy base) := by
  have hp := (O.shuffle_perm base (Impl.copyNodes base b.map)).trans (copyNodes_perm hr hw base)
  have hp' := hp
  unfold MCache.copy at hp'
  simp only at hp'
  rw [copyEnts_map (f := copyAddr base) (g := Ent.node) (g' := fun e => { e.node with addr := copyAddr base e.id }) fun _ _ => rfl] at hp'
  have ho := copyOrder_eq hr hw base hp' (base + base) a.ents fun _ h => h
  rw [← hr.order] at ho
  have hc : Impl.copyOf O base b = some { b with
      map := O.shuffle base (Impl.copyNodes base b.map)
      order := (copyEnts (copyAddr base) (base + base) a.ents).map Ent.lnode } := by
    unfold Impl.copyOf
    simp only [ho]
  refine ⟨_, hc, ?_⟩
  exact ⟨rfl, hp, hr.last, hr.cap, hr.kind, hr.obs⟩

/-! ### The invariant -/

theorem LWf.congr {c c' : Cache K V} {n : Ptr} (e : SameParts c c') (h : LWf c n) : LWf c' n := by
  obtain ⟨a, hr, hw⟩ := h
  refine ⟨{ a with kind := c'.kind, obs := c'.obs }, ?_, { hw with }⟩
  exact ⟨e.order.trans hr.order, e.map ▸ hr.map, e.last.trans hr.last, e.capacity.trans hr.cap, rfl, rfl⟩

theorem copies_ok (hO : NoListFault O) : PairOK O (LWf (K := K) (V := V)) Sep where
  mono := by
    rintro c n m ⟨a, hr, hw⟩ hn
    exact ⟨a, hr, hw.mono rfl hn⟩
  same := LWf.congr
  sameL := fun e h => ⟨by unfold Apart; rw [e.map]; exact h.apart,
    by unfold Astray; rw [e.map, e.last, e.order]; exact h.astray⟩
  sameR := fun e h => ⟨by unfold Apart; rw [e.map]; exact h.apart, by unfold Astray; rw [e.map]; exact h.astray⟩
  empty := by
    intro c n h1 h2 h3
    obtain ⟨a, hr, hw, _⟩ := LOk.empty c n h1 h2 h3
    exact ⟨a, hr, hw⟩
  emptyL := fun h1 _ h3 => ⟨by unfold Apart; simp [h1], by intro p n q hp; rw [h3] at hp; cases hp⟩
  emptyR := fun h1 _ _ => ⟨by unfold Apart; simp [h1], by intro p n q _ _ hn; rw [h1] at hn; cases hn⟩
  call := by
    intro w i c op res s' h hc hp
    obtain ⟨t, hr⟩ := h.rel hc
    have h1 := step_sim hO op _ t hr trivial
    have h2 := step_raw (O := O) op _ hr.bounded
    have h3 : (∃ t', Rel s' t') ∧ RawStep (viewOf w i c) s' := by
      cases res <;> (unfold Performs at hp; simp only at hp; rw [hp] at h1 h2)
      · refine ⟨?_, h2⟩
        cases hm : Mid.step O op t <;> rw [hm] at h1 <;> first | exact h1.elim | exact ⟨_, h1.2⟩
      · refine ⟨?_, h2⟩
        cases hm : Mid.step O op t <;> rw [hm] at h1 <;> first | exact h1.elim | exact ⟨_, h1.2.1⟩
    obtain ⟨⟨t', hr'⟩, h4⟩ := h3
    have hext : ∀ (j : Nat) (d : Cache K V), j ≠ i → w.caches[j]? = some (some d) → ∀ x ∈ d.map, x ∈ t'.g.ext := by
      intro j d hj hd x hx
      rw [← hr'.g, h4.ext]
      exact mem_others.2 ⟨j, d, hj, hd, hx⟩
    refine ⟨hr'.lwf, h4.next, fun j d hj hd => ?_⟩
    have hap : Apart s'.c d := by
      intro x hx y hy e
      obtain ⟨z, hz, rfl⟩ := List.mem_map.1 (hr'.rep.map.mem_iff.1 hx)
      exact hr'.awf.extDisj z hz y (hext j d hj hd y hy) e.symm
    refine ⟨⟨hap, ?_⟩, ⟨fun x hx y hy e => hap y hy x hx e.symm, ?_⟩⟩
    · intro p n q hp hown hn hnp hq
      have := hr'.awf.foreign p n q (hr'.rep.last ▸ hp) (hr'.rep.not_own_iff hown) (hext j d hj hd n hn) hnp hq
      exact hr'.rep.slot_not this.1
    · intro p n q hp hown hn hnp hq
      rcases h4.nodes n hn with ⟨y, hy, e1, e2⟩ | hlt
      · exact (h.pair j i d c hj hd hc).astray p y q hp hown hy (e1.trans hnp) (e2.trans hq)
      · have h5 := (h.each j d hd).lastLt p hp
        rw [← hnp] at h5
        exact absurd (Nat.lt_of_lt_of_le h5 hlt) (Nat.lt_irrefl _)
  create := by
    intro w kind ctor n s' h hb
    have hext : ∀ x ∈ ({ w.g with ext := Impl.allNodes w.caches } : Shared K V).ext,
        x.addr < ({ w.g with ext := Impl.allNodes w.caches } : Shared K V).next := by
      intro x hx
      obtain ⟨j, d, hj, hd⟩ := mem_allNodes.1 hx
      exact (h.each j d hj).ids x hd
    obtain ⟨m', hs, hk⟩ := ctorBody_sim hO ctor
    obtain ⟨hr, ht⟩ := empty_rel kind (Impl.ctorCapacity ctor) hext
    have h1 := member_keeps hs hk hr ht
    rw [hb] at h1
    obtain ⟨t', hr', hst⟩ := h1
    have hids := node_ids hr hr' hst
    have hn := hst.next
    rw [← hr'.g] at hn
    refine ⟨hr'.lwf, hn, fun j d hd => ?_⟩
    have hap : Apart s'.c d := by
      intro x hx y hy e
      rcases hids x hx with ⟨z, hz, -⟩ | hlt
      · cases hz
      · have := (h.each j d hd).ids y hy
        rw [← e] at this
        exact absurd (Nat.lt_of_lt_of_le this hlt) (Nat.lt_irrefl _)
    refine ⟨⟨hap, ?_⟩, ⟨fun x hx y hy e => hap y hy x hx e.symm, ?_⟩⟩
    · intro p n q hp hown
      exfalso
      obtain ⟨e, he, rfl⟩ := hst.ok.clean.last p (hr'.rep.last ▸ hp)
      exact hown e.node (hr'.rep.map.mem_iff.2 (List.mem_map.2 ⟨e, he, rfl⟩)) rfl
    · intro p n q hp hown hn hnp hq
      rcases hids n hn with ⟨y, hy, -⟩ | hlt
      · cases hy
      · have h5 := (h.each j d hd).lastLt p hp
        rw [← hnp] at h5
        exact absurd (Nat.lt_of_lt_of_le h5 hlt) (Nat.lt_irrefl _)
  createThrow := by
    intro w kind ctor e s' h hb
    have hext : ∀ x ∈ ({ w.g with ext := Impl.allNodes w.caches } : Shared K V).ext,
        x.addr < ({ w.g with ext := Impl.allNodes w.caches } : Shared K V).next := by
      intro x hx
      obtain ⟨j, d, hj, hd⟩ := mem_allNodes.1 hx
      exact (h.each j d hj).ids x hd
    obtain ⟨hr, ht⟩ := empty_rel kind (Impl.ctorCapacity ctor) hext
    have h1 := ctorBody_raw (O := O) ctor _ hr.bounded
    rw [hb] at h1
    exact RawStep.next h1
  copy := by
    intro w i b c h hb hc
    obtain ⟨a, hr, hw⟩ := h.each i b hb
    obtain ⟨c', hc', hr'⟩ := copyOf_rep (O := O) hr hw w.g.next
    rw [hc] at hc'
    injection hc' with hc'
    subst hc'
    have hw' := copy_awf hr hw
    refine ⟨⟨_, hr', hw'⟩, fun j d hd => ?_⟩
    have hge : ∀ x ∈ c.map, w.g.next ≤ x.addr := by
      intro x hx
      obtain ⟨hm, -⟩ := copyOf_parts hc
      rw [hm] at hx
      exact (copyNodes_range (h.each i b hb).ids ((O.shuffle_perm _ _).mem_iff.1 hx)).1
    have hap : Apart c d := by
      intro x hx y hy e
      have := (h.each j d hd).ids y hy
      rw [← e] at this
      exact absurd (Nat.lt_of_lt_of_le this (hge x hx)) (Nat.lt_irrefl _)
    refine ⟨⟨hap, ?_⟩, ⟨fun x hx y hy e => hap y hy x hx e.symm, ?_⟩⟩
    · intro p n q hp hown hn hnp hq l hl e
      have h1 := (h.each j d hd).ords n hn q hq
      rw [hr'.order] at hl
      obtain ⟨z, hz, rfl⟩ := List.mem_map.1 hl
      obtain ⟨y, _, q', h2, _, rfl⟩ := copyEnts_mem hz
      have h3 : w.g.next ≤ q' := Nat.le_trans (Nat.le_add_right _ _) h2
      have h4 : q' = q := e
      rw [h4] at h3
      exact absurd (Nat.lt_of_lt_of_le h1 h3) (Nat.lt_irrefl _)
    · intro p n q hp hown hn hnp hq
      have h5 := (h.each j d hd).lastLt p hp
      rw [← hnp] at h5
      exact absurd (Nat.lt_of_lt_of_le h5 (hge n hn)) (Nat.lt_irrefl _)

/-- Every cache of every program, copies included, has a counterpart on the list machine. -/
theorem Reach.rel (hO : NoListFault O) {ok : WOp K V → Prop} {w : World K V} (h : Reach O ok w) {i : Nat} {c : Cache K V}
    (hc : w.caches[i]? = some (some c)) : ∃ t, Rel (viewOf w i c) t :=
  ((copies_ok hO).reach h).rel hc

end LRU
