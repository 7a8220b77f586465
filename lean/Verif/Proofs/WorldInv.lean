import Verif.Proofs.Keeps
import Verif.Spec.Observe
/-!
# Invariant of programs with several caches that are never copied
-/

set_option linter.unusedSectionVars false

namespace LRU

variable {K V : Type} [KeyEqual K]

/-- A shared state with no foreign nodes. -/
def baseG (n : Ptr) : Shared K V :=
  { ext := [], stats := fun _ => {}, nextStat := 0, log := [], next := n, ticks := 0, steps := 0 }

theorem AWF.base {a : MCache K V} {g : Shared K V} (w : AWF a g) : AWF a (baseG g.next) :=
  { w with
    lt := w.lt
    foreign := by intro p n q _ _ h; simp [baseG] at h
    lastLt := w.lastLt
    extDisj := by intro e _ n h; simp [baseG] at h
    extLt := by intro n h; simp [baseG] at h }

theorem AWF.unbase {a : MCache K V} {g : Shared K V} (w : AWF a (baseG g.next)) (hc : Clean a)
    (h1 : ∀ e ∈ a.ents, ∀ n ∈ g.ext, n.addr ≠ e.id) (h2 : ∀ n ∈ g.ext, n.addr < g.next) : AWF a g :=
  { w with
    lt := w.lt
    foreign := by
      intro p n q hp h
      obtain ⟨e, he, rfl⟩ := hc.last p hp
      exact absurd (List.mem_map.2 ⟨e, he, rfl⟩) h
    lastLt := w.lastLt
    extDisj := h1
    extLt := h2 }

/-- A cache that is well-formed on its own. -/
def LOk (c : Cache K V) (n : Ptr) : Prop := ∃ a, Rep c a ∧ AWF a (baseG n) ∧ Clean a

theorem LOk.congr {c c' : Cache K V} {n : Ptr} (h : LOk c n) (h1 : c'.map = c.map) (h2 : c'.order = c.order)
    (h3 : c'.last = c.last) (h4 : c'.capacity = c.capacity) : LOk c' n := by
  obtain ⟨a, hr, hw, hc⟩ := h
  refine ⟨{ a with kind := c'.kind, obs := c'.obs }, ?_, { hw with }, ⟨hc.linked, hc.last⟩⟩
  exact ⟨h2.trans hr.order, h1 ▸ hr.map, h3.trans hr.last, h4.trans hr.cap, rfl, rfl⟩

theorem LOk.mono {c : Cache K V} {n m : Ptr} (h : LOk c n) (hn : n ≤ m) : LOk c m := by
  obtain ⟨a, hr, hw, hc⟩ := h
  exact ⟨a, hr, hw.mono rfl hn, hc⟩

theorem LOk.lt {c : Cache K V} {n : Ptr} (h : LOk c n) : ∀ x ∈ c.map, x.addr < n := by
  obtain ⟨a, hr, hw, hc⟩ := h
  intro x hx
  obtain ⟨e, he, rfl⟩ := List.mem_map.1 (hr.map.mem_iff.1 hx)
  exact (hw.lt e he).1

theorem LOk.empty (c : Cache K V) (n : Ptr) (h1 : c.map = []) (h2 : c.order = []) (h3 : c.last = none) :
    LOk c n := by
  refine ⟨⟨[], none, c.capacity, c.kind, c.obs⟩, ⟨by simp [h2], by simp [h1], h3, rfl, rfl, rfl⟩, ?_, ⟨by simp, by simp⟩⟩
  exact ⟨by simp, by simp, by simp, by simp, by simp, by simp, by simp, by simp, by simp, by simp, by simp [baseG]⟩

/-- Two caches own different nodes. -/
def Apart (c d : Cache K V) : Prop := ∀ x ∈ c.map, ∀ y ∈ d.map, x.addr ≠ y.addr

/-- The live cache at an index. -/
def World.at (w : World K V) (i : Nat) : Option (Cache K V) := (w.caches[i]?).join

theorem World.at_iff {w : World K V} {i : Nat} {c : Cache K V} :
    w.at i = some c ↔ w.caches[i]? = some (some c) := by
  unfold World.at
  cases h : w.caches[i]? with
  | none => simp
  | some o => cases o <;> simp

theorem mem_allNodes {cs : List (Option (Cache K V))} {x : MapNode K V} :
    x ∈ Impl.allNodes cs ↔ ∃ (i : Nat) (c : Cache K V), cs[i]? = some (some c) ∧ x ∈ c.map := by
  unfold Impl.allNodes
  rw [List.mem_flatMap]
  constructor
  · rintro ⟨o, ho, hx⟩
    cases o with
    | none => simp at hx
    | some c =>
      obtain ⟨i, hi⟩ := List.mem_iff_getElem?.1 ho
      exact ⟨i, c, hi, hx⟩
  · rintro ⟨i, c, hi, hx⟩
    exact ⟨some c, List.mem_iff_getElem?.2 ⟨i, hi⟩, hx⟩

theorem mem_others {cs : List (Option (Cache K V))} {i : Nat} {x : MapNode K V} :
    x ∈ Impl.allNodes (cs.set i none) ↔ ∃ (j : Nat) (c : Cache K V), j ≠ i ∧ cs[j]? = some (some c) ∧ x ∈ c.map := by
  rw [mem_allNodes]
  constructor
  · rintro ⟨j, c, hj, hx⟩
    rw [List.getElem?_set] at hj
    by_cases hij : i = j
    · rw [if_pos hij] at hj
      split at hj <;> simp at hj
    · rw [if_neg hij] at hj
      exact ⟨j, c, fun h => hij h.symm, hj, hx⟩
  · rintro ⟨j, c, hij, hj, hx⟩
    refine ⟨j, c, ?_, hx⟩
    rw [List.getElem?_set, if_neg (fun h => hij h.symm)]
    exact hj

theorem Rel.lok {s : St (Cache K V) K V} {t : St (MCache K V) K V} (h : Rel s t) (h' : Ok t) : LOk s.c s.g.next :=
  ⟨t.c, h.rep, by rw [h.g]; exact h.awf.base, h'.clean⟩

section steps

variable [DecidableEq K] [DecidableEq V] {O : Oracle K V}

/-- From simulation and preservation: what a member function does to its cache. -/
theorem member_keeps {α : Type} {m : Impl.CM K V α} {m' : Mid.CM K V α} (hs : Sim m m') (hk : Keeps m')
    {s : St (Cache K V) K V} {t : St (MCache K V) K V} (hr : Rel s t) (ht : Ok t) :
    (m s).Post (fun s' => ∃ t', Rel s' t' ∧ Step t t') := by
  have h1 := hs s t hr trivial
  have h2 := hk t ht
  cases hm : m s <;> cases hm' : m' t <;> rw [hm, hm'] at h1 <;> rw [hm'] at h2 <;>
    first | exact h1.elim | trivial | skip
  · exact ⟨_, h1.2.1, h2⟩
  · exact ⟨_, h1.2, h2⟩

theorem node_ids {s s' : St (Cache K V) K V} {t t' : St (MCache K V) K V} (hr : Rel s t) (hr' : Rel s' t')
    (hs : Step t t') : ∀ x ∈ s'.c.map, (∃ y ∈ s.c.map, y.addr = x.addr) ∨ s.g.next ≤ x.addr := by
  intro x hx
  obtain ⟨e, he, rfl⟩ := List.mem_map.1 (hr'.rep.map.mem_iff.1 hx)
  rcases hs.ids e he with ⟨y, hy, hid⟩ | hn
  · exact .inl ⟨y.node, hr.rep.map.mem_iff.2 (List.mem_map.2 ⟨y, hy, rfl⟩), hid⟩
  · right
    rw [hr.g]
    exact hn

theorem ctorBody_sim (hO : NoListFault O) (ctor : Ctor K V) :
    ∃ m', Sim (Impl.ctorBody O ctor) m' ∧ Keeps m' := by
  cases ctor with
  | default => exact ⟨_, RSim.pure (fun _ _ => trivial), .pure⟩
  | sized n => exact ⟨_, RSim.pure (fun _ _ => trivial), .pure⟩
  | sizedItems n l => exact ⟨_, insertRange_sim hO, insertRange_keeps hO⟩
  | items l => exact ⟨_, insertRange_sim hO, insertRange_keeps hO⟩
  | initList l => exact ⟨_, insertRange_sim hO, insertRange_keeps hO⟩
  | sizedRangeMove n l => exact ⟨_, insertRangeMove_sim hO, insertRangeMove_keeps hO⟩
  | rangeMove l => exact ⟨_, insertRangeMove_sim hO, insertRangeMove_keeps hO⟩

/-- The list-machine counterpart of a new cache. -/
def MCache.new (kind : Kind) (n : Nat) : MCache K V := ⟨[], none, some n, kind, {}⟩

theorem empty_rel (kind : Kind) (n : Nat) {g : Shared K V} (h : ∀ x ∈ g.ext, x.addr < g.next) :
    Rel (⟨Impl.emptyCache kind n, g⟩ : St (Cache K V) K V) ⟨MCache.new kind n, g⟩ ∧
      Ok (⟨MCache.new kind n, g⟩ : St (MCache K V) K V) := by
  have w : AWF (MCache.new kind n : MCache K V) g :=
    ⟨by simp [MCache.new], by simp [MCache.new], by simp [MCache.new], by simp [MCache.new], by simp [MCache.new],
      by simp [MCache.new], by simp [MCache.new], by simp [MCache.new], by simp [MCache.new], by simp [MCache.new], h⟩
  exact ⟨⟨⟨rfl, List.Perm.refl _, rfl, rfl, rfl, rfl⟩, rfl, w⟩, ⟨w, ⟨by simp [MCache.new], by simp [MCache.new]⟩⟩⟩

theorem getCache_cases (i : Nat) (w : World K V) :
    (∃ c, w.caches[i]? = some (some c) ∧ Impl.getCache i w = .ok c w) ∨ Impl.getCache i w = .ub := by
  unfold Impl.getCache
  rcases h : w.caches[i]? with _ | _ | c
  · exact .inr rfl
  · exact .inr rfl
  · exact .inl ⟨c, rfl, rfl⟩

theorem ret_post {σ α : Type} {m : M σ α} {f : α → Res K V} {w : σ} {P : σ → Prop} (h : (m w).Post P) :
    (Impl.ret m f w).Post P := by
  show (M.bind m _ w).Post P
  unfold M.bind
  cases hm : m w <;> rw [hm] at h <;> first | exact h | trivial

end steps

end LRU
