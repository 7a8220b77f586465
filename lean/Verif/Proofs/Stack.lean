import Verif.Spec.Stack
import Verif.Proofs.Ages
import Verif.Proofs.Refine
/-!
# Lists of recently used keys
-/

set_option linter.unusedSectionVars false
set_option autoImplicit false

namespace LRU

variable {K V : Type} [KeyEqual K]

theorem keq_comm' (a b : K) : keq a b = keq b a := KeyEqual.symm a b

theorem keq_left {a b c : K} (h : keq a b = true) : keq a c = keq b c := by
  cases hb : keq b c with
  | true => exact KeyEqual.trans _ _ _ h hb
  | false =>
    cases ha : keq a c with
    | false => rfl
    | true => exact absurd (KeyEqual.trans _ _ _ (KeyEqual.symm a b ▸ h) ha) (by rw [hb]; simp)

theorem recent_mem {k : K} {l : List K} (h : k ∈ recent l) : k ∈ l := by
  induction l with
  | nil => exact h
  | cons a l ih =>
    rcases List.mem_cons.1 h with h | h
    · exact List.mem_cons.2 (.inl h)
    · exact List.mem_cons.2 (.inr (ih (List.mem_filter.1 h).1))

theorem recent_distinct (l : List K) : (recent l).Pairwise (fun a b => keq a b = false) := by
  induction l with
  | nil => exact .nil
  | cons a l ih =>
    refine List.pairwise_cons.2 ⟨fun b hb => ?_, ih.filter _⟩
    have := (List.mem_filter.1 hb).2
    rw [KeyEqual.symm]
    simpa using this

/-- A key that occurs is among the recent ones. -/
theorem recent_has {k : K} {l : List K} (h : ∃ a ∈ l, keq a k = true) : ∃ a ∈ recent l, keq a k = true := by
  induction l with
  | nil => exact h
  | cons b l ih =>
    by_cases hb : keq b k = true
    · exact ⟨b, List.mem_cons_self .., hb⟩
    · obtain ⟨a, ha, hk⟩ := h
      rcases List.mem_cons.1 ha with rfl | ha
      · exact absurd hk hb
      · obtain ⟨a', ha', hk'⟩ := ih ⟨a, ha, hk⟩
        refine ⟨a', List.mem_cons_of_mem _ (List.mem_filter.2 ⟨ha', ?_⟩), hk'⟩
        cases hc : keq a' b with
        | false => rfl
        | true => rw [keq_left hc] at hk'; exact absurd hk' hb

theorem filter_none {k : K} {l : List K} (h : ∀ a ∈ l, keq a k = false) : l.filter (fun x => !keq x k) = l :=
  List.filter_eq_self.2 (fun a ha => by rw [h a ha]; rfl)

/-- Taking out a key that is among the first. -/
theorem take_filter_in {k : K} : ∀ (n : Nat) {l : List K}, l.Pairwise (fun a b => keq a b = false) →
    (∃ a ∈ l.take (n + 1), keq a k = true) →
    (l.take (n + 1)).filter (fun x => !keq x k) = (l.filter (fun x => !keq x k)).take n := by
  intro n
  induction n with
  | zero =>
    intro l hl h
    obtain ⟨a, ha, hk⟩ := h
    cases l with
    | nil => cases ha
    | cons b l =>
      simp only [List.take_succ_cons, List.take_zero, List.mem_cons, List.not_mem_nil, or_false] at ha
      subst ha
      simp [hk]
  | succ n ih =>
    intro l hl h
    cases l with
    | nil => rfl
    | cons b l =>
      by_cases hb : keq b k = true
      · have h1 : ∀ a ∈ l, keq a k = false := by
          intro a ha
          have := (List.pairwise_cons.1 hl).1 a ha
          rw [keq_left hb, KeyEqual.symm] at this
          exact this
        rw [List.take_succ_cons, List.filter_cons_of_neg (by simp [hb]), List.filter_cons_of_neg (by simp [hb]),
          filter_none h1, filter_none (fun a ha => h1 a (List.mem_of_mem_take ha))]
      · have hb' : (!keq b k) = true := by simp [hb]
        rw [List.take_succ_cons, List.filter_cons_of_pos (by exact hb'), List.filter_cons_of_pos (by exact hb'),
          List.take_succ_cons]
        congr 1
        refine ih (List.pairwise_cons.1 hl).2 ?_
        obtain ⟨a, ha, hk⟩ := h
        rw [List.take_succ_cons] at ha
        rcases List.mem_cons.1 ha with rfl | ha
        · exact absurd hk hb
        · exact ⟨a, ha, hk⟩

/-- Taking out a key that is not among the first. -/
theorem take_filter_out {k : K} : ∀ (n : Nat) {l : List K}, (∀ a ∈ l.take n, keq a k = false) →
    (l.filter (fun x => !keq x k)).take n = l.take n := by
  intro n
  induction n with
  | zero => intro l _; rfl
  | succ n ih =>
    intro l h
    cases l with
    | nil => rfl
    | cons b l =>
      rw [List.take_succ_cons] at h
      have hb := h b (List.mem_cons_self ..)
      rw [List.filter_cons_of_pos (by rw [hb]; rfl), List.take_succ_cons, List.take_succ_cons,
        ih (fun a ha => h a (List.mem_cons_of_mem _ ha))]

theorem SameKeys.refl : ∀ (l : List K), SameKeys l l
  | [] => trivial
  | a :: l => ⟨KeyEqual.refl a, SameKeys.refl l⟩

theorem SameKeys.length {l m : List K} (h : SameKeys l m) : l.length = m.length := by
  induction l generalizing m with
  | nil => cases m with
    | nil => rfl
    | cons => exact h.elim
  | cons a l ih => cases m with
    | nil => exact h.elim
    | cons b m => simp [ih h.2]

theorem SameKeys.any {l m : List K} (h : SameKeys l m) (k : K) :
    (∃ a ∈ l, keq a k = true) ↔ ∃ b ∈ m, keq b k = true := by
  induction l generalizing m with
  | nil => cases m with
    | nil => rfl
    | cons => exact h.elim
  | cons a l ih => cases m with
    | nil => exact h.elim
    | cons b m =>
      have h1 := keq_left (c := k) h.1
      simp only [List.mem_cons, exists_eq_or_imp, h1, ih h.2]

theorem SameKeys.take {l m : List K} (h : SameKeys l m) (n : Nat) : SameKeys (l.take n) (m.take n) := by
  induction l generalizing m n with
  | nil => cases m with
    | nil => exact .refl _
    | cons => exact h.elim
  | cons a l ih => cases m with
    | nil => exact h.elim
    | cons b m => cases n with
      | zero => trivial
      | succ n => exact ⟨h.1, ih h.2 n⟩

theorem SameKeys.without {l m : List K} (h : SameKeys l m) (k : K) :
    SameKeys (l.filter (fun x => !keq x k)) (m.filter (fun x => !keq x k)) := by
  induction l generalizing m with
  | nil => cases m with
    | nil => exact .refl _
    | cons => exact h.elim
  | cons a l ih => cases m with
    | nil => exact h.elim
    | cons b m =>
      have h1 := keq_left (c := k) h.1
      cases hb : keq b k with
      | true => simp only [List.filter_cons, h1, hb]; exact ih h.2
      | false => simp only [List.filter_cons, h1, hb]; exact ⟨h.1, ih h.2⟩

/-- Keys of the items, most recently used first. -/
def Lru.newest (l : Lru K V) : List K := (l.items.map (·.1)).reverse

theorem newest_asLru (c : Cache K V) : (asLru c).newest = newestKeys c := rfl

theorem Lru.item_iff (l : Lru K V) (k : K) : (∃ y, l.item k = some y) ↔ ∃ a ∈ l.newest, keq a k = true := by
  constructor
  · rintro ⟨y, hy⟩
    obtain ⟨h1, h2⟩ := Lru.item_mem hy
    exact ⟨y.1, List.mem_reverse.2 (List.mem_map.2 ⟨y, h1, rfl⟩), h2⟩
  · rintro ⟨a, ha, hk⟩
    obtain ⟨y, hy, rfl⟩ := List.mem_map.1 (List.mem_reverse.1 ha)
    cases hi : l.item k with
    | some z => exact ⟨z, rfl⟩
    | none => have := Lru.item_none hi y hy; rw [this] at hk; cases hk

theorem newest_others (l : Lru K V) (k : K) :
    ((l.others k).map (·.1)).reverse = l.newest.filter (fun x => !keq x k) := by
  unfold Lru.others Lru.newest
  rw [List.filter_reverse, List.filter_map]
  rfl

/-- The map of capacity `n` holds the `n` most recently used keys. -/
def Lru.Top (l : Lru K V) (n : Nat) (ks : List K) : Prop := l.capacity = some n ∧ SameKeys l.newest ((recent ks).take n)

theorem Lru.Top.touch_old {l : Lru K V} {n : Nat} {ks : List K} (h : l.Top n ks) {k : K} {y : K × V}
    (hy : l.item k = some y) (v : V) :
    SameKeys ((l.others k ++ [(y.1, v)]).map (·.1)).reverse ((recent (k :: ks)).take n) := by
  have h0 := (h.2.any k).1 ((l.item_iff k).1 ⟨y, hy⟩)
  cases n with
  | zero => obtain ⟨a, ha, _⟩ := h0; simp at ha
  | succ n =>
    have h1 := h.2.without k
    rw [take_filter_in n (recent_distinct ks) h0, ← newest_others] at h1
    simp only [List.map_append, List.map_cons, List.map_nil, List.reverse_append, List.reverse_cons, List.reverse_nil,
      List.nil_append, List.cons_append, recent, List.take_succ_cons]
    exact ⟨(Lru.item_mem hy).2, h1⟩

theorem Lru.Top.use {l : Lru K V} {n : Nat} {ks : List K} (h : l.Top n ks) {k : K} {y : K × V}
    (hy : l.item k = some y) : (l.act (.use k)).Top n (k :: ks) := by
  rw [Lru.use_old hy]
  exact ⟨h.1, h.touch_old hy y.2⟩

theorem Lru.Top.put {l : Lru K V} {n : Nat} {ks : List K} (h : l.Top n ks) (k : K) (v : V) :
    (l.act (.put k v)).Top n (k :: ks) := by
  cases n with
  | zero =>
    rw [Lru.put_zero h.1]
    refine ⟨h.1, ?_⟩
    have := h.2
    simp only [List.take_zero] at this ⊢
    exact this
  | succ n =>
    cases hy : l.item k with
    | some y =>
      rw [Lru.put_old h.1 hy]
      exact ⟨h.1, h.touch_old hy v⟩
    | none =>
      rw [Lru.put_new h.1 hy]
      refine ⟨h.1, ?_⟩
      have h0 : ∀ a ∈ (recent ks).take (n + 1), keq a k = false := by
        intro a ha
        cases hk : keq a k with
        | false => rfl
        | true =>
          obtain ⟨y, h1⟩ := (l.item_iff k).2 ((h.2.any k).2 ⟨a, ha, hk⟩)
          rw [hy] at h1
          cases h1
      have h1 := h.2.take n
      rw [List.take_take, Nat.min_eq_left (Nat.le_succ n)] at h1
      rw [← take_filter_out (k := k) (l := recent ks) n (fun a ha => h0 a (by
        have := List.take_prefix_take_left (l := recent ks) (Nat.le_succ n)
        exact this.subset ha))] at h1
      have h2 : (((if l.items.length ≤ n then l.items else l.items.tail) ++ [(k, v)]).map (·.1)).reverse =
          k :: l.newest.take n := by
        have h3 : l.newest.length ≤ n + 1 := by rw [h.2.length]; simp; omega
        unfold Lru.newest at h3 ⊢
        simp only [List.length_reverse, List.length_map] at h3
        simp only [List.map_append, List.map_cons, List.map_nil, List.reverse_append, List.reverse_cons,
          List.reverse_nil, List.nil_append, List.cons_append]
        congr 1
        by_cases hn : l.items.length ≤ n
        · rw [if_pos hn, List.take_of_length_le (by simpa using hn)]
        · rw [if_neg hn, List.take_reverse]
          congr 1
          rw [List.length_map, show l.items.length - n = 1 by omega, List.map_tail, List.drop_one]
      unfold Lru.newest
      simp only [h2, recent, List.take_succ_cons]
      exact ⟨KeyEqual.refl k, h1⟩

end LRU
