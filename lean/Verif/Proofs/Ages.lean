import Verif.Spec.Textbook
import Verif.Proofs.Rep
/-!
# The textbook LRU map lists its items by last use

Facts about `Lru` alone.
-/

set_option linter.unusedSectionVars false
set_option autoImplicit false

namespace LRU

variable {K V : Type} [KeyEqual K]

theorem keq_congr {a b : K} (h : keq a b = true) (c : K) : keq c a = keq c b := by
  cases h1 : keq c a with
  | true => exact (KeyEqual.trans _ _ _ h1 h).symm
  | false =>
    cases h2 : keq c b with
    | false => rfl
    | true =>
      have := KeyEqual.trans _ _ _ h2 (by rw [keq_comm]; exact h)
      rw [h1] at this
      cases this

theorem age_snoc (log : List K) (k k' : K) :
    age (log ++ [k]) k' = if keq k k' then 0 else age log k' + 1 := by
  unfold age
  rw [List.reverse_append, List.reverse_singleton, List.singleton_append, List.findIdx_cons]
  cases keq k k' <;> rfl

theorem age_congr (log : List K) {a b : K} (h : keq a b = true) : age log a = age log b := by
  unfold age
  congr 1
  funext x
  exact keq_congr h x

theorem latest_snoc (log : List (K × V)) (k : K) (v : V) (k' : K) :
    latest (log ++ [(k, v)]) k' = if keq k k' then some v else latest log k' := by
  unfold latest
  rw [List.reverse_append, List.reverse_singleton, List.singleton_append, List.find?_cons]
  cases h : keq k k' <;> simp

theorem latest_congr (log : List (K × V)) {a b : K} (h : keq a b = true) : latest log a = latest log b := by
  unfold latest
  have : (fun x : K × V => keq x.1 a) = fun x => keq x.1 b := funext fun x => keq_congr h x.1
  rw [this]

/-- The number of items is bounded by the capacity; without a capacity there are none. -/
def Lru.WF (l : Lru K V) : Prop :=
  match l.capacity with
  | none => l.items = []
  | some n => l.items.length ≤ n

theorem Lru.WF.sublist {l : Lru K V} (h : l.WF) {r : List (K × V)} (hr : r.Sublist l.items) :
    (⟨l.capacity, r⟩ : Lru K V).WF := by
  unfold Lru.WF at *
  cases hc : l.capacity with
  | none => simp only [hc] at h ⊢; rw [h] at hr; exact List.sublist_nil.1 hr
  | some n => simp only [hc] at h ⊢; exact Nat.le_trans hr.length_le h

theorem filter_length_lt {α : Type} {p : α → Bool} {l : List α} {x : α} (hx : x ∈ l) (hp : p x = false) :
    (l.filter p).length < l.length := by
  rw [List.length_filter_lt_length_iff_exists]
  exact ⟨x, hx, by simp [hp]⟩

theorem Lru.item_mem {l : Lru K V} {k : K} {x : K × V} (h : l.item k = some x) : x ∈ l.items ∧ keq x.1 k = true :=
  ⟨List.mem_of_find?_eq_some h, List.find?_some (p := fun x : K × V => keq x.1 k) h⟩

theorem Lru.others_length {l : Lru K V} {k : K} {x : K × V} (h : l.item k = some x) :
    (l.others k).length < l.items.length := by
  obtain ⟨h1, h2⟩ := Lru.item_mem h
  exact filter_length_lt h1 (by simp [h2])

theorem Lru.WF.act {l : Lru K V} (h : l.WF) (a : Act K V) : (l.act a).WF := by
  cases a with
  | put k v =>
    unfold Lru.act
    cases hc : l.capacity with
    | none => exact h
    | some n =>
      cases n with
      | zero => exact h
      | succ n =>
        have hl : l.items.length ≤ n + 1 := by simpa only [Lru.WF, hc] using h
        cases hx : l.item k with
        | some x =>
          have := Lru.others_length hx
          simp only [hx, Lru.WF, List.length_append, List.length_singleton]
          omega
        | none =>
          simp only [hx, Lru.WF, List.length_append, List.length_singleton]
          split
          · omega
          · rw [List.length_tail]; omega
  | use k =>
    cases hx : l.item k with
    | none => simp only [Lru.act, hx]; exact h
    | some x =>
      simp only [Lru.act, hx]
      have h1 := Lru.others_length hx
      unfold Lru.WF at *
      cases hc : l.capacity with
      | none => simp only [hc] at h; rw [h] at h1; cases h1
      | some n => simp only [hc, List.length_append, List.length_singleton] at h ⊢; omega
  | set k v =>
    unfold Lru.WF at *
    cases hc : l.capacity with
    | none => simp only [hc] at h; simp [Lru.act, hc, h]
    | some n => simp only [hc] at h; simpa [Lru.act, hc] using h
  | remove k => exact h.sublist List.filter_sublist
  | empty => exact h.sublist (List.nil_sublist _)
  | keep n => exact h.sublist (List.drop_sublist _ _)
  | limit n => simp only [Lru.act, Lru.WF, List.length_drop]; omega
  | raise n =>
    unfold Lru.act
    cases hc : l.capacity with
    | none => exact h
    | some m =>
      have hl : l.items.length ≤ m := by simpa only [Lru.WF, hc] using h
      simp only [Lru.WF]
      omega

/-- What storing and using do to the items: the item for the key goes to the end. -/
inductive Touched (k : K) (l l' : List (K × V)) (y : K × V) : Prop
  | intro (r : List (K × V)) : l' = r ++ [y] → r.Sublist l → (∀ x ∈ r, keq x.1 k = false) → keq y.1 k = true →
      Touched k l l' y

theorem Lru.others_ne {l : Lru K V} {k : K} : ∀ x ∈ l.others k, keq x.1 k = false := by
  intro x hx
  have := (List.mem_filter.1 hx).2
  simpa using this

theorem Lru.item_none {l : Lru K V} {k : K} (h : l.item k = none) : ∀ x ∈ l.items, keq x.1 k = false := by
  intro x hx
  have := List.find?_eq_none.1 h x hx
  simpa using this

theorem Lru.use_touched (l : Lru K V) (k : K) :
    ((l.act (.use k)).items = l.items ∧ ∀ x ∈ l.items, keq x.1 k = false) ∨
    ∃ y ∈ l.items, Touched k l.items (l.act (.use k)).items y := by
  cases hx : l.item k with
  | none => exact .inl ⟨by simp only [Lru.act, hx], Lru.item_none hx⟩
  | some x =>
    obtain ⟨h1, h2⟩ := Lru.item_mem hx
    exact .inr ⟨x, h1, l.others k, by simp only [Lru.act, hx], List.filter_sublist, Lru.others_ne, h2⟩

theorem Lru.put_touched {l : Lru K V} (h : l.WF) (k : K) (v : V) :
    ((l.act (.put k v)).items = [] ∧ l.items = []) ∨
    ∃ y, y.2 = v ∧ Touched k l.items (l.act (.put k v)).items y := by
  unfold Lru.act
  cases hc : l.capacity with
  | none => simp only [Lru.WF, hc] at h; exact .inl ⟨h, h⟩
  | some n =>
    cases n with
    | zero =>
      simp only [Lru.WF, hc, Nat.le_zero, List.length_eq_zero_iff] at h
      exact .inl ⟨h, h⟩
    | succ n =>
      right
      cases hx : l.item k with
      | some x =>
        obtain ⟨h1, h2⟩ := Lru.item_mem hx
        exact ⟨(x.1, v), rfl, l.others k, by simp only [hx], List.filter_sublist, Lru.others_ne, h2⟩
      | none =>
        refine ⟨(k, v), rfl, if l.items.length ≤ n then l.items else l.items.tail, by simp only [hx], ?_, ?_,
          KeyEqual.refl _⟩
        · split
          · exact List.Sublist.refl _
          · exact List.tail_sublist _
        · intro x hx'
          refine Lru.item_none hx x ?_
          split at hx'
          · exact hx'
          · exact List.mem_of_mem_tail hx'

/-- Items last used longer ago come first; every item was used. -/
structure Recent (items : List (K × V)) (log : List K) : Prop where
  sorted : items.Pairwise (fun a b => age log b.1 < age log a.1)
  used : ∀ x ∈ items, log.any (fun k => keq k x.1) = true

theorem Recent.sublist {l r : List (K × V)} {log : List K} (h : Recent l log) (hr : r.Sublist l) : Recent r log :=
  ⟨h.sorted.sublist hr, fun x hx => h.used x (hr.subset hx)⟩

theorem Recent.map {l : List (K × V)} {log : List K} (h : Recent l log) {f : K × V → K × V}
    (hf : ∀ x, (f x).1 = x.1) : Recent (l.map f) log := by
  refine ⟨?_, ?_⟩
  · rw [List.pairwise_map]
    exact h.sorted.imp fun {a b} hab => by rw [hf, hf]; exact hab
  · intro x hx
    obtain ⟨y, hy, rfl⟩ := List.mem_map.1 hx
    rw [hf]
    exact h.used y hy

theorem Recent.skip {l : List (K × V)} {log : List K} (h : Recent l log) {k : K} (hk : ∀ x ∈ l, keq x.1 k = false) :
    Recent l (log ++ [k]) := by
  refine ⟨?_, fun x hx => by rw [List.any_append, h.used x hx]; rfl⟩
  refine h.sorted.imp_of_mem fun {a b} ha hb hab => ?_
  rw [age_snoc, age_snoc, keq_comm k a.1, hk a ha, keq_comm k b.1, hk b hb]
  simpa using hab

theorem Recent.touched {l l' : List (K × V)} {log : List K} (h : Recent l log) {k : K} {y : K × V}
    (ht : Touched k l l' y) : Recent l' (log ++ [k]) := by
  obtain ⟨r, rfl, hr, hne, hy⟩ := ht
  have h1 := (h.sublist hr).skip hne
  refine ⟨?_, ?_⟩
  · rw [List.pairwise_append]
    refine ⟨h1.sorted, List.pairwise_singleton _ _, ?_⟩
    intro a ha b hb
    rw [List.mem_singleton] at hb
    subst hb
    rw [age_snoc, age_snoc, keq_comm k b.1, hy, if_pos rfl, keq_comm k a.1, hne a ha]
    simp
  · intro x hx
    rcases List.mem_append.1 hx with hx | hx
    · exact h1.used x hx
    · rw [List.mem_singleton] at hx
      subst hx
      rw [List.any_append]
      simp [keq_comm k x.1, hy]

theorem uses_snoc (acts : List (Act K V)) (a : Act K V) : uses (acts ++ [a]) = uses acts ++ uses [a] := by
  unfold uses; rw [List.filterMap_append]

theorem writes_snoc (acts : List (Act K V)) (a : Act K V) : writes (acts ++ [a]) = writes acts ++ writes [a] := by
  unfold writes; rw [List.filterMap_append]

theorem Recent.act {l : Lru K V} {log : List K} (hw : l.WF) (h : Recent l.items log) (a : Act K V) :
    Recent (l.act a).items (log ++ uses [a]) := by
  cases a with
  | put k v =>
    rcases Lru.put_touched hw k v with ⟨h1, _⟩ | ⟨y, _, h1⟩
    · rw [h1]; exact ⟨List.Pairwise.nil, by simp⟩
    · exact h.touched h1
  | use k =>
    rcases Lru.use_touched l k with ⟨h1, h2⟩ | ⟨y, _, h1⟩
    · rw [h1]; exact h.skip h2
    · exact h.touched h1
  | set k v =>
    show Recent _ (log ++ [])
    rw [List.append_nil]
    exact h.map (f := fun x => if keq x.1 k then (x.1, v) else x) fun x => by split <;> rfl
  | remove k =>
    show Recent _ (log ++ [])
    rw [List.append_nil]
    exact h.sublist List.filter_sublist
  | empty =>
    show Recent _ (log ++ [])
    rw [List.append_nil]
    exact h.sublist (List.nil_sublist _)
  | keep n =>
    show Recent _ (log ++ [])
    rw [List.append_nil]
    exact h.sublist (List.drop_sublist _ _)
  | limit n =>
    show Recent _ (log ++ [])
    rw [List.append_nil]
    exact h.sublist (List.drop_sublist _ _)
  | raise n =>
    show Recent _ (log ++ [])
    rw [List.append_nil]
    unfold Lru.act
    cases l.capacity <;> exact h

/-- Every item has the value last written for its key. -/
def Fresh (items : List (K × V)) (log : List (K × V)) : Prop := ∀ x ∈ items, latest log x.1 = some x.2

theorem Fresh.sublist {l r log : List (K × V)} (h : Fresh l log) (hr : r.Sublist l) : Fresh r log :=
  fun x hx => h x (hr.subset hx)

theorem Fresh.act {l : Lru K V} {log : List (K × V)} (hw : l.WF) (h : Fresh l.items log) (a : Act K V) :
    Fresh (l.act a).items (log ++ writes [a]) := by
  cases a with
  | put k v =>
    show Fresh _ (log ++ [(k, v)])
    rcases Lru.put_touched hw k v with ⟨h1, _⟩ | ⟨y, hv, r, h1, h2, h3, h4⟩
    · rw [h1]; intro x hx; cases hx
    · rw [h1]
      intro x hx
      rw [latest_snoc]
      rcases List.mem_append.1 hx with hx | hx
      · rw [keq_comm, h3 x hx]
        exact h x (h2.subset hx)
      · rw [List.mem_singleton] at hx
        subst hx
        rw [keq_comm, h4, hv]
        rfl
  | use k =>
    show Fresh _ (log ++ [])
    rw [List.append_nil]
    rcases Lru.use_touched l k with ⟨h1, h2⟩ | ⟨y, hy, r, h1, h2, _, _⟩
    · rw [h1]; exact h
    · rw [h1]
      intro x hx
      rcases List.mem_append.1 hx with hx | hx
      · exact h x (h2.subset hx)
      · rw [List.mem_singleton] at hx
        subst hx
        exact h x hy
  | set k v =>
    show Fresh _ (log ++ [(k, v)])
    intro x hx
    obtain ⟨y, hy, rfl⟩ := List.mem_map.1 hx
    rw [latest_snoc]
    cases hk : keq y.1 k with
    | true =>
      rw [if_pos rfl, keq_comm, if_pos hk]
    | false =>
      have : keq k y.1 = false := by rw [keq_comm]; exact hk
      simp only [Bool.false_eq_true, if_false, this]
      exact h y hy
  | remove k =>
    show Fresh _ (log ++ [])
    rw [List.append_nil]
    exact h.sublist List.filter_sublist
  | empty =>
    show Fresh _ (log ++ [])
    rw [List.append_nil]
    exact h.sublist (List.nil_sublist _)
  | keep n =>
    show Fresh _ (log ++ [])
    rw [List.append_nil]
    exact h.sublist (List.drop_sublist _ _)
  | limit n =>
    show Fresh _ (log ++ [])
    rw [List.append_nil]
    exact h.sublist (List.drop_sublist _ _)
  | raise n =>
    show Fresh _ (log ++ [])
    rw [List.append_nil]
    unfold Lru.act
    cases l.capacity <;> exact h

theorem Lru.WF.run {l : Lru K V} (h : l.WF) (acts : List (Act K V)) : (l.run acts).WF := by
  induction acts generalizing l with
  | nil => exact h
  | cons a acts ih => exact ih (h.act a)

theorem Recent.run {l : Lru K V} {log : List K} (hw : l.WF) (h : Recent l.items log) (acts : List (Act K V)) :
    Recent (l.run acts).items (log ++ uses acts) := by
  induction acts generalizing l log with
  | nil => show Recent _ (log ++ []); rw [List.append_nil]; exact h
  | cons a acts ih =>
    have := ih (hw.act a) (h.act hw a)
    rw [List.append_assoc] at this
    have e : uses (a :: acts) = uses [a] ++ uses acts := by
      unfold uses; rw [← List.filterMap_append]; rfl
    rw [e]
    exact this

theorem Fresh.run {l : Lru K V} {log : List (K × V)} (hw : l.WF) (h : Fresh l.items log) (acts : List (Act K V)) :
    Fresh (l.run acts).items (log ++ writes acts) := by
  induction acts generalizing l log with
  | nil => show Fresh _ (log ++ []); rw [List.append_nil]; exact h
  | cons a acts ih =>
    have := ih (hw.act a) (h.act hw a)
    rw [List.append_assoc] at this
    have e : writes (a :: acts) = writes [a] ++ writes acts := by
      unfold writes; rw [← List.filterMap_append]; rfl
    rw [e]
    exact this

theorem rev_ind {α : Type} {P : List α → Prop} (h0 : P []) (h1 : ∀ l x, P l → P (l ++ [x])) (l : List α) : P l := by
  have : ∀ r : List α, P r.reverse := by
    intro r
    induction r with
    | nil => exact h0
    | cons x r ih => rw [List.reverse_cons]; exact h1 _ _ ih
  rw [← List.reverse_reverse l]
  exact this _

/-- Items with distinct keys, used in this order. -/
theorem Recent.self {l : List (K × V)} (h : l.Pairwise (fun a b => keq a.1 b.1 = false)) : Recent l (l.map (·.1)) := by
  induction l using rev_ind with
  | h0 => exact ⟨List.Pairwise.nil, by simp⟩
  | h1 l y ih =>
    rw [List.pairwise_append] at h
    rw [List.map_append]
    refine (ih h.1).touched ⟨l, rfl, List.Sublist.refl _, ?_, KeyEqual.refl _⟩
    intro x hx
    exact h.2.2 x hx y (List.mem_singleton_self _)

theorem Fresh.self {l : List (K × V)} (h : l.Pairwise (fun a b => keq a.1 b.1 = false)) : Fresh l l := by
  induction l using rev_ind with
  | h0 => intro x hx; cases hx
  | h1 l y ih =>
    rw [List.pairwise_append] at h
    intro x hx
    rw [latest_snoc]
    rcases List.mem_append.1 hx with hx | hx
    · rw [keq_comm, h.2.2 x hx y (List.mem_singleton_self _)]
      exact ih h.1 x hx
    · rw [List.mem_singleton] at hx
      subst hx
      rw [KeyEqual.refl]
      rfl

end LRU
