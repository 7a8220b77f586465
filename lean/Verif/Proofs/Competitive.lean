import Verif.Spec.Competitive
import Verif.Proofs.Examples
import Verif.Props.History
/-!
# Serving requests: lemmas for `Props.Competitive`

The usual potential argument. The keys of the cache have weights, the most recently used one the capacity, the next one
less, and so on; `worth` adds up the weights of the keys that the competitor holds as well.
-/

set_option linter.unusedSectionVars false
set_option autoImplicit false

namespace LRU

variable {K V : Type} [KeyEqual K] [DecidableEq K] [DecidableEq V] {O : Oracle K V} {s s' : St (Cache K V) K V}
  {k : K} {S S' : List K} {f g : K → Bool}

/-- `n` for the first, `n - 1` for the second, ... -/
def worth (f : K → Bool) : Nat → List K → Nat
  | _, [] => 0
  | n, x :: R => (if f x then n else 0) + worth f (n - 1) R

theorem worth_append (f : K → Bool) : ∀ n (A B : List K), worth f n (A ++ B) = worth f n A + worth f (n - A.length) B
  | n, [], B => by simp [worth]
  | n, a :: A, B => by
    have h : n - 1 - A.length = n - (A.length + 1) := by omega
    simp only [List.cons_append, worth, List.length_cons, worth_append f (n - 1) A B, h]
    omega

theorem worth_less (f : K → Bool) : ∀ n (R : List K), worth f n R ≤ worth f (n - 1) R + R.countP f
  | n, [] => by simp [worth]
  | n, x :: R => by
    have h := worth_less f (n - 1) R
    simp only [worth, List.countP_cons]
    cases hx : f x <;> simp <;> omega

theorem worth_le (f : K → Bool) : ∀ n (R : List K), worth f n R ≤ n * R.countP f
  | n, [] => by simp [worth]
  | n, x :: R => by
    have h := worth_le f (n - 1) R
    have h1 : (n - 1) * R.countP f ≤ n * R.countP f := Nat.mul_le_mul_right _ (Nat.sub_le _ _)
    simp only [worth, List.countP_cons]
    cases hx : f x <;> simp [Nat.mul_add] <;> omega

/-- When the competitor gives up keys. -/
theorem worth_drop (f g : K → Bool) : ∀ n (R : List K), worth f n R ≤ worth g n R + n * R.countP (fun x => f x && !g x)
  | n, [] => by simp [worth]
  | n, x :: R => by
    have h := worth_drop f g (n - 1) R
    have h1 : (n - 1) * R.countP (fun x => f x && !g x) ≤ n * R.countP (fun x => f x && !g x) :=
      Nat.mul_le_mul_right _ (Nat.sub_le _ _)
    simp only [worth, List.countP_cons]
    cases hx : f x <;> cases hy : g x <;> simp [Nat.mul_add] <;> omega

/-- When a key that both hold is used. -/
theorem worth_use (f : K → Bool) (k : K) : ∀ n (R : List K), R.Pairwise (fun a b => keq a b = false) →
    (∃ y ∈ R, keq y k = true) → worth f n R ≤ n + worth f (n - 1) (R.filter fun x => !keq x k)
  | n, [], _, h => by obtain ⟨y, hy, _⟩ := h; cases hy
  | n, y :: T, hp, h => by
    obtain ⟨h1, h2⟩ := List.pairwise_cons.1 hp
    cases hy : keq y k with
    | true =>
      have hT : T.filter (fun x => !keq x k) = T := List.filter_eq_self.2 fun x hx => by
        cases hx' : keq x k with
        | false => rfl
        | true =>
          have := KeyEqual.trans _ _ _ hy ((KeyEqual.symm _ _).trans hx')
          rw [h1 x hx] at this
          cases this
      rw [List.filter_cons_of_neg (by simp [hy]), hT]
      simp only [worth]
      split <;> omega
    | false =>
      have hex : ∃ y ∈ T, keq y k = true := by
        obtain ⟨z, hz, hzk⟩ := h
        rcases List.mem_cons.1 hz with rfl | hz
        · rw [hy] at hzk; cases hzk
        · exact ⟨z, hz, hzk⟩
      have ih := worth_use f k (n - 1) T h2 hex
      rw [List.filter_cons_of_pos (by simp [hy])]
      simp only [worth]
      split <;> omega

/-- The last of `n + 1` keys is worth nothing after it has moved back by one. -/
theorem worth_dropLast (f : K → Bool) {n : Nat} {R : List K} (h : R.length = n + 1) : worth f n R.dropLast = worth f n R := by
  have hne : R ≠ [] := by intro h0; rw [h0] at h; cases h
  have h1 := worth_append f n R.dropLast [R.getLast hne]
  rw [List.dropLast_concat_getLast hne, List.length_dropLast, h] at h1
  simp only [worth, Nat.add_sub_cancel, Nat.sub_self] at h1
  split at h1 <;> omega

/-! ### Counting different keys -/

theorem holds_iff : holds S k = true ↔ ∃ x ∈ S, keq x k = true := by simp [holds]

theorem holds_congr {a b : K} (h : keq a b = true) : holds S a = true → holds S b = true := by
  rw [holds_iff, holds_iff]
  rintro ⟨x, hx, hk⟩
  exact ⟨x, hx, KeyEqual.trans _ _ _ hk h⟩

/-- Different keys that are all among those of `S` are at most as many. -/
theorem length_le_of_holds : ∀ (A S : List K), A.Pairwise (fun a b => keq a b = false) → (∀ a ∈ A, holds S a = true) →
    A.length ≤ S.length
  | [], S, _, _ => Nat.zero_le _
  | a :: A, S, hp, h => by
    obtain ⟨h1, h2⟩ := List.pairwise_cons.1 hp
    obtain ⟨x, hx, hxa⟩ := holds_iff.1 (h a List.mem_cons_self)
    obtain ⟨S1, S2, rfl⟩ := List.append_of_mem hx
    have := length_le_of_holds A (S1 ++ S2) h2 fun b hb => by
      obtain ⟨y, hy, hyb⟩ := holds_iff.1 (h b (List.mem_cons_of_mem _ hb))
      refine holds_iff.2 ⟨y, ?_, hyb⟩
      rcases List.mem_append.1 hy with hy | hy
      · exact List.mem_append_left _ hy
      · rcases List.mem_cons.1 hy with rfl | hy
        · have := KeyEqual.trans _ _ _ ((KeyEqual.symm _ _).trans hxa) hyb
          rw [h1 b hb] at this
          cases this
        · exact List.mem_append_right _ hy
    simp only [List.length_append, List.length_cons] at this ⊢
    omega

/-- Given up and kept, kept and loaded. -/
theorem drops_loads (hS' : S'.Pairwise (fun a b => keq a b = false)) :
    (S.filter fun k => !holds S' k).length + S'.length ≤ S.length + (S'.filter fun k => !holds S k).length := by
  have h1 := List.length_eq_countP_add_countP (fun k => holds S' k) (l := S)
  have h2 := List.length_eq_countP_add_countP (fun k => holds S k) (l := S')
  have h3 : (S'.filter fun k => holds S k).length ≤ (S.filter fun k => holds S' k).length := by
    refine length_le_of_holds _ _ (hS'.sublist List.filter_sublist) fun a ha => ?_
    obtain ⟨ha, hh⟩ := List.mem_filter.1 ha
    obtain ⟨x, hx, hxa⟩ := holds_iff.1 hh
    refine holds_iff.2 ⟨x, List.mem_filter.2 ⟨hx, holds_iff.2 ⟨a, ha, (KeyEqual.symm _ _).trans hxa⟩⟩, hxa⟩
  simp only [← List.countP_eq_length_filter] at *
  simp only [Bool.not_eq_true, ← Bool.not_eq_true'] at h1 h2
  simp only [Bool.decide_eq_true] at h1 h2
  omega

/-! ### The cache -/

/-- The keys, most recently used first. -/
def Lru.latest (l : Lru K V) : List K := (l.items.map Prod.fst).reverse

theorem item_latest {l : Lru K V} : (l.item k).isSome = true ↔ ∃ y ∈ l.latest, keq y k = true := by
  unfold Lru.item Lru.latest
  rw [List.find?_isSome]
  constructor
  · rintro ⟨x, hx, hk⟩
    exact ⟨x.1, List.mem_reverse.2 (List.mem_map_of_mem hx), hk⟩
  · rintro ⟨y, hy, hk⟩
    obtain ⟨x, hx, rfl⟩ := List.mem_map.1 (List.mem_reverse.1 hy)
    exact ⟨x, hx, hk⟩

theorem use_latest {l : Lru K V} {x : K × V} (h : l.item k = some x) :
    (l.act (.use k)).latest = x.1 :: l.latest.filter (fun y => !keq y k) := by
  rw [Lru.use_old h]
  unfold Lru.latest Lru.others
  simp only [List.map_append, List.map_cons, List.map_nil, List.reverse_append, List.reverse_cons, List.reverse_nil,
    List.nil_append, List.singleton_append]
  rw [List.filter_reverse, List.filter_map]
  rfl

theorem put_latest {l : Lru K V} {n : Nat} {v : V} (hc : l.capacity = some (n + 1)) (h : l.item k = none) :
    (l.act (.put k v)).latest = k :: (if l.latest.length ≤ n then l.latest else l.latest.dropLast) := by
  rw [Lru.put_new hc h]
  unfold Lru.latest
  simp only [List.map_append, List.map_cons, List.map_nil, List.reverse_append, List.reverse_cons, List.reverse_nil,
    List.nil_append, List.singleton_append, List.length_reverse, List.length_map]
  split
  · rfl
  · rw [List.map_tail, ← List.dropLast_reverse]

theorem Plain.latest_distinct (hC : Calm O) {c : Nat} (h : Plain O c s) :
    (asLru s.c).latest.Pairwise (fun a b => keq a b = false) := by
  have h1 := h.reach.distinct hC.noListFault
  unfold Lru.latest asLru
  rw [List.pairwise_reverse, List.pairwise_map]
  exact h1.imp fun h => by rw [KeyEqual.symm]; exact h

theorem Plain.latest_length (hC : Calm O) {c : Nat} (h : Plain O c s) : (asLru s.c).latest.length ≤ c := by
  unfold Lru.latest
  rw [List.length_reverse, List.length_map]
  obtain ⟨t, hr, ht⟩ := h.reach.rel hC.noListFault
  have h1 : (asLru s.c).items.length = count s.c := by simp [asLru, entries, count]
  rw [h1, hr.count]
  exact ht.awf.bound c (by rw [← hr.rep.cap]; exact h.cap)

/-- Using a key that the competitor holds. -/
theorem Plain.worth_access (hC : Calm O) {n : Nat} (h : Plain O n s) {x : K × V} (hx : (asLru s.c).item k = some x)
    (hl : asLru s'.c = (asLru s.c).act (.use k)) (hf : f x.1 = true) :
    worth f n (asLru s.c).latest ≤ worth f n (asLru s'.c).latest := by
  rw [hl, use_latest hx]
  simp only [worth, hf, if_true]
  exact worth_use f k n _ (h.latest_distinct hC) (item_latest.1 (by rw [hx]; rfl))

/-- One request: what a hit and a miss do to the worth of the keys. -/
theorem get_worth (hC : Calm O) {n : Nat} (h : Plain O n s) (fetch : K → V) (hS : holds S k = true) (hn : S.length ≤ n) :
    ∃ v s' m a, Impl.get O fetch k s = .ok v s' ∧ Plain O n s' ∧ Tallies s s' m a ∧
      (n + 1) * m + worth (holds S) n (asLru s.c).latest ≤ worth (holds S) n (asLru s'.c).latest + S.length * m := by
  obtain ⟨s1, h1, p1, l1, t1⟩ := h.contains hC k
  unfold Impl.get
  rw [bind_ok h1]
  cases hx : (asLru s.c).item k with
  | some x =>
    rw [hx] at t1
    have hf : ∀ {y : K × V}, keq y.1 k = true → holds S y.1 = true := fun hy => holds_congr ((KeyEqual.symm _ _).trans hy) hS
    have hx1 : ∃ y, (asLru s1.c).item k = some y := by
      have : ((asLru s1.c).item k).isSome = true := by
        rw [l1, Lru.use_old hx]
        unfold Lru.item
        rw [List.find?_isSome]
        exact ⟨x, by simp, (Lru.item_keq hx).2⟩
      exact Option.isSome_iff_exists.1 this
    obtain ⟨y, hy⟩ := hx1
    obtain ⟨p, s2, h2, p2, l2, t2⟩ := p1.lookup hC hy
    refine ⟨y.2, s2, _, _, ?_, p2, t1.trans t2, ?_⟩
    · simp only [Option.isSome_some, if_true]
      exact bind_ok h2
    · have a1 := h.worth_access hC hx l1 (hf (Lru.item_keq hx).2)
      have a2 := p1.worth_access hC hy l2 (hf (Lru.item_keq hy).2)
      simpa using Nat.le_trans a1 a2
  | none =>
    rw [hx] at t1
    rw [Lru.use_new hx] at l1
    obtain ⟨r, s2, h2, p2, l2, t2⟩ := p1.insert hC k (fetch k)
    refine ⟨fetch k, s2, _, _, ?_, p2, t1.trans t2, ?_⟩
    · simp only [Option.isSome_none, Bool.false_eq_true, if_false]
      exact bind_ok h2
    · rw [l2, l1]
      have hpos : n ≠ 0 := by
        rintro rfl
        have : S = [] := List.length_eq_zero_iff.1 (by omega)
        rw [this] at hS
        cases hS
      obtain ⟨n, rfl⟩ := Nat.exists_eq_succ_of_ne_zero hpos
      rw [put_latest (n := n) h.cap hx]
      have hlen := h.latest_length hC
      have hd := h.latest_distinct hC
      have hnew : ∀ y ∈ (asLru s.c).latest, keq y k = false := fun y hy => by
        cases hyk : keq y k with
        | false => rfl
        | true =>
          have := item_latest.2 ⟨y, hy, hyk⟩
          rw [hx] at this
          cases this
      have hcount : (asLru s.c).latest.countP (holds S) + 1 ≤ S.length := by
        have := length_le_of_holds (k :: (asLru s.c).latest.filter (holds S)) S
          (List.pairwise_cons.2 ⟨fun b hb => by
            rw [KeyEqual.symm]; exact hnew b (List.mem_filter.1 hb).1, hd.sublist List.filter_sublist⟩)
          (fun a ha => by
            rcases List.mem_cons.1 ha with rfl | ha
            · exact hS
            · exact (List.mem_filter.1 ha).2)
        rw [List.countP_eq_length_filter]
        exact this
      have hw := worth_less (holds S) (n + 1) (asLru s.c).latest
      have hsame : worth (holds S) n (if (asLru s.c).latest.length ≤ n then (asLru s.c).latest else (asLru s.c).latest.dropLast) =
          worth (holds S) n (asLru s.c).latest := by
        split
        · rfl
        · exact worth_dropLast _ (by omega)
      simp only [worth, hS, if_true, Nat.add_sub_cancel, Nat.succ_eq_add_one] at *
      rw [hsame]
      simp only [Option.isSome_none, Bool.false_eq_true, if_false, Nat.add_zero, Nat.mul_one]
      omega

theorem serve_worth (hC : Calm O) {n h : Nat} (hh : h ≤ n) (fetch : K → V) : ∀ (ks : List K) (Ss : List (List K)) {S : List K}
    {s : St (Cache K V) K V}, Plain O n s → Schedule h ks Ss →
    ∃ s' m a Z, serve O fetch ks s = .ok () s' ∧ Plain O n s' ∧ Tallies s s' m a ∧
      (n - h + 1) * m + n * Z.length + worth (holds S) n (asLru s.c).latest ≤
        n * loads S Ss + n * S.length + worth (holds Z) n (asLru s'.c).latest
  | [], [], S, s, hp, _ => ⟨s, 0, 0, S, rfl, hp, Tallies.refl, by simp [loads]⟩
  | k :: ks, S' :: Ss, S, s, hp, hs => by
    obtain ⟨h1, h2, h3, h4⟩ := hs
    obtain ⟨v, s1, m1, a1, g1, p1, t1, w1⟩ := get_worth hC hp fetch h3 (Nat.le_trans h1 hh)
    obtain ⟨s2, m2, a2, Z, g2, p2, t2, w2⟩ := serve_worth hC hh fetch ks Ss (S := S') p1 h4
    refine ⟨s2, m1 + m2, a1 + a2, Z, ?_, p2, t1.trans t2, ?_⟩
    · show (Impl.get O fetch k >>= fun _ => serve O fetch ks) s = _
      rw [bind_ok g1]
      exact g2
    · have hdrop := worth_drop (holds S) (holds S') n (asLru s.c).latest
      have hcnt : (asLru s.c).latest.countP (fun x => holds S x && !holds S' x) ≤ (S.filter fun k => !holds S' k).length := by
        rw [List.countP_eq_length_filter]
        refine length_le_of_holds _ _ ((hp.latest_distinct hC).sublist List.filter_sublist) fun a ha => ?_
        obtain ⟨_, ha⟩ := List.mem_filter.1 ha
        simp only [Bool.and_eq_true, Bool.not_eq_true'] at ha
        obtain ⟨x, hx, hxa⟩ := holds_iff.1 ha.1
        refine holds_iff.2 ⟨x, List.mem_filter.2 ⟨hx, ?_⟩, hxa⟩
        cases hxS : holds S' x with
        | false => rfl
        | true => rw [holds_congr hxa hxS] at ha; cases ha.2
      have hdl := drops_loads (S := S) h2
      have e1 : n * ((asLru s.c).latest.countP fun x => holds S x && !holds S' x) ≤ n * (S.filter fun k => !holds S' k).length :=
        Nat.mul_le_mul_left _ hcnt
      have e2 := Nat.mul_le_mul_left n hdl
      have e3 : S'.length * m1 ≤ h * m1 := Nat.mul_le_mul_right _ h1
      have e4 : (n - h + 1) * (m1 + m2) + h * m1 = (n + 1) * m1 + (n - h + 1) * m2 := by
        obtain ⟨d, rfl⟩ := Nat.exists_eq_add_of_le hh
        rw [Nat.add_sub_cancel_left, Nat.mul_add, Nat.add_mul (h + d), Nat.add_mul h, Nat.add_mul d, Nat.one_mul]
        omega
      simp only [loads, Nat.mul_add] at *
      omega
  | [], _ :: _, _, _, _, hs => by cases hs
  | _ :: _, [], _, _, _, hs => by cases hs

theorem serve_misses (hC : Calm O) {n h : Nat} (hh : h ≤ n) (fetch : K → V) {ks : List K} {Ss : List (List K)} {S : List K}
    (hp : Plain O n s) (hs : Schedule h ks Ss) :
    ∃ s' m a, serve O fetch ks s = .ok () s' ∧ Plain O n s' ∧ Tallies s s' m a ∧
      (n - h + 1) * m ≤ n * loads S Ss + n * S.length := by
  obtain ⟨s', m, a, Z, h1, h2, h3, h4⟩ := serve_worth hC hh fetch ks Ss (S := S) hp hs
  refine ⟨s', m, a, h1, h2, h3, ?_⟩
  have e1 := worth_le (holds Z) n (asLru s'.c).latest
  have e2 : (asLru s'.c).latest.countP (holds Z) ≤ Z.length := by
    rw [List.countP_eq_length_filter]
    exact length_le_of_holds _ _ ((h2.latest_distinct hC).sublist List.filter_sublist) fun a ha => (List.mem_filter.1 ha).2
  have e3 := Nat.mul_le_mul_left n e2
  omega

/-! ### The worst case -/

theorem take_push {n : Nat} {k : K} {past : List K} :
    k :: (if (past.take (n + 1)).length ≤ n then past.take (n + 1) else (past.take (n + 1)).dropLast) = (k :: past).take (n + 1) := by
  rw [List.take_succ_cons]
  congr 1
  rw [List.length_take]
  split
  · rename_i h
    have h1 : past.length ≤ n := by omega
    rw [List.take_of_length_le (Nat.le_succ_of_le h1), List.take_of_length_le h1]
  · rename_i h
    have h1 : n + 1 ≤ past.length := by omega
    rw [List.dropLast_eq_take, List.take_take, List.length_take]
    congr 1
    omega

theorem get_miss (hC : Calm O) {n : Nat} (h : Plain O n s) (fetch : K → V) (hk : (asLru s.c).item k = none) :
    ∃ s', Impl.get O fetch k s = .ok (fetch k) s' ∧ Plain O n s' ∧ Tallies s s' 1 0 ∧
      asLru s'.c = (asLru s.c).act (.put k (fetch k)) := by
  obtain ⟨s1, h1, p1, l1, t1⟩ := h.contains hC k
  rw [hk] at t1 h1
  rw [Lru.use_new hk] at l1
  obtain ⟨r, s2, h2, p2, l2, t2⟩ := p1.insert hC k (fetch k)
  refine ⟨s2, ?_, p2, t1.trans t2, by rw [l2, l1]⟩
  unfold Impl.get
  rw [bind_ok h1]
  simp only [Option.isSome_none, Bool.false_eq_true, if_false]
  exact bind_ok h2

theorem serve_spaced (hC : Calm O) {n : Nat} (fetch : K → V) : ∀ (ks past : List K) {s : St (Cache K V) K V}, Plain O n s →
    (asLru s.c).latest = past.take n → Spaced n past ks →
    ∃ s', serve O fetch ks s = .ok () s' ∧ Plain O n s' ∧ Tallies s s' ks.length 0
  | [], _, s, hp, _, _ => ⟨s, rfl, hp, Tallies.refl⟩
  | k :: ks, past, s, hp, hl, hs => by
    obtain ⟨h1, h2⟩ := hs
    have hk : (asLru s.c).item k = none := by
      cases hx : (asLru s.c).item k with
      | none => rfl
      | some x =>
        obtain ⟨y, hy, hyk⟩ := item_latest.1 (by rw [hx]; rfl : ((asLru s.c).item k).isSome = true)
        rw [hl] at hy
        rw [h1 y hy] at hyk
        cases hyk
    obtain ⟨s1, g1, p1, t1, l1⟩ := get_miss hC hp fetch hk
    have hl1 : (asLru s1.c).latest = (k :: past).take n := by
      rw [l1]
      cases n with
      | zero => rw [Lru.put_zero hp.cap, hl]; rfl
      | succ n => rw [put_latest hp.cap hk, hl, take_push]
    obtain ⟨s2, g2, p2, t2⟩ := serve_spaced hC fetch ks (k :: past) p1 hl1 h2
    refine ⟨s2, ?_, p2, (t1.trans t2).cast (by rw [List.length_cons]; omega) rfl⟩
    show (Impl.get O fetch k >>= fun _ => serve O fetch ks) s = _
    rw [bind_ok g1]
    exact g2

/-! ### Going round -/

theorem around_zero (P : List K) : around P 0 = [] := by cases P <;> rfl

theorem around_add : ∀ (A B : List K) (t : Nat), around (A ++ B) (A.length + t) = A ++ around (B ++ A) t
  | [], B, t => by simp
  | x :: A, B, t => by
    have h := around_add A (B ++ [x]) t
    rw [List.length_cons, show A.length + 1 + t = (A.length + t) + 1 by omega]
    show x :: around (A ++ B ++ [x]) (A.length + t) = _
    rw [List.append_assoc, h]
    simp

theorem around_length : ∀ (t : Nat) {P : List K}, P ≠ [] → (around P t).length = t
  | 0, P, _ => by rw [around_zero]; rfl
  | t + 1, x :: P, _ => by
    show (around (P ++ [x]) t).length + 1 = _
    rw [around_length t (by simp)]
  | _ + 1, [], h => absurd rfl h

theorem spaced_around : ∀ (t : Nat) {n : Nat} {P past : List K}, P.length = n + 2 → P.Pairwise (fun a b => keq a b = false) →
    past.take (n + 1) <+: P.tail.reverse → Spaced (n + 1) past (around P t)
  | 0, n, P, past, _, _, _ => by rw [around_zero]; exact trivial
  | t + 1, n, [], past, hl, _, _ => by cases hl
  | t + 1, n, x :: P, past, hl, hd, hp => by
    obtain ⟨h1, h2⟩ := List.pairwise_cons.1 hd
    refine ⟨fun y hy => ?_, ?_⟩
    · rw [KeyEqual.symm]
      exact h1 y (List.mem_reverse.1 (hp.subset hy))
    · have hP : P.length = n + 1 := by simpa using hl
      refine spaced_around t (by simpa using hP) ?_ ?_
      · rw [List.pairwise_append]
        refine ⟨h2, List.pairwise_singleton _ _, fun a ha b hb => ?_⟩
        rw [List.mem_singleton.1 hb, KeyEqual.symm]
        exact h1 a ha
      · cases P with
        | nil => cases hP
        | cons y Q =>
          have hQ : Q.length = n := by simpa using hP
          simp only [List.tail_cons, List.reverse_cons, List.cons_append, List.reverse_append, List.reverse_nil, List.nil_append] at hp ⊢
          rw [List.take_succ_cons, List.cons_prefix_cons]
          refine ⟨rfl, ?_⟩
          obtain ⟨z, hz⟩ := hp
          have h3 := congrArg (List.take n) hz
          rw [List.take_left' (l₁ := Q.reverse) (by simpa using hQ), List.take_append, List.take_take, show min n (n + 1) = n by omega] at h3
          exact ⟨_, h3⟩

theorem loads_same (T : List K) (Ss : List (List K)) : ∀ m, loads T (List.replicate m T ++ Ss) = loads T Ss
  | 0 => rfl
  | m + 1 => by
    show (T.filter fun k => !holds T k).length + loads T (List.replicate m T ++ Ss) = _
    rw [loads_same T Ss m, List.filter_eq_nil_iff.2 fun a ha => by
      rw [holds_iff.2 ⟨a, ha, KeyEqual.refl a⟩]; simp]
    simp

theorem schedule_same {n : Nat} {T : List K} (h1 : T.length ≤ n) (h2 : T.Pairwise (fun a b => keq a b = false)) {ks : List K}
    {Ss : List (List K)} (hs : Schedule n ks Ss) : ∀ (A : List K), (∀ a ∈ A, holds T a = true) →
    Schedule n (A ++ ks) (List.replicate A.length T ++ Ss)
  | [], _ => hs
  | a :: A, h => ⟨h1, h2, h a List.mem_cons_self, schedule_same h1 h2 hs A fun b hb => h b (List.mem_cons_of_mem _ hb)⟩

theorem schedule_around {n : Nat} : ∀ (r : Nat) {P S : List K}, P.length = n + 2 → P.Pairwise (fun a b => keq a b = false) →
    ∃ Ss, Schedule (n + 1) (around P ((n + 1) * (r + 1))) Ss ∧
      loads S Ss = (P.dropLast.filter fun k => !holds S k).length + r
  | r, P, S, hl, hd => by
    have hne : P ≠ [] := by rintro rfl; cases hl
    obtain ⟨A, y, rfl⟩ : ∃ A y, P = A ++ [y] := ⟨P.dropLast, P.getLast hne, (List.dropLast_concat_getLast hne).symm⟩
    have hA : A.length = n + 1 := by simpa using hl
    obtain ⟨d1, _, d2⟩ := List.pairwise_append.1 hd
    have hold : ∀ a ∈ A, holds A a = true := fun a ha => holds_iff.2 ⟨a, ha, KeyEqual.refl a⟩
    rw [List.dropLast_concat]
    have hsplit : ∀ t, around (A ++ [y]) (n + 1 + t) = A ++ around (y :: A) t := fun t => by
      rw [← hA]; exact around_add A [y] t
    cases r with
    | zero =>
      refine ⟨List.replicate A.length A ++ [], ?_, ?_⟩
      · rw [show (n + 1) * (0 + 1) = n + 1 + 0 by omega, hsplit, around_zero]
        exact schedule_same (Nat.le_of_eq hA) d1 (by exact trivial) A hold
      · rw [hA, List.replicate_succ]
        show (A.filter fun k => !holds S k).length + loads A (List.replicate n A ++ []) = _
        rw [loads_same]
        rfl
    | succ r =>
      obtain ⟨Ss, h1, h2⟩ := schedule_around (n := n) r (P := y :: A) (S := A) (by simp [hA])
        (List.pairwise_cons.2 ⟨fun a ha => by rw [KeyEqual.symm]; exact d2 a ha y List.mem_cons_self, d1⟩)
      refine ⟨List.replicate A.length A ++ Ss, ?_, ?_⟩
      · rw [show (n + 1) * (r + 1 + 1) = n + 1 + (n + 1) * (r + 1) by rw [Nat.mul_add (n + 1) (r + 1)]; omega, hsplit]
        exact schedule_same (Nat.le_of_eq hA) d1 h1 A hold
      · rw [hA, List.replicate_succ]
        show (A.filter fun k => !holds S k).length + loads A (List.replicate n A ++ Ss) = _
        rw [loads_same, h2]
        have hy : holds A y = false := by
          cases hy : holds A y with
          | false => rfl
          | true =>
            obtain ⟨x, hx, hxy⟩ := holds_iff.1 hy
            rw [d2 x hx y List.mem_cons_self] at hxy
            cases hxy
        have h3 : ((y :: A).dropLast.filter fun k => !holds A k).length = 1 := by
          cases A with
          | nil => cases hA
          | cons a A =>
            rw [List.dropLast_cons_cons, List.filter_cons_of_pos (by simp [hy]), List.filter_eq_nil_iff.2 fun b hb => by
              rw [hold b ((List.dropLast_sublist _).subset hb)]; simp]
            rfl
        omega

end LRU
