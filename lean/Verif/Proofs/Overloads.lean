import Verif.Model.Overloads
import Verif.Proofs.Ranges
/-!
# Overloads: lemmas for `Props.Overloads`
-/

set_option linter.unusedSectionVars false
set_option autoImplicit false

namespace LRU

variable {K V : Type} [KeyEqual K] [DecidableEq K] [DecidableEq V] {O : Oracle K V}

/-! ### Ranges -/

/-- Following what becomes of the range does not change what happens to the cache. -/
theorem moveRange_fst (mv : MovedFrom K V) (l : List (K × V)) (s : St (Cache K V) K V) :
    (Impl.moveRange O mv l s).1 = Impl.insertRangeMove O l s := by
  induction l generalizing s with
  | nil => rfl
  | cons p l ih =>
    obtain ⟨k, v⟩ := p
    have e : Impl.insertRangeMove O ((k, v) :: l) s = M.bind (Impl.emplace O k v) (fun r =>
      M.bind (Impl.insertRangeMove O l) fun n => pure ((if r.1 then 1 else 0) + n)) s := rfl
    rw [e]
    unfold Impl.moveRange M.bind
    cases h : Impl.emplace O k v s with
    | ok r s1 =>
      simp only
      rw [← ih s1]
      cases hm : Impl.moveRange O mv l s1 with
      | mk o left => cases o <;> rfl
    | _ => rfl

theorem assignMoving_fst (mv : MovedFrom K V) (l : List (K × V)) (s : St (Cache K V) K V) :
    (Impl.assignMoving O mv l s).1 = Impl.assignRangeMove O l s := by
  have e : Impl.assignRangeMove O l s = M.bind (Impl.clearAndIncreaseCapacity l.length) (fun _ =>
      M.bind (Impl.insertRangeMove O l) fun _ => pure ()) s := rfl
  rw [e]
  unfold Impl.assignMoving M.bind
  cases h : Impl.clearAndIncreaseCapacity l.length s with
  | ok r s1 =>
    simp only
    rw [← moveRange_fst mv l s1]
    cases hm : Impl.moveRange O mv l s1 with
    | mk o left => cases o <;> rfl
  | _ => rfl

theorem readCapacity_some {s : St (Cache K V) K V} {n : Nat} (h : s.c.capacity = some n) :
    Impl.readCapacity s = .ok n s := by
  unfold Impl.readCapacity; rw [h]

theorem clearAndIncreaseCapacity_impl (s : St (Cache K V) K V) (n : Nat) :
    Impl.clearAndIncreaseCapacity n s = match s.c.capacity with
      | none => .ub
      | some m => .ok () ⟨{ s.c with map := [], order := [], last := none, capacity := some (max m n) }, s.g⟩ := by
  unfold Impl.clearAndIncreaseCapacity
  rw [bind_ok (m := Impl.clear) (a := ()) (s' := ⟨{ s.c with map := [], order := [], last := none }, s.g⟩) rfl]
  cases hc : s.c.capacity with
  | none => exact bind_ub (by unfold Impl.readCapacity; simp [hc])
  | some m =>
    rw [bind_ok (readCapacity_some (n := m) (by simp [hc]))]
    split
    · show Out.ok () _ = Out.ok () _
      rw [Nat.max_eq_right (by omega)]
    · show Out.ok () _ = Out.ok () _
      rw [Nat.max_eq_left (by omega), ← hc]

/-! ### Caches as ranges -/

theorem onCache_ok {α : Type} {i : Nat} {m : Impl.CM K V α} {w w' : World K V} {a : α}
    (h : Impl.onCache i m w = .ok a w') : ∃ c s', w.caches[i]? = some (some c) ∧ m (viewOf w i c) = .ok a s' ∧
      w' = ⟨w.caches.set i (some s'.c), s'.g⟩ := by
  unfold Impl.onCache at h
  split at h
  · next c hc =>
    cases hm : m (viewOf w i c) with
    | ok b s' =>
      rw [show (⟨c, { w.g with ext := Impl.allNodes (w.caches.set i none) }⟩ : St (Cache K V) K V) = viewOf w i c from rfl,
        hm] at h
      injection h with h1 h2
      subst h1
      exact ⟨c, s', hc, hm, h2.symm⟩
    | _ =>
      rw [show (⟨c, { w.g with ext := Impl.allNodes (w.caches.set i none) }⟩ : St (Cache K V) K V) = viewOf w i c from rfl,
        hm] at h
      cases h
  · cases h

theorem onCache_of {α : Type} {i : Nat} {m : Impl.CM K V α} {w : World K V} {c : Cache K V}
    (hc : w.caches[i]? = some (some c)) : Impl.onCache i m w = match m (viewOf w i c) with
      | .ok a s => .ok a ⟨w.caches.set i (some s.c), s.g⟩
      | .throw e s => .throw e ⟨w.caches.set i (some s.c), s.g⟩
      | .ub => .ub
      | .terminate => .terminate
      | .diverge => .diverge := by
  unfold Impl.onCache
  rw [hc]
  rfl

theorem onCache_threw {α : Type} {i : Nat} {m : Impl.CM K V α} {w w' : World K V} {e : Err}
    (h : Impl.onCache i m w = .throw e w') : ∃ c s', w.caches[i]? = some (some c) ∧ m (viewOf w i c) = .throw e s' ∧
      w' = ⟨w.caches.set i (some s'.c), s'.g⟩ := by
  rcases hc : w.caches[i]? with _ | _ | c
  · unfold Impl.onCache at h
    simp only [hc] at h
    cases h
  · unfold Impl.onCache at h
    simp only [hc] at h
    cases h
  · rw [onCache_of hc] at h
    cases hm : m (viewOf w i c) with
    | throw e' s' =>
      rw [hm] at h
      injection h with h1 h2
      exact ⟨c, s', rfl, by rw [hm, h1], h2.symm⟩
    | _ => rw [hm] at h; cases h

theorem onCache_ret {α : Type} {i : Nat} {m : Impl.CM K V α} {f : α → Res K V} (w : World K V) :
    Impl.onCache i (Impl.ret m f) w = Impl.ret (Impl.onCache i m) f w := by
  rcases hc : w.caches[i]? with _ | _ | c
  · unfold Impl.ret Impl.onCache
    simp only [hc]
    exact (bind_ub (by simp only [hc])).symm
  · unfold Impl.ret Impl.onCache
    simp only [hc]
    exact (bind_ub (by simp only [hc])).symm
  · rw [onCache_of hc]
    show _ = M.bind _ _ w
    unfold M.bind
    rw [onCache_of hc]
    have e : Impl.ret m f (viewOf w i c) = M.bind m (fun a => pure (f a)) (viewOf w i c) := rfl
    rw [e]
    unfold M.bind
    cases hm : m (viewOf w i c) <;> rfl

/-- What a cache `b` looks like after the values of the nodes in `l` were moved out of it. -/
def Cache.drained (mv : V → V) : List (MapNode K V) → Cache K V → Cache K V
  | [], b => b
  | x :: l, b => Cache.drained mv l { b with
      map := b.map.map (fun m => if m.addr = x.addr then { m with info := { m.info with value := mv x.info.value } } else m) }

theorem drained_addrs (x : Ptr) (v : V) (l : List (MapNode K V)) :
    (l.map (fun m => if m.addr = x then { m with info := { m.info with value := v } } else m)).map (·.addr) =
      l.map (·.addr) := by
  rw [List.map_map]
  apply List.map_congr_left
  intro m _
  simp only [Function.comp]
  split <;> rfl

theorem write_impl {s : St (Cache K V) K V} {p : Ptr} (h : p ∈ s.c.map.map (·.addr)) (v : V) :
    Impl.write p v s = .ok () ⟨{ s.c with
      map := s.c.map.map (fun m => if m.addr = p then { m with info := { m.info with value := v } } else m) }, s.g⟩ := by
  obtain ⟨n, hn, rfl⟩ := List.mem_map.1 h
  have hf : ∃ y, s.c.map.find? (fun m => m.addr == n.addr) = some y := by
    cases hy : s.c.map.find? (fun m => m.addr == n.addr) with
    | some y => exact ⟨y, rfl⟩
    | none => exact absurd (List.find?_eq_none.1 hy n hn) (by simp)
  obtain ⟨y, hy⟩ := hf
  have hya : y.addr = n.addr := by simpa using List.find?_some hy
  unfold Impl.write
  rw [bind_ok (m := Impl.derefIt (some n.addr)) (a := y) (s' := s) (by
    show (match s.c.map.find? (fun m => m.addr == n.addr) with | some n => Out.ok n s | none => Out.ub) = _
    rw [hy])]
  unfold Impl.assignValue
  rw [hya]
  rfl

theorem get_set_self {α : Type} {l : List α} {i : Nat} {x y : α} (h : l[i]? = some y) : (l.set i x)[i]? = some x := by
  have := (List.getElem?_eq_some_iff.1 h).1
  simp [this]

theorem get_set_other {α : Type} {l : List α} {i j : Nat} {x : α} (h : i ≠ j) : (l.set i x)[j]? = l[j]? := by
  simp [h]

section caches

variable {mv : V → V} {i j : Nat} {w w' : World K V} {own : Nat → Bool} {a b : Cache K V}

/-- `emplace` into a cache that owns its contents. -/
theorem emplace_returns (hO : NoListFault O) (hp : Prog O w own) (hi : own i = true)
    (ha : w.caches[i]? = some (some a)) {n : Nat} (hn : a.capacity = some (n + 1)) {k : K} {v : V} {r : Bool × Option Ptr}
    {w1 : World K V} (h : Impl.onCache i (Impl.emplace O k v) w = .ok r w1) :
    Prog O w1 own ∧ r.2 ≠ none ∧ ∃ a1 g1, w1 = ⟨w.caches.set i (some a1), g1⟩ ∧ a1.capacity = a.capacity ∧
      asLru a1 = (asLru a).act (.put k v) ∧ a1.obs = a.obs ∧ a1.kind = a.kind := by
  have hs : Impl.wstep O (.op i (.emplace k v)) w = .ok (.inserted r.1 r.2) w1 :=
    (onCache_ret w).trans (ret_ok_iff.2 ⟨r, h, rfl⟩)
  have hp1 := Prog.step _ hp hs
  obtain ⟨c, s', hc, hm, he⟩ := onCache_ok h
  rw [ha] at hc
  injection hc with hc
  injection hc with hc
  subst hc
  obtain ⟨t, hr, ht⟩ := hp.view hO hi ha
  obtain ⟨t', h1, h2⟩ := sim_ok (emplace_sim hO) hr hm
  have h3 := emplace_out ht hO k v
  rw [h1] at h3
  have h4 := h3.put ht
  have h5 : t'.c.obs = t.c.obs ∧ t'.c.kind = t.c.kind ∧ t'.c.cap = t.c.cap ∧ r.2 ≠ none := by
    have hn' : t.c.cap = some (n + 1) := by rw [← hr.rep.cap]; exact hn
    generalize hg : Out.ok r t' = o at h3
    cases h3 with
    | unset _ => cases hg
    | zero hz => rw [hn'] at hz; cases hz
    | fault => cases hg
    | updateFault => cases hg
    | _ => injection hg with h6 h7; subst h6 h7; exact ⟨rfl, rfl, rfl, by simp⟩
  refine ⟨hp1, h5.2.2.2, s'.c, s'.g, he, ?_, ?_, ?_, ?_⟩
  · rw [h2.rep.cap, h5.2.2.1, ← hr.rep.cap]; rfl
  · rw [h2.lru, h4, ← hr.lru]; rfl
  · rw [h2.rep.obs, h5.1, ← hr.rep.obs]; rfl
  · rw [h2.rep.kind, h5.2.1, ← hr.rep.kind]; rfl

theorem write_returns (hp : Prog O w own) (hb : w.caches[j]? = some (some b)) {p : Ptr} (hq : p ∈ b.map.map (·.addr))
    (v : V) : ∃ w1, Impl.onCache j (Impl.write p v) w = .ok () w1 ∧ Prog O w1 own ∧ ∃ g1, w1 = ⟨w.caches.set j (some { b with
      map := b.map.map (fun m => if m.addr = p then { m with info := { m.info with value := v } } else m) }), g1⟩ := by
  have h := onCache_of (m := Impl.write p v) hb
  rw [write_impl (s := viewOf w j b) hq v] at h
  refine ⟨_, h, ?_, _, rfl⟩
  have hs : Impl.wstep O (.op j (.write p v)) w = .ok .unit _ := (onCache_ret w).trans (ret_ok_iff.2 ⟨(), h, rfl⟩)
  exact Prog.step _ hp hs

/-- Moving the elements `l` of cache `j` into cache `i`. -/
theorem moveElements_ok (hO : NoListFault O) (hij : i ≠ j) (l : List (MapNode K V)) (hp : Prog O w own)
    (hi : own i = true) (ha : w.caches[i]? = some (some a)) (hb : w.caches[j]? = some (some b)) {n : Nat}
    (hn : a.capacity = some (n + 1)) (hl : ∀ x ∈ l, x.addr ∈ b.map.map (·.addr))
    (h : Impl.moveElements O mv i j l w = .ok () w') :
    Prog O w' own ∧ ∃ a', w'.caches = (w.caches.set i (some a')).set j (some (b.drained mv l)) ∧
      a'.capacity = a.capacity ∧ asLru a' = (asLru a).run (puts (l.map fun x => (x.key, x.info.value))) ∧
      a'.obs = a.obs ∧ a'.kind = a.kind := by
  induction l generalizing w a b with
  | nil =>
    injection h with _ h
    subst h
    refine ⟨hp, a, ?_, rfl, rfl, rfl, rfl⟩
    apply List.ext_getElem?
    intro m
    have h1 := (List.getElem?_eq_some_iff.1 ha).1
    have h2 := (List.getElem?_eq_some_iff.1 hb).1
    simp only [List.getElem?_set, List.length_set, Cache.drained]
    by_cases h3 : j = m
    · subst h3; rw [if_pos rfl, if_pos h2, hb]
    · rw [if_neg h3]
      by_cases h4 : i = m
      · subst h4; rw [if_pos rfl, if_pos h1, ha]
      · rw [if_neg h4]
  | cons x l ih =>
    cases he : Impl.onCache i (Impl.emplace O x.key x.info.value) w with
    | ok r w1 =>
      have h1 := (bind_ok he).symm.trans h
      obtain ⟨hp1, hr, a1, g1, rfl, hc1, hl1, ho1, hk1⟩ := emplace_returns hO hp hi ha hn he
      rw [if_neg hr] at h1
      have hb1 : (⟨w.caches.set i (some a1), g1⟩ : World K V).caches[j]? = some (some b) := by
        show (w.caches.set i (some a1))[j]? = _
        rw [get_set_other hij]; exact hb
      obtain ⟨w2, hw2, hp2, g2, rfl⟩ := write_returns hp1 hb1 (hl x (List.mem_cons_self ..)) (mv x.info.value)
      have h2 := (bind_ok hw2).symm.trans h1
      have ha2 : (⟨(w.caches.set i (some a1)).set j (some { b with map := b.map.map (fun m => if m.addr = x.addr then
          { m with info := { m.info with value := mv x.info.value } } else m) }), g2⟩ : World K V).caches[i]? =
          some (some a1) := by
        show (List.set _ _ _)[i]? = _
        rw [get_set_other (Ne.symm hij)]
        exact get_set_self ha
      obtain ⟨hp3, a', h4, h5, h6, h7, h8⟩ := ih hp2 ha2 (get_set_self hb1) (hc1.trans hn)
        (fun y hy => by rw [drained_addrs]; exact hl y (List.mem_cons_of_mem _ hy)) h2
      refine ⟨hp3, a', ?_, h5.trans hc1, ?_, h7.trans ho1, h8.trans hk1⟩
      · rw [h4]
        show ((List.set (List.set _ _ _) _ _).set i _).set j _ = _
        rw [set_two _ _ _ (Ne.symm hij), List.set_set, List.set_set]
        rfl
      · rw [h6, hl1]; rfl
    | _ =>
      have h : M.bind _ _ w = _ := h
      unfold M.bind at h
      rw [he] at h
      cases h

theorem drained_self_aux (mv : V → V) (l : List (MapNode K V)) (b : Cache K V)
    (hl : (l.map (·.addr)).Nodup) (hb : ∀ x ∈ l, ∀ y ∈ b.map, y.addr = x.addr → y = x) :
    b.drained mv l = { b with map := b.map.map (fun m =>
        if m.addr ∈ l.map (·.addr) then { m with info := { m.info with value := mv m.info.value } } else m) } := by
  induction l generalizing b with
  | nil => simp [Cache.drained]
  | cons x l ih =>
    unfold Cache.drained
    rw [List.map_cons, List.nodup_cons] at hl
    rw [ih _ hl.2]
    · congr 1
      simp only [List.map_map]
      apply List.map_congr_left
      intro m hm
      simp only [Function.comp, List.map_cons, List.mem_cons]
      by_cases h1 : m.addr = x.addr
      · have := hb x (List.mem_cons_self ..) m hm h1
        subst this
        rw [if_pos rfl, if_neg hl.1, if_pos (.inl rfl)]
      · rw [if_neg h1]
        by_cases h2 : m.addr ∈ l.map (·.addr)
        · rw [if_pos h2, if_pos (.inr h2)]
        · rw [if_neg h2, if_neg (by simp [h1]; simpa using h2)]
    · intro y hy z hz hzy
      obtain ⟨m, hm, rfl⟩ := List.mem_map.1 hz
      by_cases h1 : m.addr = x.addr
      · simp only [if_pos h1] at hzy
        exact absurd (List.mem_map.2 ⟨y, hy, (hzy.symm.trans h1)⟩) hl.1
      · simp only [if_neg h1] at hzy ⊢
        exact hb y (List.mem_cons_of_mem _ hy) m hm hzy

theorem drained_self (mv : V → V) (b : Cache K V) (hl : (b.map.map (·.addr)).Nodup) :
    b.drained mv b.map = { b with map := b.map.map fun m => { m with info := { m.info with value := mv m.info.value } } } := by
  rw [drained_self_aux mv b.map b hl fun x hx y hy h => map_inj_of_nodup hl y hy x hx h]
  congr 1
  apply List.map_congr_left
  intro m hm
  rw [if_pos (List.mem_map.2 ⟨m, hm, rfl⟩)]

/-- Clearing a cache and raising its capacity are steps of programs. -/
theorem clearAndIncrease_prog (hp : Prog O w own) (ha : w.caches[i]? = some (some a)) {n m : Nat}
    (hm : a.capacity = some m) :
    Impl.onCache i (Impl.clearAndIncreaseCapacity n) w =
      .ok () ⟨w.caches.set i (some { a with map := [], order := [], last := none, capacity := some (max m n) }),
        (viewOf w i a).g⟩ ∧
    Prog O ⟨w.caches.set i (some { a with map := [], order := [], last := none, capacity := some (max m n) }),
        (viewOf w i a).g⟩ (mark own i true) := by
  have h1 := onCache_of (m := Impl.clearAndIncreaseCapacity n) ha
  rw [clearAndIncreaseCapacity_impl, show (viewOf w i a).c.capacity = some m from hm] at h1
  refine ⟨h1, ?_⟩
  have h2 := onCache_of (m := Impl.clear) ha
  rw [show Impl.clear (viewOf w i a) = .ok () ⟨{ a with map := [], order := [], last := none }, (viewOf w i a).g⟩ from rfl]
    at h2
  have hs : Impl.wstep O (.op i .clear) w = .ok .unit _ := (onCache_ret (f := fun _ => Res.unit) w).trans (ret_ok_iff.2 ⟨(), h2, rfl⟩)
  have hp2 : Prog O _ (mark own i true) := Prog.step _ hp hs
  have ha2 := get_set_self (x := some { a with map := [], order := [], last := none }) ha
  have e : ∀ x : Option (Cache K V), Impl.allNodes ((w.caches.set i x).set i none) = Impl.allNodes (w.caches.set i none) := by
    intro x; rw [List.set_set]
  have h3 := onCache_of (w := ⟨w.caches.set i (some { a with map := [], order := [], last := none }), (viewOf w i a).g⟩)
    (m := Impl.setCapacity (max m n)) ha2
  have h4 : Impl.setCapacity (max m n) (viewOf (K := K) (V := V)
      ⟨w.caches.set i (some { a with map := [], order := [], last := none }), (viewOf w i a).g⟩ i
        { a with map := [], order := [], last := none }) =
      .ok () ⟨{ a with map := [], order := [], last := none, capacity := some (max m n) }, (viewOf w i a).g⟩ := by
    unfold viewOf
    simp only [e]
    rfl
  rw [h4] at h3
  have hs3 : Impl.wstep O (.op i (.setCapacity (max m n)))
      ⟨w.caches.set i (some { a with map := [], order := [], last := none }), (viewOf w i a).g⟩ = .ok .unit _ :=
    (onCache_ret (f := fun _ => Res.unit) _).trans (ret_ok_iff.2 ⟨(), h3, rfl⟩)
  have hp3 : Prog O _ (mark own i true) := Prog.step _ hp2 hs3
  simpa only [List.set_set] using hp3

end caches

/-- Storing pairs with distinct keys in a map that has room for all of them. -/
theorem run_puts_distinct (l : List (K × V)) (m : Lru K V) {n : Nat} (hc : m.capacity = some n)
    (hn : m.items.length + l.length ≤ n) (hd : (m.items ++ l).Pairwise (fun x y => keq x.1 y.1 = false)) :
    m.run (puts l) = ⟨some n, m.items ++ l⟩ := by
  induction l generalizing m with
  | nil =>
    obtain ⟨c, items⟩ := m
    have hc : c = some n := hc
    subst hc
    show (⟨some n, items⟩ : Lru K V) = ⟨some n, items ++ []⟩
    rw [List.append_nil]
  | cons p l ih =>
    obtain ⟨k, v⟩ := p
    obtain ⟨n, rfl⟩ : ∃ n', n = n' + 1 := ⟨n - 1, by simp at hn; omega⟩
    have hx : m.item k = none := by
      unfold Lru.item
      rw [List.find?_eq_none]
      intro x hx
      have := (List.pairwise_append.1 hd).2.2 x hx (k, v) (List.mem_cons_self ..)
      simp only at this
      simp [this]
    have e : m.act (.put k v) = { m with items := m.items ++ [(k, v)] } := by
      rw [Lru.put_new hc hx, if_pos (by simp at hn; omega)]
    show (m.act (.put k v)).run (puts l) = _
    rw [e, ih { m with items := m.items ++ [(k, v)] } hc (by simp at hn ⊢; omega) (by simpa using hd)]
    simp

end LRU
