import Verif.Proofs.AssignOther
import Verif.Props.BaseSwap
import Verif.Props.Copies
/-!
# C85: assignment and construction from caches of other types, and assignment through the base class

A cache is a range, so a plain cache can be assigned to a timed one and the other way round, and timed caches with different
`Duration`s to each other. Such an assignment is one of a range: it keeps neither the order of use nor the insertion times,
and unless the source is `const` its values are moved from.
-/

set_option linter.unusedSectionVars false
set_option autoImplicit false

namespace LRU

variable {K V : Type} [KeyEqual K] [DecidableEq K] [DecidableEq V] {O : Oracle K V}
  {mv : V → V} {i j : Nat} {w w' : World K V} {own : Nat → Bool} {a b : Cache K V} {ttl : Int} {res : Nat}
  {arg : Category}

theorem assignOther_eq (arg : Category) (ha : w.caches[i]? = some (some a)) (hb : w.caches[j]? = some (some b)) :
    Impl.assignOther O mv .constLvalue i j w = Impl.onCache i (Impl.assignRange O (Impl.rangeOfCache b)) w ∧
    (arg ≠ .constLvalue → Impl.assignOther O mv arg i j w = Impl.assignElements O mv i j w) := by
  unfold Impl.assignOther
  constructor
  · rw [bind_ok (getCache_of ha), bind_ok (getCache_of hb)]
    cases Impl.sameBase a.kind b.kind <;> rfl
  · intro h
    rw [bind_ok (getCache_of ha), bind_ok (getCache_of hb)]
    cases arg with
    | constLvalue => exact absurd rfl h
    | lvalue | rvalue => cases Impl.sameBase a.kind b.kind <;> rfl

/-- C85. Which operator is called. For caches of different classes and for different `Duration`s it is always one of those for
ranges, never the copy or move assignment of the base class. On references to the base class it is these, except for lvalues that
are not `const`. Between caches of the same type those of the base class do not interfere (C63). -/
theorem C85_which_operator :
    (∀ l ∈ [assignClassOverloads, assignDurationOverloads], Overload.resolve l .constLvalue = some .constRange ∧
      Overload.resolve l .lvalue = some .forwarded ∧ Overload.resolve l .rvalue = some .forwarded) ∧
    Overload.resolve assignBaseOverloads .constLvalue = some .copy ∧
    Overload.resolve assignBaseOverloads .rvalue = some .move ∧
    Overload.resolve assignBaseOverloads .lvalue = some .forwarded ∧
    (∀ arg, Overload.resolve assignCacheOverloads arg = Overload.resolve [.copy, .move, .constRange, .forwarded] arg) := by
  refine ⟨?_, rfl, rfl, rfl, ?_⟩
  · decide
  · intro arg
    cases arg <;> rfl

/-- C85 for a `const` source: the target takes its pairs, its capacity is only ever raised, it keeps its class, time to live,
statistics and callbacks, and the source is left alone. The resulting world is again one that programs of the modelled steps
reach. Missing for the full statement: the pairs come in the order of the hash table, not that of use, and their insertion
times are new (`C85_lives_start_anew`). -/
theorem C85_const_source_partial (hO : NoListFault O) (hp : Prog O w own)
    (ha : w.caches[i]? = some (some a)) (hb : w.caches[j]? = some (some b))
    (h : Impl.assignOther O mv .constLvalue i j w = .ok () w') :
    ∃ m a', a.capacity = some m ∧ w'.caches = w.caches.set i (some a') ∧
      a'.capacity = some (if b.map.length ≤ m then m else b.map.length) ∧
      entries a' = Impl.rangeOfCache b ∧ a'.obs = a.obs ∧ a'.kind = a.kind ∧ Prog O w' (mark own i true) := by
  rw [(assignOther_eq .lvalue ha hb).1] at h
  have hs : Impl.wstep O (.op i (.assignRange (Impl.rangeOfCache b))) w = .ok .unit w' :=
    (onCache_ret w).trans (ret_ok_iff.2 ⟨(), h, rfl⟩)
  have hp' : Prog O w' (mark own i true) := Prog.step _ hp hs
  obtain ⟨c, s', hc, hm, rfl⟩ := onCache_ok h
  rw [ha] at hc
  injection hc with hc
  injection hc with hc
  subst hc
  have hd : Returns O (.assignRange (Impl.rangeOfCache b)) (viewOf w i a) .unit s' := ret_ok_iff.2 ⟨(), hm, rfl⟩
  obtain ⟨t, hr⟩ := hp.reach.rel hO ha
  obtain ⟨hr0, ht0⟩ := hr.emptied
  obtain ⟨m, h1, h2⟩ := assign_puts hO _ hr0 ht0 (.inl rfl) ((discards_eq rfl _).symm.trans hd)
  obtain ⟨m', h3, h4, -⟩ := C32_range_assignment hO hp.reach ha (.inl hd)
  have hlen : (Impl.rangeOfCache b).length = b.map.length := by simp [Impl.rangeOfCache]
  have hq := step_quietly (O := O) (.assignRange (Impl.rangeOfCache b)) rfl rfl (viewOf w i a)
  rw [show Impl.step O _ (viewOf w i a) = _ from hd] at hq
  have hq : Silent (viewOf w i a) s' := hq
  refine ⟨m', s'.c, h3, rfl, by rw [h4, hlen], ?_, hq.obs, hq.kind, hp'⟩
  have h7 := run_puts_distinct (Impl.rangeOfCache b) (⟨some (max m (Impl.rangeOfCache b).length), []⟩ : Lru K V) rfl
    (by simp; omega) (by simpa using rangeOfCache_distinct hO hp hb)
  have h9 : (asLru s'.c).items = [] ++ Impl.rangeOfCache b := by
    rw [h2]
    exact congrArg Lru.items h7
  exact h9

/-- C85 for a source that is not `const`, rvalue or not: as for a `const` one, but the values of the source are moved from. -/
theorem C85_other_source (hO : NoListFault O) (hp : Prog O w own) (hij : i ≠ j)
    (ha : w.caches[i]? = some (some a)) (hb : w.caches[j]? = some (some b)) (harg : arg ≠ .constLvalue)
    (h : Impl.assignOther O mv arg i j w = .ok () w') :
    ∃ m a', a.capacity = some m ∧
      w'.caches = (w.caches.set i (some a')).set j (some { b with
        map := b.map.map fun x => { x with info := { x.info with value := mv x.info.value } } }) ∧
      a'.capacity = some (if b.map.length ≤ m then m else b.map.length) ∧
      entries a' = Impl.rangeOfCache b ∧ a'.obs = a.obs ∧ a'.kind = a.kind ∧ Prog O w' (mark own i true) := by
  rw [(assignOther_eq _ ha hb).2 harg] at h
  exact C63_lvalue_assignment hO hp hij ha hb h

/-- C85, what happens: the entries of a timed target get a time at which the clock was read during the assignment, however
old they were in the source. -/
theorem C85_lives_start_anew (hO : NoListFault O) (hp : Prog O w own) (hij : i ≠ j)
    (ha : w.caches[i]? = some (some a)) (hb : w.caches[j]? = some (some b)) (hk : a.kind = .timed ttl res)
    (h : Impl.assignOther O mv arg i j w = .ok () w') :
    ∃ a', w'.caches[i]? = some (some a') ∧
      ∀ x ∈ elements a', ∃ n, w.g.ticks ≤ n ∧ n < w'.g.ticks ∧ x.info.time = O.clock n := by
  cases hcap : a.capacity with
  | none =>
    exfalso
    by_cases harg : arg = .constLvalue
    · subst harg
      obtain ⟨m, -, h1, -⟩ := C85_const_source_partial hO hp ha hb h
      rw [hcap] at h1
      cases h1
    · obtain ⟨m, -, h1, -⟩ := C85_other_source hO hp hij ha hb harg h
      rw [hcap] at h1
      cases h1
  | some m =>
    obtain ⟨e, hp1⟩ := clearAndIncrease_prog (n := b.map.length) hp ha hcap
    have ha1 := get_set_self (x := some { a with
      map := [], order := [], last := none, capacity := some (max m b.map.length) }) ha
    have none1 : ReadIn O w.g.ticks w.g.ticks ({ a with
        map := [], order := [], last := none, capacity := some (max m b.map.length) } : Cache K V) := by
      intro x hx
      cases hx
    by_cases harg : arg = .constLvalue
    · subst harg
      rw [(assignOther_eq .lvalue ha hb).1] at h
      obtain ⟨c, s', hc, hm, rfl⟩ := onCache_ok h
      rw [ha] at hc
      injection hc with hc
      injection hc with hc
      subst hc
      unfold Impl.assignRange at hm
      obtain ⟨_, s1, h1, h2⟩ := bind_ok_inv hm
      have hlen : (Impl.rangeOfCache b).length = b.map.length := by simp [Impl.rangeOfCache]
      rw [clearAndIncreaseCapacity_impl, show (viewOf w i a).c.capacity = some m from hcap, hlen] at h1
      injection h1 with _ h1
      subst h1
      obtain ⟨n, s2, h5, h6⟩ := bind_ok_inv h2
      injection h6 with _ h6
      subst h6
      have hre : Reachable O (⟨{ a with map := [], order := [], last := none, capacity := some (max m b.map.length) },
          (viewOf w i a).g⟩ : St (Cache K V) K V) :=
        ⟨_, _, i, _, hp1, mark_eq, ha1, (viewOf_after (w := w) (i := i) (c := a) (s :=
          ⟨{ a with map := [], order := [], last := none, capacity := some (max m b.map.length) }, (viewOf w i a).g⟩)
          rfl).symm⟩
      exact ⟨s2.c, get_set_self ha, ((C30_range_insertion (e := .badAlloc)).1.1 (ret_ok_iff.2 ⟨n, h5, rfl⟩)).readIn
        (fun _ _ => .inl rfl) hO hre hk (Nat.le_refl _) none1 n rfl⟩
    · rw [(assignOther_eq _ ha hb).2 harg] at h
      unfold Impl.assignElements at h
      rw [bind_ok (getCache_of hb), if_neg hij] at h
      have h1 := (bind_ok e).symm.trans h
      have hb1 : (w.caches.set i (some { a with
              map := [], order := [], last := none, capacity := some (max m b.map.length) }))[j]? = some (some b) := by
        rw [get_set_other hij]; exact hb
      cases hbm : b.map with
      | nil =>
        rw [hbm] at h1
        injection h1 with _ h1
        subst h1
        rw [hbm] at ha1
        exact ⟨_, ha1, fun x hx => by cases hx⟩
      | cons y r =>
        obtain ⟨n, hn⟩ : ∃ n, max m b.map.length = n + 1 := ⟨max m b.map.length - 1, by rw [hbm]; simp; omega⟩
        exact moveElements_stamps (mv := mv) hO hij b.map hp1 mark_eq ha1 hb1 (n := n)
          (by show some _ = _; rw [hn]) hk (fun y hy => List.mem_map.2 ⟨y, hy, rfl⟩) h1 (Nat.le_refl _) none1

/-- C85. If nothing fails, the assignment returns, unless the target was moved from (C26). -/
theorem C85_assignment_returns (hC : Calm O) (hp : Prog O w own) (hij : i ≠ j) (ha : w.caches[i]? = some (some a))
    (hb : w.caches[j]? = some (some b)) (hn : a.capacity ≠ none) (arg : Category) :
    ∃ w', Impl.assignOther O mv arg i j w = .ok () w' := by
  have hO := hC.noListFault
  by_cases harg : arg = .constLvalue
  · subst harg
    rw [(assignOther_eq .lvalue ha hb).1]
    obtain ⟨⟨s', hd⟩, -⟩ := C32_assignment_returns hC hp.reach ha hn (Impl.rangeOfCache b)
    obtain ⟨_, h1, -⟩ := ret_ok_inv (show Impl.ret (Impl.assignRange O _) (fun _ => Res.unit) _ = _ from hd)
    have h2 := onCache_of (m := Impl.assignRange O (Impl.rangeOfCache b)) ha
    rw [h1] at h2
    exact ⟨_, h2⟩
  · obtain ⟨m, hcap⟩ := Option.ne_none_iff_exists'.1 hn
    rw [(assignOther_eq _ ha hb).2 harg]
    unfold Impl.assignElements
    rw [bind_ok (getCache_of hb), if_neg hij]
    obtain ⟨e, hp1⟩ := clearAndIncrease_prog (n := b.map.length) hp ha hcap
    rw [bind_ok e]
    have ha1 := get_set_self (x := some { a with
      map := [], order := [], last := none, capacity := some (max m b.map.length) }) ha
    have hb1 : (w.caches.set i (some { a with
            map := [], order := [], last := none, capacity := some (max m b.map.length) }))[j]? = some (some b) := by
      rw [get_set_other hij]; exact hb
    cases hbm : b.map with
    | nil => exact ⟨_, rfl⟩
    | cons y r =>
      obtain ⟨n, hn⟩ : ∃ n, max m b.map.length = n + 1 := ⟨max m b.map.length - 1, by rw [hbm]; simp; omega⟩
      rw [← hbm]
      exact moveElements_calm (mv := mv) hC hij b.map hp1 mark_eq ha1 hb1 (n := n)
          (by show some _ = _; rw [hn]) (fun y hy => List.mem_map.2 ⟨y, hy, rfl⟩)

/-! ### Construction -/

/-- C85. Construction from a cache of another type that is not an rvalue: the new cache has the pairs of the source in the order
of the hash table, room for at least 128, no statistics and no callbacks; the source is left alone. -/
theorem C85_construction (hO : NoListFault O) (hp : Prog O w own) (hb : w.caches[j]? = some (some b)) {kind : Kind}
    (harg : arg ≠ .rvalue) (h : Impl.constructOther O mv kind arg j w = .ok () w') :
    ∃ c, w'.caches = w.caches ++ [some c] ∧ c.capacity = some (if b.map.length ≤ 128 then 128 else b.map.length) ∧
      entries c = Impl.rangeOfCache b ∧ c.kind = kind ∧ c.obs = {} ∧ Prog O w' (mark own w.caches.length true) := by
  have h : Impl.create O kind (.items (Impl.rangeOfCache b)) w = .ok () w' := by
    unfold Impl.constructOther at h
    rw [bind_ok (getCache_of hb)] at h
    cases arg with
    | rvalue => exact absurd rfl harg
    | lvalue | constLvalue => exact h
  have h1 : WPerforms O (.create kind (.items (Impl.rangeOfCache b))) w (.ok .unit) w' := ret_ok_iff.2 ⟨(), h, rfl⟩
  have hp' : Prog O w' (mark own w.caches.length true) := Prog.step _ hp h1
  obtain ⟨c, h2, h3, h4, h5, -⟩ := C31_constructors hO hp.reach h1
  have hlen : (Impl.rangeOfCache b).length = b.map.length := by simp [Impl.rangeOfCache]
  have hobs : c.obs = {} := by
    unfold Impl.create at h
    have hq := ctorBody_q (O := O) (.items (Impl.rangeOfCache b))
      ⟨Impl.emptyCache kind (Impl.ctorCapacity (.items (Impl.rangeOfCache b))), { w.g with ext := Impl.allNodes w.caches }⟩
    split at h
    · next n s hs =>
      rw [hs] at hq
      have hq : Silent _ s := hq
      injection h with _ h
      subst h
      have h2 : w.caches ++ [some s.c] = w.caches ++ [some c] := h2
      have h6 := List.append_cancel_left h2
      simp only [List.cons.injEq, Option.some.injEq, and_true] at h6
      rw [← h6]
      exact hq.obs
    all_goals cases h
  refine ⟨c, h2, ?_, ?_, h3, hobs, hp'⟩
  · rw [h4]
    show some (if (Impl.rangeOfCache b).length ≤ 128 then 128 else (Impl.rangeOfCache b).length) = _
    rw [hlen]
  · have h7 := run_puts_distinct (Impl.rangeOfCache b)
      (⟨some (Ctor.promised (.items (Impl.rangeOfCache b))), []⟩ : Lru K V) rfl
      (by
        show 0 + _ ≤ if (Impl.rangeOfCache b).length ≤ 128 then 128 else (Impl.rangeOfCache b).length
        split <;> omega) (by simpa using rangeOfCache_distinct hO hp hb)
    have h9 : (asLru c).items = [] ++ Impl.rangeOfCache b := by
      rw [h5]
      exact congrArg Lru.items h7
    exact h9

/-- C85. Construction from an rvalue of another type: the same, but the capacity is the number of pairs, and the values of the source
are moved from. -/
theorem C85_construction_from_rvalue (hO : NoListFault O) (hp : Prog O w own) (hb : w.caches[j]? = some (some b)) {kind : Kind}
    (h : Impl.constructOther O mv kind .rvalue j w = .ok () w') :
    ∃ c, w'.caches = (w.caches.set j (some { b with
        map := b.map.map fun x => { x with info := { x.info with value := mv x.info.value } } })) ++ [some c] ∧
      c.capacity = some b.map.length ∧ entries c = Impl.rangeOfCache b ∧ c.kind = kind ∧ c.obs = {} ∧
      Prog O w' (mark own w.caches.length true) := by
  have h : Impl.constructMoving O mv kind j b.map w = .ok () w' := by
    unfold Impl.constructOther at h
    rw [bind_ok (getCache_of hb)] at h
    exact h
  have hlt : j < w.caches.length := (List.getElem?_eq_some_iff.1 hb).1
  have hcr : Impl.create O kind (.sized b.map.length) w =
      .ok () ⟨w.caches ++ [some (Impl.emptyCache kind b.map.length)], { w.g with ext := Impl.allNodes w.caches }⟩ := rfl
  have h : (Impl.create O kind (.sized b.map.length) >>= fun _ => Impl.moveElements O mv w.caches.length j b.map) w =
      .ok () w' := by
    unfold Impl.constructMoving at h
    split at h
    · cases h
    · exact h
  have h1 := (bind_ok hcr).symm.trans h
  have hs : WPerforms O (.create kind (.sized b.map.length)) w (.ok .unit) _ := ret_ok_iff.2 ⟨(), hcr, rfl⟩
  have hp1 : Prog O _ (mark own w.caches.length true) := Prog.step _ hp hs
  have ha1 : (w.caches ++ [some (Impl.emptyCache (K := K) (V := V) kind b.map.length)])[w.caches.length]? =
    some (some (Impl.emptyCache kind b.map.length)) := by simp
  have hb1 : (w.caches ++ [some (Impl.emptyCache (K := K) (V := V) kind b.map.length)])[j]? = some (some b) := by
    rw [List.getElem?_append_left hlt]; exact hb
  have hnd : (b.map.map (·.addr)).Nodup := by
    obtain ⟨t, hr⟩ := hp.reach.rel hO hb
    have h1 : (t.c.ents.map (·.id)).Nodup := hr.awf.ids
    have h2 : (b.map.map (·.addr)).Perm ((t.c.ents.map Ent.node).map (·.addr)) := hr.rep.map.map _
    rw [List.map_map] at h2
    exact h2.nodup_iff.2 h1
  have hij : w.caches.length ≠ j := by omega
  have hset : ∀ c : Cache K V, ((w.caches ++ [some (Impl.emptyCache kind b.map.length)]).set w.caches.length (some c)).set j
      (some (b.drained mv b.map)) = (w.caches.set j (some { b with
        map := b.map.map fun x => { x with info := { x.info with value := mv x.info.value } } })) ++ [some c] := by
    intro c
    rw [drained_self mv b hnd, List.set_append_right _ _ (Nat.le_refl _), List.set_append_left _ _ hlt]
    simp
  cases hbm : b.map with
  | nil =>
    rw [hbm] at h1 hp1
    injection h1 with _ h1
    subst h1
    refine ⟨Impl.emptyCache kind 0, ?_, rfl, by simp [Impl.rangeOfCache, hbm]; rfl, rfl, rfl, hp1⟩
    have h2 := hset (Impl.emptyCache kind 0)
    rw [hbm] at h2
    rw [← h2, ← set_two _ _ _ (Ne.symm hij)]
    show _ = ((w.caches ++ [some (Impl.emptyCache kind 0)]).set j _).set _ _
    have h3 : (w.caches ++ [some (Impl.emptyCache (K := K) (V := V) kind 0)]).set j (some (b.drained mv [])) =
        w.caches ++ [some (Impl.emptyCache kind 0)] := by
      apply List.ext_getElem?
      intro q
      have hb1 : (w.caches ++ [some (Impl.emptyCache (K := K) (V := V) kind 0)])[j]? = some (some b) := by
        rw [List.getElem?_append_left hlt]; exact hb
      by_cases h4 : j = q
      · subst h4
        rw [get_set_self hb1]
        exact hb1.symm
      · rw [get_set_other h4]
    rw [h3]
    rw [List.set_append_right _ _ (Nat.le_refl _)]
    simp
  | cons x r =>
    obtain ⟨n, hn⟩ : ∃ n, b.map.length = n + 1 := ⟨b.map.length - 1, by rw [hbm]; simp⟩
    obtain ⟨hp2, c, h2, h3, h4, h5, h6⟩ := moveElements_ok (mv := mv) hO hij b.map hp1 mark_eq ha1 hb1 (n := n)
      (by show some _ = _; rw [hn]) (fun y hy => List.mem_map.2 ⟨y, hy, rfl⟩) h1
    rw [← hbm]
    refine ⟨c, h2.trans (hset c), h3, ?_, h6, h5, hp2⟩
    have h7 := run_puts_distinct (Impl.rangeOfCache b) (⟨some b.map.length, []⟩ : Lru K V) rfl
      (by simp [Impl.rangeOfCache]) (by simpa using rangeOfCache_distinct hO hp hb)
    have h8 : asLru c = ⟨some b.map.length, [] ++ Impl.rangeOfCache b⟩ := h4.trans h7
    have h9 : (asLru c).items = [] ++ Impl.rangeOfCache b := by rw [h8]
    exact h9

/-- C85. A construction that throws leaves no object behind. The source is left alone if it is not an rvalue; of an rvalue the
values of a prefix have been moved, and the one whose insertion threw has not. -/
theorem C85_construction_throws (hO : NoListFault O) (hp : Prog O w own) (hb : w.caches[j]? = some (some b)) {kind : Kind}
    {e : Err} (h : Impl.constructOther O mv kind arg j w = .throw e w') :
    w'.caches.length = w.caches.length ∧ (arg ≠ .rvalue → w'.caches = w.caches) ∧
    (arg = .rvalue → ∃ m, m < b.map.length ∧ w'.caches = w.caches.set j (some { b with
      map := (b.map.take m).map (fun x => { x with info := { x.info with value := mv x.info.value } }) ++ b.map.drop m })) := by
  have hlt : j < w.caches.length := (List.getElem?_eq_some_iff.1 hb).1
  unfold Impl.constructOther at h
  rw [bind_ok (getCache_of hb)] at h
  have range : Impl.create O kind (.items (Impl.rangeOfCache b)) w = .throw e w' → w'.caches = w.caches := by
    intro h
    unfold Impl.create at h
    split at h <;> first | (injection h with h1 h2; subst h2; rfl) | cases h
  cases arg with
  | constLvalue | lvalue =>
    have h1 := range h
    exact ⟨by rw [h1], fun _ => h1, nofun⟩
  | rvalue =>
    have h : Impl.constructMoving O mv kind j b.map w = .throw e w' := h
    suffices hm : ∃ m, m < b.map.length ∧ w'.caches = w.caches.set j (some { b with
        map := (b.map.take m).map (fun x => { x with info := { x.info with value := mv x.info.value } }) ++ b.map.drop m }) by
      refine ⟨?_, fun h => absurd rfl h, fun _ => hm⟩
      obtain ⟨m, -, h1⟩ := hm
      rw [h1, List.length_set]
    have hcr : Impl.create O kind (.sized b.map.length) w =
        .ok () ⟨w.caches ++ [some (Impl.emptyCache kind b.map.length)], { w.g with ext := Impl.allNodes w.caches }⟩ := rfl
    unfold Impl.constructMoving at h
    split at h
    · next e1 w1 h1 =>
      injection h with _ h
      subst h
      have h1 := (bind_ok hcr).symm.trans h1
      have hs : WPerforms O (.create kind (.sized b.map.length)) w (.ok .unit) _ := ret_ok_iff.2 ⟨(), hcr, rfl⟩
      have hp1 : Prog O _ (mark own w.caches.length true) := Prog.step _ hp hs
      have ha1 : (w.caches ++ [some (Impl.emptyCache (K := K) (V := V) kind b.map.length)])[w.caches.length]? =
        some (some (Impl.emptyCache kind b.map.length)) := by simp
      have hb1 : (w.caches ++ [some (Impl.emptyCache (K := K) (V := V) kind b.map.length)])[j]? = some (some b) := by
        rw [List.getElem?_append_left hlt]; exact hb
      have hnd : (b.map.map (·.addr)).Nodup := by
        obtain ⟨t, hr⟩ := hp.reach.rel hO hb
        have h1 : (t.c.ents.map (·.id)).Nodup := hr.awf.ids
        have h2 : (b.map.map (·.addr)).Perm ((t.c.ents.map Ent.node).map (·.addr)) := hr.rep.map.map _
        rw [List.map_map] at h2
        exact h2.nodup_iff.2 h1
      have hij : w.caches.length ≠ j := by omega
      obtain ⟨n, hn⟩ : ∃ n, b.map.length = n + 1 := by
        cases hbm : b.map with
        | nil => rw [hbm] at h1; cases h1
        | cons x r => exact ⟨r.length, by simp⟩
      obtain ⟨m, a', h2, h3⟩ := moveElements_threw (mv := mv) hO hij b.map hp1 mark_eq ha1 hb1 (n := n)
        (by show some _ = _; rw [hn]) (fun y hy => List.mem_map.2 ⟨y, hy, rfl⟩) h1
      refine ⟨m, h2, ?_⟩
      show w1.caches.take w.caches.length = _
      rw [h3, drained_take mv b hnd m, List.set_append_right _ _ (Nat.le_refl _), List.set_append_left _ _ hlt,
        List.take_append_of_le_length (by simp)]
      apply List.take_of_length_le
      simp
    · next h1 => exact absurd h (h1 _ _)

/-! ### Through the base class -/

/-- C85. Assigning an rvalue through a reference to the base class exchanges the elements and the capacities (see C83); times to live,
statistics and callbacks stay. -/
theorem C85_base_move (ha : w.caches[i]? = some (some a)) (hb : w.caches[j]? = some (some b)) (hij : i ≠ j)
    (ht : Impl.sameBase a.kind b.kind = true) (h : Impl.assignBase O mv .rvalue i j w = .ok () w') :
    w'.g = w.g ∧ (∀ k, k ≠ i → k ≠ j → w'.caches[k]? = w.caches[k]?) ∧
    ∃ a' b', w'.caches[i]? = some (some a') ∧ w'.caches[j]? = some (some b') ∧
      elements a' = elements b ∧ elements b' = elements a ∧ a'.capacity = b.capacity ∧ b'.capacity = a.capacity ∧
      a'.obs = a.obs ∧ b'.obs = b.obs ∧ a'.kind = a.kind ∧ b'.kind = b.kind := by
  have h1 : WPerforms O (.swapBase i j) w (.ok .unit) w' := ret_ok_iff.2 ⟨(), h, rfl⟩
  obtain ⟨-, h2, h3, a', b', h4, h5, h6, h7, -, -, h8⟩ := C83_base_swap_exchanges_partial ha hb hij ht h1
  exact ⟨h2, h3, a', b', h4, h5, h6, h7, h8⟩

/-- C85. A `const` cache assigned through a reference to the base class is copied, except for the time to live: the target keeps
its own. The other caches, the source included, are left alone. -/
theorem C85_base_copy (hO : NoListFault O) (hp : Prog O w own) (ha : w.caches[i]? = some (some a))
    (hb : w.caches[j]? = some (some b)) (hij : i ≠ j) (ht : Impl.sameBase a.kind b.kind = true)
    (h : Impl.assignBase O mv .constLvalue i j w = .ok () w') :
    ∃ c, w'.caches = w.caches.set i (some { c with kind := a.kind }) ∧ IsCopy w b c := by
  have h : Impl.copyAssignThroughBase O i j w = .ok () w' := h
  unfold Impl.copyAssignThroughBase at h
  have h : (do
      let a ← Impl.getCache i
      let b ← Impl.getCache j
      if i = j || !Impl.sameBase a.kind b.kind then pure () else do
        Impl.worldAttempt O .mapNode
        let c ← Impl.makeCopy O b
        Impl.putCache i (some { c with kind := a.kind }) : M (World K V) Unit) w = .ok () w' := by
    unfold M.noexcept at h
    split at h
    · cases h
    · exact h
  rw [bind_ok (getCache_of ha), bind_ok (getCache_of hb), if_neg (by simp [ht, hij])] at h
  obtain ⟨_, w1, h1, h2⟩ := bind_ok_inv h
  obtain ⟨c, w2, h3, h4⟩ := bind_ok_inv h2
  injection h4 with _ h4
  subst h4
  rcases worldAttempt_cases (O := O) .mapNode w with ⟨h5, -⟩ | ⟨h5, -⟩
  · rw [h5] at h1
    injection h1 with _ h1
    subst h1
    unfold Impl.makeCopy at h3
    split at h3
    · cases h3
    · next d hc =>
      injection h3 with h3 h6
      subst h3 h6
      exact ⟨d, rfl, copyOf_isCopy ((copies_ok hO).reach hp.reach) hb hc⟩
  · rw [h5] at h1
    cases h1

/-! ### Examples, and what is false -/

/-- A plain cache with three entries, a timed cache with another one, a timed cache whose only entry has expired, and an empty one
with another `Duration`. -/
def demoOthers : List (WOp Nat Nat) :=
  [.create .basic (.sized 3), .op 0 (.insert 1 10), .op 0 (.insert 2 20), .op 0 (.insert 3 30), .op 0 (.lookup 1),
   .create (.timed 3 1) (.sized 2), .op 1 (.monitorNew [9]), .op 1 (.insert 9 90), .create (.timed 3 1) (.sized 2),
   .op 2 (.insert 5 50), .op 2 (.contains 5), .op 2 (.contains 5), .op 2 (.contains 5), .op 2 (.contains 5),
   .create (.timed 3 2) (.sized 2)]

/-- What can be seen of a cache, with the times. -/
structure Sight where
  kind : Kind
  capacity : Option Nat
  pairs : List (Nat × Nat)
  times : List Int
  deriving DecidableEq

def sights (w : World Nat Nat) : List (Option Sight) :=
  w.caches.map fun c => c.map fun c => ⟨c.kind, c.capacity, entries c, (elements c).map (·.info.time)⟩

-- the timed cache (1) is assigned the plain one (0): as a constant (`C85_const_source_partial`) and as an rvalue
-- (`C85_other_source`); the times are readings 6, 7 and 8 of the clock (`C85_lives_start_anew`)
example : ((exec calmO demoOthers Impl.initWorld).bind fun w =>
      (Impl.assignOther calmO (fun _ => 0) .constLvalue 1 0 w).state.map fun w' => (w.g.ticks, w'.g.ticks, (sights w').take 2)) =
    some (6, 9, [some ⟨.basic, some 3, [(2, 20), (3, 30), (1, 10)], [0, 0, 0]⟩,
      some ⟨.timed 3 1, some 3, [(3, 30), (2, 20), (1, 10)], [6, 7, 8]⟩]) := by decide +kernel

example : ((exec calmO demoOthers Impl.initWorld).bind fun w =>
      (Impl.assignOther calmO (fun _ => 0) .rvalue 1 0 w).state.map fun w' => (w.g.ticks, w'.g.ticks, (sights w').take 2)) =
    some (6, 9, [some ⟨.basic, some 3, [(2, 0), (3, 0), (1, 0)], [0, 0, 0]⟩,
      some ⟨.timed 3 1, some 3, [(3, 30), (2, 20), (1, 10)], [6, 7, 8]⟩]) := by decide +kernel

-- construction of a timed cache from the plain one, and the other way round
example : ((exec calmO demoOthers Impl.initWorld).bind fun w =>
      (Impl.constructOther calmO (fun _ => 0) (.timed 7 1) .lvalue 0 w).state.map fun w' => ((sights w')[0]?, (sights w')[4]?)) =
    some (some (some ⟨.basic, some 3, [(2, 20), (3, 30), (1, 10)], [0, 0, 0]⟩),
      some (some ⟨.timed 7 1, some 128, [(3, 30), (2, 20), (1, 10)], [6, 7, 8]⟩)) := by decide +kernel

example : ((exec calmO demoOthers Impl.initWorld).bind fun w =>
      (Impl.constructOther calmO (fun _ => 0) .basic .rvalue 1 w).state.map fun w' => ((sights w')[1]?, (sights w')[4]?)) =
    some (some (some ⟨.timed 3 1, some 2, [(9, 0)], [0]⟩), some (some ⟨.basic, some 1, [(9, 90)], [0]⟩)) := by decide +kernel

-- a construction that throws at the second element
example : ((exec (faultyO .mapNode 21) demoOthers Impl.initWorld).bind fun w =>
      match Impl.constructOther (faultyO .mapNode 21) (fun _ => 0) (.timed 7 1) .rvalue 0 w with
      | .throw e w' => some (e, w.caches.length, w'.caches.length, (sights w')[0]?)
      | _ => none) =
    some (.badAlloc, 4, 4, some (some ⟨.basic, some 3, [(2, 20), (3, 0), (1, 10)], [0, 0, 0]⟩)) := by decide +kernel

-- through the base class: the copy has the times of the source and the time to live of the target
example : ((exec calmO demoOthers Impl.initWorld).bind fun w =>
      (Impl.assignBase calmO (fun _ => 0) .constLvalue 3 2 w).state.map fun w' => (sights w').drop 2) =
    some [some ⟨.timed 3 1, some 2, [(5, 50)], [1]⟩, some ⟨.timed 3 2, some 2, [(5, 50)], [1]⟩] := by decide +kernel

example : ((exec calmO demoOthers Impl.initWorld).bind fun w =>
      (Impl.assignBase calmO (fun _ => 0) .rvalue 3 2 w).state.map fun w' => (sights w').drop 2) =
    some [some ⟨.timed 3 1, some 2, [], []⟩, some ⟨.timed 3 2, some 2, [(5, 50)], [1]⟩] := by decide +kernel

/-- C85 is refuted: the order of use is not kept. -/
theorem C85_order_refuted :
    ¬ ∀ (O : Oracle Nat Nat) (mv : Nat → Nat) (w w' : World Nat Nat) (own : Nat → Bool) (i j : Nat) (a b a' : Cache Nat Nat),
      Calm O → Steady O → Prog O w own → own i = true → own j = true → i ≠ j → w.caches[i]? = some (some a) →
      w.caches[j]? = some (some b) → Impl.assignOther O mv .constLvalue i j w = .ok () w' →
      w'.caches[i]? = some (some a') → entries a' = entries b := by
  intro hall
  have hf : ((exec calmO demoOthers Impl.initWorld).map fun w => match w.caches[1]?, w.caches[0]? with
      | some (some a), some (some b) =>
        decide (a.capacity ≠ none ∧ entries b = [(2, 20), (3, 30), (1, 10)] ∧
          Impl.rangeOfCache b = [(3, 30), (2, 20), (1, 10)])
      | _, _ => false) = some true := by decide +kernel
  obtain ⟨w, he, -, hw⟩ := exec_fact hf
  have hr : Prog calmO w (fun _ => true) := (exec_reach (ok := fun op => op.copies = false) he
    (by intro op hop; revert op hop; decide) .init).prog
  split at hw
  · next a b ha hb =>
    obtain ⟨h1, h2, h3⟩ := of_decide_eq_true hw
    obtain ⟨w', h4⟩ := C85_assignment_returns (mv := id) calmO_calm hr (by decide) ha hb h1 .constLvalue
    obtain ⟨m, a', -, h5, -, h6, -⟩ := C85_const_source_partial calmO_calm.noListFault hr ha hb h4
    have h7 : w'.caches[1]? = some (some a') := by rw [h5]; exact set_get ha
    have h8 := hall calmO id w w' _ 1 0 a b a' calmO_calm calmO_steady hr rfl rfl (by decide) ha hb h4 h7
    rw [h6, h2, h3] at h8
    revert h8
    decide
  · cases hw

/-- C85 is refuted: what had expired in the source is served by the target, although both have the same time to live. -/
theorem C85_expired_refuted :
    ¬ ∀ (O : Oracle Nat Nat) (mv : Nat → Nat) (w w1 w' : World Nat Nat) (own : Nat → Bool) (i j : Nat) (a b : Cache Nat Nat) (k : Nat)
      (ttl : Int) (r r' : Nat) (v : Res Nat Nat) (w2 : World Nat Nat),
      Calm O → Steady O → Prog O w own → own i = true → own j = true → i ≠ j → w.caches[i]? = some (some a) →
      w.caches[j]? = some (some b) → a.kind = .timed ttl r → b.kind = .timed ttl r' →
      Impl.wstep O (.op j (.contains k)) w = .ok (.bool false) w1 → Impl.assignOther O mv .constLvalue i j w1 = .ok () w' →
      Impl.wstep O (.op i (.contains k)) w' = .ok v w2 → v = .bool false := by
  intro hall
  have hf : ((exec calmO demoOthers Impl.initWorld).map fun w => match w.caches[3]?, w.caches[2]? with
      | some (some a), some (some b) =>
        decide (a.kind = .timed 3 2 ∧ b.kind = .timed 3 1 ∧
          (Impl.wstep calmO (.op 2 (.contains 5)) w).result = some (.bool false) ∧
          ((Impl.wstep calmO (.op 2 (.contains 5)) w).state.map fun w1 => (Impl.assignOther calmO id .constLvalue 3 2 w1).result) =
            some (some ()) ∧
          ((Impl.wstep calmO (.op 2 (.contains 5)) w).state.map fun w1 =>
            (Impl.assignOther calmO id .constLvalue 3 2 w1).state.map fun w' =>
              (Impl.wstep calmO (.op 3 (.contains 5)) w').result) = some (some (some (.bool true))))
      | _, _ => false) = some true := by decide +kernel
  obtain ⟨w, he, -, hw⟩ := exec_fact hf
  have hr : Prog calmO w (fun _ => true) := (exec_reach (ok := fun op => op.copies = false) he
    (by intro op hop; revert op hop; decide) .init).prog
  split at hw
  · next a b ha hb =>
    obtain ⟨h1, h2, h3, h4, h5⟩ := of_decide_eq_true hw
    obtain ⟨w1, h6⟩ := Out.ok_of h3
    rw [h6] at h4 h5
    have h4 : some (Impl.assignOther calmO id .constLvalue 3 2 w1).result = some (some ()) := h4
    injection h4 with h4
    obtain ⟨w', h7⟩ := Out.ok_of h4
    have h5 : some ((Impl.assignOther calmO id .constLvalue 3 2 w1).state.map fun w' =>
      (Impl.wstep calmO (.op 3 (.contains 5)) w').result) = some (some (some (.bool true))) := h5
    rw [h7] at h5
    injection h5 with h5
    injection h5 with h5
    obtain ⟨w2, h8⟩ := Out.ok_of h5
    have := hall calmO id w w1 w' _ 3 2 a b 5 3 2 1 _ w2 calmO_calm calmO_steady hr rfl rfl (by decide) ha hb h1 h2 h6 h7 h8
    cases this
  · cases hw

/-- C85 is refuted: a source that is not an rvalue is not left alone. -/
theorem C85_source_refuted :
    ¬ ∀ (O : Oracle Nat Nat) (mv : Nat → Nat) (w w' : World Nat Nat) (own : Nat → Bool) (i j : Nat) (a b b' : Cache Nat Nat),
      Calm O → Steady O → Prog O w own → own i = true → own j = true → i ≠ j → w.caches[i]? = some (some a) →
      w.caches[j]? = some (some b) → Impl.assignOther O mv .lvalue i j w = .ok () w' →
      w'.caches[j]? = some (some b') → Impl.rangeOfCache b' = Impl.rangeOfCache b := by
  intro hall
  have hf : ((exec calmO demoOthers Impl.initWorld).map fun w => match w.caches[1]?, w.caches[0]? with
      | some (some a), some (some b) =>
        decide (a.capacity ≠ none ∧ Impl.rangeOfCache b = [(3, 30), (2, 20), (1, 10)])
      | _, _ => false) = some true := by decide +kernel
  obtain ⟨w, he, -, hw⟩ := exec_fact hf
  have hr : Prog calmO w (fun _ => true) := (exec_reach (ok := fun op => op.copies = false) he
    (by intro op hop; revert op hop; decide) .init).prog
  split at hw
  · next a b ha hb =>
    obtain ⟨h1, h2⟩ := of_decide_eq_true hw
    obtain ⟨w', h4⟩ := C85_assignment_returns (mv := fun _ => 0) calmO_calm hr (by decide) ha hb h1 .lvalue
    obtain ⟨m, a', -, h5, -⟩ := C85_other_source calmO_calm.noListFault hr (by decide) ha hb (by decide) h4
    have h7 : w'.caches[0]? = some (some { b with
        map := b.map.map fun x => { x with info := { x.info with value := 0 } } }) := by
      rw [h5]
      exact set_get (y := some b) (by rw [set_get_ne (by decide)]; exact hb)
    have h8 := hall calmO _ w w' _ 1 0 a b _ calmO_calm calmO_steady hr rfl rfl (by decide) ha hb h4 h7
    have h9 : Impl.rangeOfCache ({ b with map := b.map.map fun x => { x with info := { x.info with value := 0 } } } : Cache Nat Nat) =
        (Impl.rangeOfCache b).map fun p => (p.1, 0) := by
      simp [Impl.rangeOfCache]
    rw [h9, h2] at h8
    revert h8
    decide
  · cases hw

end LRU
