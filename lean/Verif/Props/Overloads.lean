import Verif.Proofs.Overloads
import Verif.Props.Ranges
/-!
# Which overload is called: C61, C63, C64

The overloads of `operator=` for ranges take lvalues that are not `const` for rvalues and move their elements away (C61).
Caches are ranges too: for a cache `b` that is not `const`, `a = b` does not call the copy assignment operator (C63) and
`Cache c(b)` not the copy constructor (C64). The three properties are refuted; beside each refutation stands what does
happen, and the cases in which the property holds (`_partial`).
-/

set_option linter.unusedSectionVars false
set_option autoImplicit false

namespace LRU

variable {K V : Type} [KeyEqual K] [DecidableEq K] [DecidableEq V] {O : Oracle K V}

/-! ### C61 -/

section ranges

variable {s s' : St (Cache K V) K V} {l left : List (K × V)} {mv : MovedFrom K V} {arg : Category}

/-- C61 where it holds: assigning a `const` range, and inserting a range that is not an rvalue, leave the range alone. -/
theorem C61_range_left_alone_partial :
    (∀ o, Impl.assignFrom O mv .constLvalue l s = some (o, left) → left = l ∧ o = Impl.assignRange O l s) ∧
    (∀ o, arg ≠ .rvalue → Impl.insertFrom O mv arg l s = some (o, left) → left = l ∧ o = Impl.insertRange O l s) := by
  constructor
  · intro o h
    injection (show some (Impl.assignRange O l s, l) = _ from h) with h
    injection h with h1 h2
    exact ⟨h2.symm, h1.symm⟩
  · intro o ha h
    cases arg with
    | rvalue => exact absurd rfl ha
    | lvalue | constLvalue =>
      injection (show some (Impl.insertRange O l s, l) = _ from h) with h
      injection h with h1 h2
      exact ⟨h2.symm, h1.symm⟩

theorem moveRange_left (hO : NoListFault O) {t : St (MCache K V) K V} (hr : Rel s t) (ht : Ok t) {m n : Nat}
    (hn : t.c.cap = some (n + 1)) (h : Impl.moveRange O mv l s = (.ok m s', left)) :
    left = l.map fun p => (mv.key p.1, mv.value p.2) := by
  induction l generalizing s t m left with
  | nil => injection h with _ h; exact h.symm
  | cons p l ih =>
    obtain ⟨k, v⟩ := p
    unfold Impl.moveRange at h
    cases he : Impl.emplace O k v s with
    | ok r s1 =>
      rw [he] at h
      simp only at h
      obtain ⟨t1, h1, h2⟩ := sim_ok (emplace_sim hO) hr he
      have h3 := emplace_out ht hO k v
      have h4 := emplace_keeps hO (k := k) (v := v) t ht
      rw [h1] at h3 h4
      have h4 : Step t t1 := h4
      have h5 : t1.c.cap = t.c.cap ∧ r.2 ≠ none := by
        generalize hg : Out.ok r t1 = o at h3
        cases h3 with
        | unset _ => cases hg
        | zero hz => rw [hn] at hz; cases hz
        | fault => cases hg
        | updateFault => cases hg
        | _ => injection hg with h6 h7; subst h6 h7; exact ⟨rfl, by simp⟩
      rw [if_neg h5.2] at h
      cases hm : Impl.moveRange O mv l s1 with
      | mk o rest =>
        rw [hm] at h
        cases o with
        | ok q s2 =>
          injection h with h6 h7
          injection h6 with h6 h8
          subst h8
          rw [← h7, ih h2 h4.ok (h5.1.trans hn) hm]
          rfl
        | _ => injection h with h6; cases h6
    | _ => rw [he] at h; injection h with h; cases h

/-- C61, what happens: an lvalue that is not `const` is treated like an rvalue, and every pair of it is moved from (for
every cache of every program, copies included). -/
theorem C61_lvalue_assignment_moves (hO : NoListFault O) {ok : WOp K V → Prop} {w : World K V} {i : Nat} {c : Cache K V}
    (hw : Reach O ok w) (hc : w.caches[i]? = some (some c))
    (h : Impl.assignFrom O mv .lvalue l (viewOf w i c) = some (.ok () s', left)) :
    Impl.assignFrom O mv .rvalue l (viewOf w i c) = some (.ok () s', left) ∧
    Returns O (.assignRangeMove l) (viewOf w i c) .unit s' ∧
    left = l.map fun p => (mv.key p.1, mv.value p.2) := by
  injection (show some (Impl.assignMoving O mv l (viewOf w i c)) = _ from h) with h
  have h1 := assignMoving_fst (O := O) mv l (viewOf w i c)
  refine ⟨congrArg some h, ret_ok_iff.2 ⟨(), ?_, rfl⟩, ?_⟩
  · rw [← h1, h]
  · obtain ⟨t, hr⟩ := hw.rel hO hc
    obtain ⟨hr0, ht0⟩ := hr.emptied
    unfold Impl.assignMoving at h
    rw [clearAndIncreaseCapacity_impl] at h
    cases hcap : (viewOf w i c).c.capacity with
    | none => rw [hcap] at h; injection h with h; cases h
    | some m =>
      rw [hcap] at h
      simp only at h
      cases l with
      | nil => injection h with _ h; exact h.symm
      | cons p l =>
        -- the emptied cache with its capacity raised
        have hrel : Rel (⟨{ (viewOf w i c).c with
            map := [], order := [], last := none, capacity := some (max m (p :: l).length) }, (viewOf w i c).g⟩ : St (Cache K V) K V)
              ⟨{ t.c with ents := [], last := none, cap := some (max m (p :: l).length) }, t.g⟩ ∧
            Ok (⟨{ t.c with ents := [], last := none, cap := some (max m (p :: l).length) }, t.g⟩ :
              St (MCache K V) K V) := by
          have w' : AWF ({ t.c with ents := [], last := none, cap := some (max m (p :: l).length) } : MCache K V) t.g :=
            ⟨by simp, by simp, by simp, by simp, by simp, by simp, by simp, by simp, by simp, by simp, hr.awf.extLt⟩
          exact ⟨⟨⟨rfl, List.Perm.refl _, rfl, rfl, hr.rep.kind, hr.rep.obs⟩, hr.g, w'⟩, ⟨w', ⟨by simp, by simp⟩⟩⟩
        cases hm : Impl.moveRange O mv (p :: l) ⟨{ (viewOf w i c).c with
            map := [], order := [], last := none, capacity := some (max m (p :: l).length) }, (viewOf w i c).g⟩ with
        | mk o rest =>
          rw [hm] at h
          cases o with
          | ok q s2 =>
            injection h with h6 h7
            rw [← h7]
            refine moveRange_left hO hrel.1 hrel.2 (n := max m (p :: l).length - 1) ?_ hm
            show some _ = some _
            congr 1
            simp
            omega
          | _ => injection h with h6; cases h6

/-- C61 is refuted: `cache = range` for a range that is not `const` modifies the range. -/
theorem C61_range_left_alone_refuted :
    ¬ ∀ (O : Oracle Nat Nat) (mv : MovedFrom Nat Nat) (l left : List (Nat × Nat)) (s : St (Cache Nat Nat) Nat Nat) (o),
      Calm O → Steady O → Reachable O s → Impl.assignFrom O mv .lvalue l s = some (o, left) → left = l := by
  intro h
  have h1 : ∃ o, Impl.assignFrom calmO ⟨id, fun _ => 0⟩ .lvalue [(7, 70)] (demoState calmO demo3 0) = some (o, [(7, 0)]) := by
    have : (Impl.assignFrom calmO ⟨id, fun _ => 0⟩ .lvalue [(7, 70)] (demoState calmO demo3 0)).map (·.2) =
      some [(7, 0)] := by decide +kernel
    obtain ⟨⟨o, left⟩, h2, h3⟩ := Option.map_eq_some_iff.1 this
    exact ⟨o, by rw [h2]; simp only at h3; rw [h3]⟩
  obtain ⟨o, h1⟩ := h1
  have := h calmO _ _ _ _ o calmO_calm calmO_steady demo3_reachable h1
  revert this
  decide

/-- The same assignment returns normally, so `C61_lvalue_assignment_moves` applies to it. -/
example : ((Impl.assignFrom calmO ⟨id, fun _ => 0⟩ .lvalue [(7, 70), (8, 80), (7, 71)] (demoState calmO demo3 0)).map
    fun p => (p.1.result, p.1.state.map fun s => entries s.c, p.2)) =
      some (some (), some [(8, 80), (7, 71)], [(7, 0), (8, 0), (7, 0)]) := by decide +kernel

end ranges

/-! ### C63 -/

section assignment

variable {mv : V → V} {i j : Nat} {w w' : World K V} {own : Nat → Bool} {a b : Cache K V}

/-- C63 where it holds: a `const` source is copied (see C27), an rvalue is moved (see C26). -/
theorem C63_assignment_copies_partial :
    Impl.assignCache O mv .constLvalue i j w = Impl.copyAssign O i j w ∧
    Impl.assignCache O mv .rvalue i j w = Impl.moveAssign i j w := ⟨rfl, rfl⟩

/-- C63, what happens for a source that is not `const`: the target takes the elements of the source in the order of the
hash table, not that of use; its capacity is only ever raised; it keeps its own statistics and callbacks; the insertion
times are new. The values of the source are moved from; else the source stays as it was. The resulting world is again
one that programs of the modelled steps reach, so all other theorems continue to apply. -/
theorem C63_lvalue_assignment (hO : NoListFault O) (hp : Prog O w own) (hij : i ≠ j)
    (ha : w.caches[i]? = some (some a)) (hb : w.caches[j]? = some (some b))
    (h : Impl.assignCache O mv .lvalue i j w = .ok () w') :
    ∃ m a', a.capacity = some m ∧
      w'.caches = (w.caches.set i (some a')).set j (some { b with
        map := b.map.map fun x => { x with info := { x.info with value := mv x.info.value } } }) ∧
      a'.capacity = some (if b.map.length ≤ m then m else b.map.length) ∧
      entries a' = Impl.rangeOfCache b ∧ a'.obs = a.obs ∧ a'.kind = a.kind ∧ Prog O w' (mark own i true) := by
  have h : Impl.assignElements O mv i j w = .ok () w' := h
  have hg : Impl.getCache j w = .ok b w := by unfold Impl.getCache; rw [hb]
  unfold Impl.assignElements at h
  rw [bind_ok hg, if_neg hij] at h
  have hpair := (trivial_own.prog hO hp).pair
  obtain ⟨t, hr⟩ := hpair.rel hb
  have hnd : (b.map.map (·.addr)).Nodup := by
    have h1 : (t.c.ents.map (·.id)).Nodup := hr.awf.ids
    have h2 : (b.map.map (·.addr)).Perm ((t.c.ents.map Ent.node).map (·.addr)) := hr.rep.map.map _
    rw [List.map_map] at h2
    exact h2.nodup_iff.2 h1
  have hd : (Impl.rangeOfCache b).Pairwise (fun x y => keq x.1 y.1 = false) := by
    have h2 : (Impl.rangeOfCache b).Perm ((t.c.ents.map Ent.node).map fun n => (n.key, n.info.value)) :=
      hr.rep.map.map _
    refine (h2.pairwise_iff (fun {x y} hxy => by rw [keq_comm]; exact hxy)).2 ?_
    rw [List.map_map, List.pairwise_map]
    exact hr.awf.keys
  cases hcap : a.capacity with
  | none =>
    have e := onCache_of (m := Impl.clearAndIncreaseCapacity b.map.length) ha
    rw [clearAndIncreaseCapacity_impl, show (viewOf w i a).c.capacity = none from hcap] at e
    cases (bind_ub e).symm.trans h
  | some m =>
    obtain ⟨e, hp1⟩ := clearAndIncrease_prog (n := b.map.length) hp ha hcap
    have h1 := (bind_ok e).symm.trans h
    have ha1 := get_set_self (x := some { a with
            map := [], order := [], last := none, capacity := some (max m b.map.length) }) ha
    have hb1 : (w.caches.set i (some { a with
            map := [], order := [], last := none, capacity := some (max m b.map.length) }))[j]? = some (some b) := by
      rw [get_set_other hij]; exact hb
    have hmax : max m b.map.length = if b.map.length ≤ m then m else b.map.length := by split <;> omega
    cases hbm : b.map with
    | nil =>
      rw [hbm] at h1 hp1
      injection h1 with _ h1
      subst h1
      refine ⟨m, { a with map := [], order := [], last := none, capacity := some (max m 0) }, rfl, ?_, ?_, ?_, rfl, rfl, hp1⟩
      · show w.caches.set i _ = _
        have e2 : ({ b with map := ([] : List (MapNode K V)).map fun x =>
            { x with info := { x.info with value := mv x.info.value } } } : Cache K V) = b := by rw [List.map_nil, ← hbm]
        rw [e2]
        apply List.ext_getElem?
        intro q
        have h2 := (List.getElem?_eq_some_iff.1 hb).1
        simp only [List.getElem?_set, List.length_set]
        by_cases h3 : j = q
        · subst h3; rw [if_pos rfl, if_pos h2, if_neg hij, hb]
        · rw [if_neg h3]; rfl
      · simp
      · unfold Impl.rangeOfCache entries
        rw [hbm]
        rfl
    | cons x r =>
      have hpos : ∃ n, max m b.map.length = n + 1 := ⟨max m b.map.length - 1, by rw [hbm]; simp; omega⟩
      obtain ⟨n, hn⟩ := hpos
      obtain ⟨hp2, a', h2, h3, h4, h5, h6⟩ := moveElements_ok (mv := mv) hO hij b.map hp1 mark_eq ha1 hb1 (n := n)
        (by show some _ = _; rw [hn]) (fun y hy => List.mem_map.2 ⟨y, hy, rfl⟩) h1
      rw [← hbm]
      refine ⟨m, a', rfl, ?_, ?_, ?_, h5, h6, hp2⟩
      · rw [h2, drained_self mv b hnd]
        show ((w.caches.set i _).set i _).set j _ = _
        rw [List.set_set]
      · rw [h3, ← hmax]
      · have h7 := run_puts_distinct (Impl.rangeOfCache b) (⟨some (max m b.map.length), []⟩ : Lru K V) rfl
          (by simp [Impl.rangeOfCache]; omega) (by simpa using hd)
        have h8 : asLru a' = ⟨some (max m b.map.length), [] ++ Impl.rangeOfCache b⟩ := h4.trans h7
        have h9 : (asLru a').items = [] ++ Impl.rangeOfCache b := by rw [h8]
        exact h9

/-- C63, what happens: assigning a cache that is not `const` to itself empties it. -/
theorem C63_self_assignment_empties (ha : w.caches[i]? = some (some a)) {m : Nat} (hm : a.capacity = some m) :
    Impl.assignCache O mv .lvalue i i w =
      .ok () ⟨w.caches.set i (some { a with map := [], order := [], last := none }), (viewOf w i a).g⟩ := by
  show Impl.assignElements O mv i i w = _
  have hg : Impl.getCache i w = .ok a w := by unfold Impl.getCache; rw [ha]
  unfold Impl.assignElements
  rw [bind_ok hg, if_pos rfl, onCache_of ha, clearAndIncreaseCapacity_impl,
    show (viewOf w i a).c.capacity = some m from hm]
  simp only [Nat.max_zero, ← hm]
  rfl

end assignment

/-- Two plain caches, the first with one entry, the second with three. -/
def demoPair : List (WOp Nat Nat) :=
  [.create .basic (.sized 2), .op 0 (.insert 9 90), .create .basic (.sized 3), .op 1 (.insert 1 10),
   .op 1 (.insert 2 20), .op 1 (.insert 3 30)]

theorem demoPair_world : ∃ w a b, exec calmO demoPair Impl.initWorld = some w ∧ Prog calmO w (fun _ => true) ∧
    w.caches[0]? = some (some a) ∧ w.caches[1]? = some (some b) ∧ a.kind = .basic ∧ b.kind = .basic := by
  have h : ((exec calmO demoPair Impl.initWorld).map fun w => (w.caches.map fun c => c.map fun c => c.kind)) =
    some [some .basic, some .basic] := by decide +kernel
  obtain ⟨w, h1, h2⟩ := Option.map_eq_some_iff.1 h
  have hlen : w.caches.length = 2 := by have := congrArg List.length h2; simpa using this
  match hw : w.caches, hlen with
  | [x, y], _ =>
    rw [hw] at h2
    simp only [List.map_cons, List.map_nil, List.cons.injEq, and_true] at h2
    obtain ⟨h3, h4⟩ := h2
    obtain ⟨a, rfl, ha⟩ := Option.map_eq_some_iff.1 h3
    obtain ⟨b, rfl, hb⟩ := Option.map_eq_some_iff.1 h4
    exact ⟨w, a, b, h1, (exec_reach (ok := fun op => op.copies = false) h1
      (by intro op hop; revert op hop; decide) .init).prog, by rw [hw]; rfl, by rw [hw]; rfl, ha, hb⟩

/-- C63 is refuted: after `a = b` the two need not compare equal, even if moving a value leaves it unchanged. -/
theorem C63_assignment_copies_refuted :
    ¬ ∀ (O : Oracle Nat Nat) (mv : Nat → Nat) (w w' : World Nat Nat) (own : Nat → Bool) (i j : Nat) (a b : Cache Nat Nat),
      Calm O → Steady O → Prog O w own → own i = true → own j = true → i ≠ j → w.caches[i]? = some (some a) →
      w.caches[j]? = some (some b) → a.kind = b.kind → Impl.assignCache O mv .lvalue i j w = .ok () w' →
      Impl.wstep O (.eq i j) w' = .ok (.bool true) w' := by
  intro h
  obtain ⟨w, a, b, hw, hp, ha, hb, ka, kb⟩ := demoPair_world
  have h1 : ((exec calmO demoPair Impl.initWorld).bind fun w => (Impl.assignCache calmO id .lvalue 0 1 w).state.bind fun w' =>
      (Impl.wstep calmO (.eq 0 1) w').result) = some (.bool false) := by decide +kernel
  have h2 : ((exec calmO demoPair Impl.initWorld).map fun w => (Impl.assignCache calmO id .lvalue 0 1 w).result) =
      some (some ()) := by decide +kernel
  rw [hw] at h1 h2
  simp only [Option.map_some, Option.some.injEq] at h2
  obtain ⟨w', h3⟩ := Out.ok_of h2
  have h4 : (Impl.assignCache calmO id .lvalue 0 1 w).state = some w' := by rw [h3]; rfl
  have h5 : ((Impl.assignCache calmO id .lvalue 0 1 w).state.bind fun w' =>
      (Impl.wstep calmO (.eq 0 1) w').result) = some (.bool false) := h1
  rw [h4] at h5
  have h6 := h calmO id w w' _ 0 1 a b calmO_calm calmO_steady hp rfl rfl (by decide) ha hb (ka.trans kb.symm) h3
  have h5 : (Impl.wstep calmO (.eq 0 1) w').result = some (.bool false) := h5
  rw [h6] at h5
  cases h5

/-- C63 is refuted: `a = b` need not leave `b` unchanged. -/
theorem C63_source_unchanged_refuted :
    ¬ ∀ (O : Oracle Nat Nat) (mv : Nat → Nat) (w w' : World Nat Nat) (own : Nat → Bool) (i j : Nat) (a b : Cache Nat Nat),
      Calm O → Steady O → Prog O w own → own i = true → own j = true → i ≠ j → w.caches[i]? = some (some a) →
      w.caches[j]? = some (some b) → a.kind = b.kind → Impl.assignCache O mv .lvalue i j w = .ok () w' →
      (w'.caches[j]?.map fun c => c.map entries) = some (some (entries b)) := by
  intro h
  obtain ⟨w, a, b, hw, hp, ha, hb, ka, kb⟩ := demoPair_world
  have h1 : ((exec calmO demoPair Impl.initWorld).bind fun w => (Impl.assignCache calmO (fun _ => 0) .lvalue 0 1 w).state.map
      fun w' => (w'.caches[1]?.map fun c => c.map entries, w.caches[1]?.map fun c => c.map entries)) =
      some (some (some [(1, 0), (2, 0), (3, 0)]), some (some [(1, 10), (2, 20), (3, 30)])) := by decide +kernel
  have h2 : ((exec calmO demoPair Impl.initWorld).map fun w => (Impl.assignCache calmO (fun _ => 0) .lvalue 0 1 w).result) =
      some (some ()) := by decide +kernel
  rw [hw] at h1 h2
  simp only [Option.map_some, Option.some.injEq] at h2
  obtain ⟨w', h3⟩ := Out.ok_of h2
  have h4 : (Impl.assignCache calmO (fun _ => 0) .lvalue 0 1 w).state = some w' := by rw [h3]; rfl
  have h5 : ((Impl.assignCache calmO (fun _ => 0) .lvalue 0 1 w).state.map
      fun w' => (w'.caches[1]?.map fun c => c.map entries, w.caches[1]?.map fun c => c.map entries)) =
      some (some (some [(1, 0), (2, 0), (3, 0)]), some (some [(1, 10), (2, 20), (3, 30)])) := h1
  rw [h4, hb] at h5
  have h6 := h calmO _ w w' _ 0 1 a b calmO_calm calmO_steady hp rfl rfl (by decide) ha hb (ka.trans kb.symm) h3
  injection h5 with h5
  injection h5 with h7 h8
  rw [h7] at h6
  have h8 : some (some (entries b)) = some (some [(1, 10), (2, 20), (3, 30)]) := h8
  rw [h8] at h6
  revert h6
  decide

/-- Self-assignment of the second cache, which holds three entries (`C63_self_assignment_empties`). -/
example : ((exec calmO demoPair Impl.initWorld).bind fun w => (Impl.assignCache calmO id .lvalue 1 1 w).state.map
    fun w' => (w.caches[1]?.map fun c => c.map entries, w'.caches[1]?.map fun c => c.map entries)) =
      some (some (some [(1, 10), (2, 20), (3, 30)]), some (some [])) := by decide +kernel

/-! ### C64 -/

section construction

variable {j : Nat} {w w' : World K V} {own : Nat → Bool} {b : Cache K V}

/-- C64 where it holds: `Cache c(b)` copies a `const` cache (see C27) and moves an rvalue (see C26). -/
theorem C64_construction_copies_partial :
    Impl.constructCache O .constLvalue j w = Impl.copyCtor O j w ∧
    Impl.constructCache (K := K) (V := V) O .rvalue j w = Impl.moveCtor j w := ⟨rfl, rfl⟩

/-- C64, what happens for a source that is not `const`: the new cache holds the elements of the source in the order of
the hash table, not that of use. Its capacity is the number of elements, or 128 if that is more, whatever the capacity of
the source; it has neither statistics nor callbacks. The source is left alone. -/
theorem C64_lvalue_construction (hO : NoListFault O) {ok : WOp K V → Prop} (hw : Reach O ok w)
    (hb : w.caches[j]? = some (some b)) (h : Impl.constructCache O .lvalue j w = .ok () w') :
    ∃ c, w'.caches = w.caches ++ [some c] ∧ c.capacity = some (if b.map.length ≤ 128 then 128 else b.map.length) ∧
      entries c = Impl.rangeOfCache b ∧ c.kind = .basic := by
  have hg : Impl.getCache j w = .ok b w := by unfold Impl.getCache; rw [hb]
  have h : (Impl.getCache j >>= fun b => Impl.create O .basic (.items (Impl.rangeOfCache b))) w = .ok () w' := h
  rw [bind_ok hg] at h
  have h1 : WPerforms O (.create .basic (.items (Impl.rangeOfCache b))) w (.ok .unit) w' := ret_ok_iff.2 ⟨(), h, rfl⟩
  obtain ⟨c, h2, h3, h4, h5, _⟩ := C31_constructors hO hw h1
  have hlen : (Impl.rangeOfCache b).length = b.map.length := by simp [Impl.rangeOfCache]
  refine ⟨c, h2, ?_, ?_, h3⟩
  · rw [h4]
    show some (if (Impl.rangeOfCache b).length ≤ 128 then 128 else (Impl.rangeOfCache b).length) = _
    rw [hlen]
  · obtain ⟨t, hr⟩ := hw.rel hO hb
    have hd : (Impl.rangeOfCache b).Pairwise (fun x y => keq x.1 y.1 = false) := by
      have h2 : (Impl.rangeOfCache b).Perm ((t.c.ents.map Ent.node).map fun n => (n.key, n.info.value)) :=
        hr.rep.map.map _
      refine (h2.pairwise_iff (fun {x y} hxy => by rw [keq_comm]; exact hxy)).2 ?_
      rw [List.map_map, List.pairwise_map]
      exact hr.awf.keys
    have h7 := run_puts_distinct (Impl.rangeOfCache b)
      (⟨some (Ctor.promised (.items (Impl.rangeOfCache b))), []⟩ : Lru K V) rfl
      (by
        show 0 + _ ≤ if (Impl.rangeOfCache b).length ≤ 128 then 128 else (Impl.rangeOfCache b).length
        split <;> omega) (by simpa using hd)
    have h9 : (asLru c).items = [] ++ Impl.rangeOfCache b := by
      rw [h5]
      exact congrArg Lru.items h7
    exact h9

end construction

/-- C64 is refuted: a cache constructed as `Cache c(b)` need not compare equal to `b`, nor have its capacity. -/
theorem C64_construction_copies_refuted :
    (¬ ∀ (O : Oracle Nat Nat) (w w' : World Nat Nat) (own : Nat → Bool) (j : Nat) (b : Cache Nat Nat),
      Calm O → Steady O → Prog O w own → own j = true → w.caches[j]? = some (some b) → b.kind = .basic →
      Impl.constructCache O .lvalue j w = .ok () w' → Impl.wstep O (.eq w.caches.length j) w' = .ok (.bool true) w') ∧
    (¬ ∀ (O : Oracle Nat Nat) (w w' : World Nat Nat) (own : Nat → Bool) (j : Nat) (b : Cache Nat Nat),
      Calm O → Steady O → Prog O w own → own j = true → w.caches[j]? = some (some b) → b.kind = .basic →
      Impl.constructCache O .lvalue j w = .ok () w' →
      (w'.caches[w.caches.length]?.map fun c => c.map (·.capacity)) = some (some b.capacity)) := by
  obtain ⟨w, a, b, hw, hp, ha, hb, ka, kb⟩ := demoPair_world
  have h1 : ((exec calmO demoPair Impl.initWorld).bind fun w => (Impl.constructCache calmO .lvalue 1 w).state.map fun w' =>
      (w.caches.length, (Impl.wstep calmO (.eq 2 1) w').result, w'.caches[2]?.map fun c => c.map (·.capacity))) =
      some (2, some (.bool false), some (some (some 128))) := by decide +kernel
  have h2 : ((exec calmO demoPair Impl.initWorld).map fun w => ((Impl.constructCache calmO .lvalue 1 w).result,
      w.caches[1]?.map fun c => c.map (·.capacity))) = some (some (), some (some (some 3))) := by decide +kernel
  rw [hw] at h1 h2
  simp only [Option.map_some, Option.some.injEq, Prod.mk.injEq] at h2
  obtain ⟨h2, h2c⟩ := h2
  obtain ⟨w', h3⟩ := Out.ok_of h2
  have h4 : (Impl.constructCache calmO .lvalue 1 w).state = some w' := by rw [h3]; rfl
  have h5 : ((Impl.constructCache calmO .lvalue 1 w).state.map fun w' =>
      (w.caches.length, (Impl.wstep calmO (.eq 2 1) w').result, w'.caches[2]?.map fun c => c.map (·.capacity))) =
      some (2, some (.bool false), some (some (some 128))) := h1
  rw [h4] at h5
  injection h5 with h5
  injection h5 with h6 h5
  injection h5 with h7 h8
  constructor
  · intro h
    have h9 := h calmO w w' _ 1 b calmO_calm calmO_steady hp rfl hb kb h3
    rw [h6] at h9
    rw [h9] at h7
    cases h7
  · intro h
    have h9 := h calmO w w' _ 1 b calmO_calm calmO_steady hp rfl hb kb h3
    rw [h6, h8] at h9
    rw [hb] at h2c
    simp only [Option.map_some, Option.some.injEq] at h2c
    rw [h2c] at h9
    revert h9
    decide

/-- On timed caches assignment gives the entries new insertion times: an entry that has expired in the source has not in
the target. -/
example : ((exec calmO ([.create (.timed 3 1) (.sized 2), .op 0 (.insert 1 10), .op 0 (.lookup 1), .op 0 (.lookup 1),
      .op 0 (.contains 1), .op 0 (.contains 1), .create (.timed 3 1) (.sized 2)] : List (WOp Nat Nat)) Impl.initWorld).bind
    fun w => (Impl.assignCache calmO id .lvalue 1 0 w).state.bind fun w' =>
      (Impl.wstep calmO (.op 0 (.contains 1)) w').state.bind fun w'' =>
        some ((Impl.wstep calmO (.op 0 (.contains 1)) w').result, (Impl.wstep calmO (.op 1 (.contains 1)) w'').result)) =
      some (some (.bool false), some (.bool true)) := by decide +kernel

end LRU
