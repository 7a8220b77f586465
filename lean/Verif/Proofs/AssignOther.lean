import Verif.Proofs.TimedMachine
import Verif.Props.Overloads
/-!
# Assignment between caches of different types: lemmas for `Props.AssignOther`
-/

set_option linter.unusedSectionVars false
set_option autoImplicit false

namespace LRU

variable {K V : Type} [KeyEqual K] [DecidableEq K] [DecidableEq V] {O : Oracle K V}
  {mv : V → V} {i j : Nat} {w w' : World K V} {own : Nat → Bool} {a b : Cache K V} {ttl : Int} {res : Nat} {now : Int}

theorem Prog.reach (h : Prog O w own) : Reach O (fun _ => True) w := by
  induction h with
  | init => exact .init
  | step op _ hs ih => exact .step op ih trivial hs
  | throw op _ hs ih => exact .throw op ih trivial hs

theorem getCache_of (h : w.caches[i]? = some (some a)) : Impl.getCache i w = .ok a w := by
  unfold Impl.getCache; rw [h]

/-- The pairs of a cache have different keys. -/
theorem rangeOfCache_distinct (hO : NoListFault O) (hp : Prog O w own) (hb : w.caches[j]? = some (some b)) :
    (Impl.rangeOfCache b).Pairwise (fun x y => keq x.1 y.1 = false) := by
  obtain ⟨t, hr⟩ := (trivial_own.prog hO hp).pair.rel hb
  have h2 : (Impl.rangeOfCache b).Perm ((t.c.ents.map Ent.node).map fun n => (n.key, n.info.value)) :=
    hr.rep.map.map _
  refine (h2.pairwise_iff (fun {x y} hxy => by rw [keq_comm]; exact hxy)).2 ?_
  rw [List.map_map, List.pairwise_map]
  exact hr.awf.keys

/-- The world as a member function of cache `i` leaves it, seen from that cache. -/
theorem viewOf_after {c : Cache K V} {s : St (Cache K V) K V} (he : s.g.ext = (viewOf w i c).g.ext) :
    viewOf ⟨w.caches.set i (some s.c), s.g⟩ i s.c = s := by
  obtain ⟨c', g⟩ := s
  have he : g.ext = Impl.allNodes (w.caches.set i none) := he
  unfold viewOf
  simp only [List.set_set]
  rw [← he]

/-- The times of a cache after an insertion: those that were there, and the time of the insertion. -/
theorem insert_times {s s' : St (Cache K V) K V} {op : Op K V} {r : Res K V} {k : K} {v : V} (hO : NoListFault O)
    (h : Reachable O s) (hk : s.c.kind = .timed ttl res) (hi : op.Inserts k v) (hd : Returns O op s r s')
    {x : MapNode K V} (hx : x ∈ elements s'.c) :
    (∃ y ∈ elements s.c, y.info.time = x.info.time) ∨ (s.g.ticks < s'.g.ticks ∧ x.info.time = O.clock s.g.ticks) := by
  obtain ⟨t, t', b, p, hr, ht, ho, hr', rfl⟩ := h.inserts hO hi hd
  have hk' : t.c.kind = .timed ttl res := by rw [← hr.rep.kind, hk]
  rw [hr'.elements] at hx
  obtain ⟨e, he, rfl⟩ := List.mem_map.1 hx
  have old : (∃ e' ∈ t.c.ents, e'.time = e.time) →
      (∃ y ∈ elements s.c, y.info.time = e.node.info.time) ∨ (s.g.ticks < s'.g.ticks ∧ e.node.info.time = O.clock s.g.ticks) := by
    rintro ⟨e', h1, h2⟩
    exact .inl ⟨e'.node, by rw [hr.elements]; exact List.mem_map_of_mem h1, h2⟩
  have new : s'.g.ticks = s.g.ticks + t.c.kind.reads → e.time = t.c.kind.stamp (O.clock t.g.ticks) →
      (∃ y ∈ elements s.c, y.info.time = e.node.info.time) ∨ (s.g.ticks < s'.g.ticks ∧ e.node.info.time = O.clock s.g.ticks) := by
    intro h1 h2
    rw [hk'] at h1 h2
    refine .inr ⟨by rw [h1]; exact Nat.lt_succ_self _, ?_⟩
    rw [hr.g]
    exact h2
  cases ho with
  | zero => exact old ⟨e, he, rfl⟩
  | full g' e1 r n hf hc he1 hn _ _ htk =>
    rcases List.mem_append.1 he with he | he
    · exact old ⟨e, by rw [he1]; exact List.mem_cons_of_mem _ he, rfl⟩
    · rw [List.mem_singleton.1 he] at new ⊢
      exact new (by rw [hr.g, hr'.g]; exact htk.2) rfl
  | room g' n q hf hc hn _ _ _ htk =>
    rcases List.mem_append.1 he with he | he
    · exact old ⟨e, he, rfl⟩
    · rw [List.mem_singleton.1 he] at new ⊢
      exact new (by rw [hr.g, hr'.g]; exact htk.2.2) rfl
  | update g' e1 n hf hc =>
    rcases List.mem_append.1 he with he | he
    · exact old ⟨e, (List.mem_filter.1 he).1, rfl⟩
    · rw [List.mem_singleton.1 he] at old ⊢
      exact old ⟨e1, List.mem_of_find?_eq_some hf, rfl⟩

/-- All times of a cache are readings of the clock from a certain interval. -/
def ReadIn (O : Oracle K V) (lo hi : Nat) (c : Cache K V) : Prop :=
  ∀ x ∈ elements c, ∃ n, lo ≤ n ∧ n < hi ∧ x.info.time = O.clock n

theorem ReadIn.insert {s s' : St (Cache K V) K V} {op : Op K V} {r : Res K V} {k : K} {v : V} {lo : Nat} (hO : NoListFault O)
    (h : Reachable O s) (hk : s.c.kind = .timed ttl res) (hi : op.Inserts k v) (hd : Returns O op s r s')
    (hlo : lo ≤ s.g.ticks) (ht : ReadIn O lo s.g.ticks s.c) : ReadIn O lo s'.g.ticks s'.c := by
  intro x hx
  have h1 := hd.ticks_le_of_inserts hO h hi
  rcases insert_times hO h hk hi hd hx with ⟨y, hy, h2⟩ | ⟨h2, h3⟩
  · obtain ⟨n, h3, h4, h5⟩ := ht y hy
    exact ⟨n, h3, Nat.lt_of_lt_of_le h4 h1, by rw [← h2, h5]⟩
  · exact ⟨_, hlo, h2, h3⟩

theorem OneByOne.readIn {s s' : St (Cache K V) K V} {ins : K → V → Op K V} (hins : ∀ k v, (ins k v).Inserts k v)
    (hO : NoListFault O) {l : List (K × V)} {res' : Except Err Nat} (h1 : OneByOne O ins l s res' s') (h : Reachable O s)
    (hk : s.c.kind = .timed ttl res) {lo : Nat} (hlo : lo ≤ s.g.ticks) (ht : ReadIn O lo s.g.ticks s.c) (n : Nat)
    (hn : res' = .ok n) : ReadIn O lo s'.g.ticks s'.c := by
  induction h1 generalizing n with
  | nil s => exact ht
  | new hd hrest ih =>
    exact ih (h.after hO hd) ((performs_kind (res := .ok _) hd).trans hk)
      (Nat.le_trans hlo (hd.ticks_le_of_inserts hO h (hins _ _))) (ht.insert hO h hk (hins _ _) hd hlo) _ rfl
  | old hd hrest ih =>
    exact ih (h.after hO hd) ((performs_kind (res := .ok _) hd).trans hk)
      (Nat.le_trans hlo (hd.ticks_le_of_inserts hO h (hins _ _))) (ht.insert hO h hk (hins _ _) hd hlo) _ rfl
  | later => cases hn
  | now => cases hn

/-- What is stored got its time during the loop. -/
theorem moveElements_stamps (hO : NoListFault O) (hij : i ≠ j) (l : List (MapNode K V)) (hp : Prog O w own)
    (hi : own i = true) (ha : w.caches[i]? = some (some a)) (hb : w.caches[j]? = some (some b)) {n : Nat}
    (hn : a.capacity = some (n + 1)) (hk : a.kind = .timed ttl res) (hl : ∀ x ∈ l, x.addr ∈ b.map.map (·.addr))
    (h : Impl.moveElements O mv i j l w = .ok () w') {lo : Nat} (hlo : lo ≤ w.g.ticks) (ht : ReadIn O lo w.g.ticks a) :
    ∃ a', w'.caches[i]? = some (some a') ∧ ReadIn O lo w'.g.ticks a' := by
  induction l generalizing w a b with
  | nil =>
    injection h with _ h
    subst h
    exact ⟨a, ha, ht⟩
  | cons x l ih =>
    cases he : Impl.onCache i (Impl.emplace O x.key x.info.value) w with
    | ok r w1 =>
      have h1 := (bind_ok he).symm.trans h
      have he' := he
      obtain ⟨hp1, hr, a1, g1, rfl, hc1, hl1, ho1, hk1⟩ := emplace_returns hO hp hi ha hn he
      rw [if_neg hr] at h1
      obtain ⟨c, s, hc, hs, hw⟩ := onCache_ok he'
      rw [ha] at hc
      injection hc with hc
      injection hc with hc
      subst hc
      injection hw with hw1 hw2
      have hs1 : s.c = a1 := by
        have e := congrArg (fun l => l[i]?) hw1
        simp only [get_set_self ha] at e
        injection e with e
        injection e with e
        exact e.symm
      have hd : Returns O (.emplace x.key x.info.value) (viewOf w i a) (.inserted r.1 r.2) s := bind_ok hs
      have hre : Reachable O (viewOf w i a) := ⟨w, own, i, a, hp, hi, ha, rfl⟩
      have t1 : w.g.ticks ≤ s.g.ticks := hd.ticks_le_of_inserts hO hre (.inr rfl)
      have hb1 : (⟨w.caches.set i (some a1), g1⟩ : World K V).caches[j]? = some (some b) := by
        show (w.caches.set i (some a1))[j]? = _
        rw [get_set_other hij]; exact hb
      have hx := hl x (List.mem_cons_self ..)
      have hw3 := onCache_of (m := Impl.write x.addr (mv x.info.value)) hb1
      rw [write_impl (s := viewOf _ j b) hx] at hw3
      have h2 := (bind_ok hw3).symm.trans h1
      obtain ⟨w2, hw4, hp2, g2, rfl⟩ := write_returns hp1 hb1 hx (mv x.info.value)
      have hg2 : g2.ticks = s.g.ticks := by
        have e := hw3.symm.trans hw4
        injection e with _ e
        injection e with _ e
        rw [← e, ← hw2]
        rfl
      have h2 := (bind_ok hw4).symm.trans h1
      have ha2 : (⟨(w.caches.set i (some a1)).set j (some { b with map := b.map.map (fun m => if m.addr = x.addr then
          { m with info := { m.info with value := mv x.info.value } } else m) }), g2⟩ : World K V).caches[i]? =
          some (some a1) := by
        show (List.set _ _ _)[i]? = _
        rw [get_set_other (Ne.symm hij)]
        exact get_set_self ha
      have hl2 : ∀ y ∈ l, y.addr ∈ (b.map.map (fun m => if m.addr = x.addr then
          { m with info := { m.info with value := mv x.info.value } } else m)).map (·.addr) :=
        fun y hy => by rw [drained_addrs]; exact hl y (List.mem_cons_of_mem _ hy)
      have h3 := ReadIn.insert hO hre hk (.inr rfl) hd hlo ht
      rw [hs1] at h3
      exact ih hp2 ha2 (get_set_self hb1) (hc1.trans hn) (hk1.trans hk) hl2 h2
        (by show lo ≤ g2.ticks; rw [hg2]; exact Nat.le_trans hlo t1) (by show ReadIn O lo g2.ticks a1; rw [hg2]; exact h3)
    | _ =>
      have h : M.bind _ _ w = _ := h
      unfold M.bind at h
      rw [he] at h
      cases h

/-- Moving the elements completes if nothing fails. -/
theorem moveElements_calm (hC : Calm O) (hij : i ≠ j) (l : List (MapNode K V)) (hp : Prog O w own)
    (hi : own i = true) (ha : w.caches[i]? = some (some a)) (hb : w.caches[j]? = some (some b)) {n : Nat}
    (hn : a.capacity = some (n + 1)) (hl : ∀ x ∈ l, x.addr ∈ b.map.map (·.addr)) :
    ∃ w', Impl.moveElements O mv i j l w = .ok () w' := by
  have hO := hC.noListFault
  induction l generalizing w a b with
  | nil => exact ⟨w, rfl⟩
  | cons x l ih =>
    obtain ⟨t, hr, ht⟩ := hp.view hO hi ha
    obtain ⟨r, t1, h1, -⟩ := (emplace_out ht hO x.key x.info.value).calm hC (by rw [← hr.rep.cap]; show a.capacity ≠ none; rw [hn]; simp)
    obtain ⟨s1, h2⟩ := back_ok' (emplace_sim hO) hr h1
    have he : Impl.onCache i (Impl.emplace O x.key x.info.value) w = .ok r ⟨w.caches.set i (some s1.c), s1.g⟩ := by
      rw [onCache_of ha, h2]
    obtain ⟨hp1, hr1, a1, g1, hw1, hc1, -, -, -⟩ := emplace_returns hO hp hi ha hn he
    rw [hw1] at he hp1
    have hb1 : (⟨w.caches.set i (some a1), g1⟩ : World K V).caches[j]? = some (some b) := by
      show (w.caches.set i (some a1))[j]? = _
      rw [get_set_other hij]; exact hb
    obtain ⟨w2, hw2, hp2, g2, rfl⟩ := write_returns hp1 hb1 (hl x (List.mem_cons_self ..)) (mv x.info.value)
    have ha2 : (⟨(w.caches.set i (some a1)).set j (some { b with map := b.map.map (fun m => if m.addr = x.addr then
        { m with info := { m.info with value := mv x.info.value } } else m) }), g2⟩ : World K V).caches[i]? =
        some (some a1) := by
      show (List.set _ _ _)[i]? = _
      rw [get_set_other (Ne.symm hij)]
      exact get_set_self ha
    obtain ⟨w', h3⟩ := ih hp2 ha2 (get_set_self hb1) (hc1.trans hn)
      (fun y hy => by rw [drained_addrs]; exact hl y (List.mem_cons_of_mem _ hy))
    refine ⟨w', (bind_ok he).trans ?_⟩
    rw [if_neg hr1]
    exact (bind_ok hw2).trans h3

/-- Moving the elements stops with the first one whose insertion throws: the values before it have been moved. -/
theorem moveElements_threw (hO : NoListFault O) (hij : i ≠ j) (l : List (MapNode K V)) (hp : Prog O w own)
    (hi : own i = true) (ha : w.caches[i]? = some (some a)) (hb : w.caches[j]? = some (some b)) {n : Nat}
    (hn : a.capacity = some (n + 1)) (hl : ∀ x ∈ l, x.addr ∈ b.map.map (·.addr)) {e : Err}
    (h : Impl.moveElements O mv i j l w = .throw e w') :
    ∃ m a', m < l.length ∧ w'.caches = (w.caches.set i (some a')).set j (some (b.drained mv (l.take m))) := by
  induction l generalizing w a b with
  | nil => cases h
  | cons x l ih =>
    cases he : Impl.onCache i (Impl.emplace O x.key x.info.value) w with
    | ok r w1 =>
      have h1 := (bind_ok he).symm.trans h
      obtain ⟨hp1, hr, a1, g1, rfl, hc1, -, -, -⟩ := emplace_returns hO hp hi ha hn he
      rw [if_neg hr] at h1
      have hb1 : (⟨w.caches.set i (some a1), g1⟩ : World K V).caches[j]? = some (some b) := by
        show (w.caches.set i (some a1))[j]? = _
        rw [get_set_other hij]; exact hb
      obtain ⟨w2, hw2, hp2, g2, rfl⟩ := write_returns hp1 hb1 (hl x (List.mem_cons_self ..)) (mv x.info.value)
      have h2 := (bind_ok hw2).symm.trans h1
      have ha2 : (⟨(w.caches.set i (some a1)).set j (some { b with map := b.map.map (fun m => if m.addr = x.addr then
          { m with info := { m.info with value := mv x.info.value } } else m) }), g2⟩ : World K V).caches[i]? =
          some (some a1) := by
        show (List.set _ _ _)[i]? = _
        rw [get_set_other (Ne.symm hij)]
        exact get_set_self ha
      obtain ⟨m, a', h3, h4⟩ := ih hp2 ha2 (get_set_self hb1) (hc1.trans hn)
        (fun y hy => by rw [drained_addrs]; exact hl y (List.mem_cons_of_mem _ hy)) h2
      refine ⟨m + 1, a', by simpa using h3, ?_⟩
      rw [h4]
      show ((List.set (List.set _ _ _) _ _).set i _).set j _ = _
      rw [set_two _ _ _ (Ne.symm hij), List.set_set, List.set_set]
      rfl
    | throw e1 w1 =>
      have h1 := (bind_throw he).symm.trans h
      injection h1 with _ h1
      subst h1
      obtain ⟨c, s', hc, -, rfl⟩ := onCache_threw he
      refine ⟨0, s'.c, Nat.succ_pos _, ?_⟩
      show w.caches.set i (some s'.c) = _
      apply List.ext_getElem?
      intro q
      show _ = ((w.caches.set i (some s'.c)).set j (some b))[q]?
      by_cases h4 : j = q
      · subst h4
        rw [get_set_other hij, get_set_self (by rw [get_set_other hij]; exact hb), hb]
      · rw [get_set_other h4]
    | _ =>
      have h : M.bind _ _ w = _ := h
      unfold M.bind at h
      rw [he] at h
      cases h

/-- A cache from which the values of the first `m` nodes have been moved. -/
theorem drained_take (mv : V → V) (b : Cache K V) (hl : (b.map.map (·.addr)).Nodup) (m : Nat) :
    b.drained mv (b.map.take m) = { b with
      map := (b.map.take m).map (fun x => { x with info := { x.info with value := mv x.info.value } }) ++ b.map.drop m } := by
  have h0 : (b.map.map (·.addr)) = (b.map.take m).map (·.addr) ++ (b.map.drop m).map (·.addr) := by
    rw [← List.map_append, List.take_append_drop]
  have hl' := hl
  rw [h0, List.nodup_append] at hl'
  rw [drained_self_aux mv _ b hl'.1 fun x hx y hy h => map_inj_of_nodup hl y hy x (List.mem_of_mem_take hx) h]
  congr 1
  conv => lhs; rw [← List.take_append_drop m b.map]
  rw [List.map_append]
  congr 1
  · apply List.map_congr_left
    intro x hx
    rw [List.take_append_drop, if_pos (List.mem_map.2 ⟨x, hx, rfl⟩)]
  · conv => rhs; rw [← List.map_id (b.map.drop m)]
    apply List.map_congr_left
    intro x hx
    rw [List.take_append_drop, if_neg]
    · rfl
    · intro h
      exact hl'.2.2 _ h _ (List.mem_map.2 ⟨x, hx, rfl⟩) rfl

end LRU
