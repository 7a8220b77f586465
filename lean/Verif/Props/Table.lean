import Verif.Proofs.Table
import Verif.Props.Exceptions
import Verif.Props.Iterators
import Verif.Spec.Demo
/-!
# C67: growth of the hash table
-/

set_option linter.unusedSectionVars false
set_option autoImplicit false

namespace LRU

variable {K V : Type} [KeyEqual K] [DecidableEq K] [DecidableEq V] {O : Oracle K V} {G : Growth} {t t' : TSt K V}
  {h : List (Op K V × TSt K V)} {x y : MapNode K V} {q : Ptr}

/-! ### The cache itself -/

/-- C67: no call uses an iterator into the table that the growth of the table has invalidated: whenever and however the table
grows, a call whose own unordered iterator (if it has one) is from the present table does exactly what it does with a table
that never invalidates iterators. -/
theorem C67_calls_do_not_depend_on_growth {op : Op K V} {e : Nat} (he : op.uArg = none ∨ e = t.table.epoch) :
    (Impl.tstep O G op e t).bare = Impl.step O op t.s :=
  (tstep_lifts he).bare fun _ _ _ h => h

/-- C67: the iterators `insert` and `emplace` return belong to the table as it is then. -/
theorem C67_returned_iterators_are_current {k : K} {v : V} {b : Bool} {it : TIt Ptr}
    (hi : Impl.insertT O G k v t = .ok (b, some it) t' ∨ Impl.emplaceT O G k v t = .ok (b, some it) t') :
    it.epoch = t'.table.epoch := by
  rcases hi with hi | hi
  · obtain ⟨_, _, h1⟩ := (insertT_lifts t k v).inv.1 _ _ hi
    exact h1.fresh it rfl
  · obtain ⟨_, _, h1⟩ := (emplaceT_lifts t k v).inv.1 _ _ hi
    exact h1.fresh it rfl

/-! ### Iterators of the user -/

/-- C67: ordered iterators and references are not affected: an ordered iterator keeps denoting its entry as long as this is
stored, and no call without an unordered iterator depends on the table. -/
theorem C67_ordered_iterators_unaffected (hO : NoListFault O) (hr : Reachable O t.s) (hh : TRun O G t h t')
    (hq : At t.s.c q x) (hy : y ∈ elements t'.s.c) (ha : y.addr = x.addr) :
    At t'.s.c q y ∧ y.key = x.key ∧
    ∀ op : Op K V, op.uArg = none → ∀ e, (Impl.tstep O G op e t').bare = Impl.step O op t'.s := by
  obtain ⟨l, hl⟩ := hh.history
  obtain ⟨h1, h2⟩ := C34_iterators_stay_valid hO hr hl hq hy ha
  exact ⟨h1, h2, fun op hu e => C67_calls_do_not_depend_on_growth (.inl hu)⟩

/-- C67, the part that holds for unordered iterators: one obtained in state `t` can be used in state `t'` if its entry is
still stored and the table has not grown in between. (Missing: if the table has grown, see
`C67_refuted_unordered_iterators_survive_insertion`.) -/
theorem C67_unordered_iterators_partial (hO : NoListFault O) (hr : Reachable O t.s) (hh : TRun O G t h t')
    (hg : t'.table.epoch = t.table.epoch) (hx : x ∈ elements t.s.c) (hy : y ∈ elements t'.s.c) (ha : y.addr = x.addr)
    {op : Op K V} (_hu : op.uArg = some x.addr) :
    y.key = x.key ∧ (Impl.tstep O G op t.table.epoch t').bare = Impl.step O op t'.s ∧
    (Safe t'.s.c op → Impl.tstep O G op t.table.epoch t' ≠ .ub) := by
  obtain ⟨l, hl⟩ := hh.history
  obtain ⟨q, hq⟩ := hr.at_of_mem hO hx
  have h1 := C67_calls_do_not_depend_on_growth (O := O) (G := G) (op := op) (t := t') (e := t.table.epoch) (.inr hg.symm)
  refine ⟨(C34_iterators_stay_valid hO hr hl hq hy ha).2, h1, fun hs hub => ?_⟩
  rw [hub] at h1
  exact (C33_preconditions_are_exact hO (hl.reachable hO hr)).1.1 h1.symm hs

/-- The key and the value of a plain cache's entry can be read through an unordered iterator, if the table has not grown. -/
theorem C67_unordered_iterators_can_be_read (hO : NoListFault O) (hr : Reachable O t.s) (hb : t.s.c.kind = .basic)
    (hx : x ∈ elements t.s.c) :
    (∃ t', TPerforms O G (.uKey (some x.addr)) t.table.epoch t (.ok (.key x.key)) t') ∧
    (∃ t', TPerforms O G (.uValue (some x.addr)) t.table.epoch t (.ok (.value x.info.value)) t') := by
  obtain ⟨q, hq⟩ := hr.at_of_mem hO hx
  obtain ⟨_, _, ⟨s1, h1⟩, ⟨s2, h2⟩, _⟩ := C34_valid_iterators_can_be_read hO hr hb hq
  refine ⟨⟨⟨s1, t.table⟩, ?_⟩, ⟨⟨s2, t.table⟩, ?_⟩⟩
  · show (Impl.useIt (⟨x.addr, t.table.epoch⟩ : TIt Ptr) >>= fun _ => Impl.onT (Impl.step O (.uKey (some x.addr)))) t = _
    rw [bind_ok (useIt_ok rfl)]
    unfold Impl.onT
    rw [show Impl.step O (.uKey (some x.addr)) t.s = _ from h1]
  · show (Impl.useIt (⟨x.addr, t.table.epoch⟩ : TIt Ptr) >>= fun _ => Impl.onT (Impl.step O (.uValue (some x.addr)))) t = _
    rw [bind_ok (useIt_ok rfl)]
    unfold Impl.onT
    rw [show Impl.step O (.uValue (some x.addr)) t.s = _ from h2]

/-! ### When unordered iterators are invalidated -/

/-- C67: iterators from before the table grew are not checked by anything: whatever is done with them is undefined. -/
theorem C67_old_iterators_are_undefined {op : Op K V} {e : Nat} {p : Ptr} (hp : op.uArg = some p) (he : e ≠ t.table.epoch) :
    Impl.tstep O G op e t = .ub ∧ (Impl.uNextT (some p) e : Impl.TM K V _) t = .ub := by
  have hu : (Impl.useIt (⟨p, e⟩ : TIt Ptr) : Impl.TM K V Ptr) t = .ub := by
    unfold Impl.useIt
    rw [if_neg he]
  have key : ∀ {α : Type} (f : Ptr → Impl.TM K V α), (Impl.useIt (⟨p, e⟩ : TIt Ptr) >>= f) t = .ub := by
    intro α f
    show M.bind _ _ t = _
    unfold M.bind
    rw [hu]
  refine ⟨?_, key _⟩
  cases op <;> first | (cases hp; done) | skip
  all_goals
    simp only [Op.uArg] at hp
    subst hp
    exact key _

/-- C67: afterwards there is room for what was inserted (before anything was evicted); if there was room before, nothing about
the table changes, and otherwise it grows once. -/
theorem C67_insertion_makes_room (hO : NoListFault O) (hr : Reachable O t.s) {op : Op K V} {k : K} {v : V}
    (hi : op.Inserts k v) {e : Nat} {b : Bool} {p : Option Ptr} (hp : TPerforms O G op e t (.ok (.inserted b p)) t') :
    (b = true → count t.s.c + 1 ≤ t'.table.limit) ∧ (b = false ∨ count t.s.c + 1 ≤ t.table.limit → t'.table = t.table) ∧
    t'.table.epoch ≤ t.table.epoch + 1 := by
  have hlen : t.s.c.map.length = count t.s.c := by
    obtain ⟨u, hu, _⟩ := hr.rel hO
    rw [hu.count, hu.rep.map.length_eq, List.length_map]
  have key : ∀ (r : Bool × Option (TIt Ptr)) (r0 : Bool × Option Ptr), Inserted t r r0 t' →
      (Res.inserted r.1 (r.2.map TIt.val) : Res K V) = .inserted b p →
      (b = true → count t.s.c + 1 ≤ t'.table.limit) ∧ (b = false ∨ count t.s.c + 1 ≤ t.table.limit → t'.table = t.table) ∧
      t'.table.epoch ≤ t.table.epoch + 1 := by
    intro r r0 h1 h2
    injection h2 with h2 _
    subst h2
    rw [← hlen]
    refine ⟨fun h => (h1.new h).1, ?_, ?_⟩
    · rintro (h | h)
      · exact h1.old h
      · cases hb : r.1 with
        | true => exact (h1.new hb).2 h
        | false => exact h1.old hb
    · rcases h1.once with h3 | ⟨_, _, h3⟩
      · rw [h3]; omega
      · omega
  rcases hi with rfl | rfl
  · obtain ⟨a, h1, h2⟩ := ret_ok_inv hp
    obtain ⟨b0, _, h3⟩ := (insertT_lifts t k v).inv.1 _ _ h1
    exact key a b0 h3 h2.symm
  · obtain ⟨a, h1, h2⟩ := ret_ok_inv hp
    obtain ⟨b0, _, h3⟩ := (emplaceT_lifts t k v).inv.1 _ _ h1
    exact key a b0 h3 h2.symm

/-- C67: an insertion invalidates the unordered iterators exactly if it adds a key for which there is no room in the table. -/
theorem C67_insertion_invalidates_iff (hO : NoListFault O) (hr : Reachable O t.s) {op : Op K V} {k : K} {v : V}
    (hi : op.Inserts k v) {e : Nat} {b : Bool} {p : Option Ptr} (hp : TPerforms O G op e t (.ok (.inserted b p)) t') :
    t'.table.epoch ≠ t.table.epoch ↔ b = true ∧ t.table.limit < count t.s.c + 1 := by
  have hlen : t.s.c.map.length = count t.s.c := by
    obtain ⟨u, hu, _⟩ := hr.rel hO
    rw [hu.count, hu.rep.map.length_eq, List.length_map]
  have key : ∀ (r : Bool × Option (TIt Ptr)) (r0 : Bool × Option Ptr), Inserted t r r0 t' →
      (Res.inserted r.1 (r.2.map TIt.val) : Res K V) = .inserted b p →
      (t'.table.epoch ≠ t.table.epoch ↔ b = true ∧ t.table.limit < count t.s.c + 1) := by
    intro r r0 h1 h2
    injection h2 with h2 _
    subst h2
    rw [← hlen]
    constructor
    · intro hne
      rcases h1.once with h3 | ⟨h3, _, _⟩
      · rw [h3] at hne; exact absurd rfl hne
      · refine ⟨?_, h3⟩
        cases hb : r.1 with
        | true => rfl
        | false => rw [h1.old hb] at hne; exact absurd rfl hne
    · rintro ⟨h3, h4⟩ h5
      rcases h1.once with h6 | ⟨_, _, h6⟩
      · have := (h1.new h3).1
        rw [h6] at this
        omega
      · omega
  rcases hi with rfl | rfl
  · obtain ⟨a, h1, h2⟩ := ret_ok_inv hp
    obtain ⟨b0, _, h3⟩ := (insertT_lifts t k v).inv.1 _ _ h1
    exact key a b0 h3 h2.symm
  · obtain ⟨a, h1, h2⟩ := ret_ok_inv hp
    obtain ⟨b0, _, h3⟩ := (emplaceT_lifts t k v).inv.1 _ _ h1
    exact key a b0 h3 h2.symm

/-- C67: calls that do not insert never invalidate the unordered iterators of entries that stay, and unless they empty the
table at once they do not change its size. -/
theorem C67_other_calls_keep_the_table {op : Op K V} {e : Nat} {res : Except Err (Res K V)}
    (hp : TPerforms O G op e t res t') (h1 : ∀ k v, ¬ op.Inserts k v) (h2 : ∀ l, op ≠ .insertRange l)
    (h3 : ∀ l, op ≠ .insertRangeMove l) (h4 : ∀ l, op ≠ .assignRange l) (h5 : ∀ l, op ≠ .assignRangeMove l) :
    t'.table.epoch = t.table.epoch ∧ (op.resets = false → t'.table = t.table) := by
  have hs : op.stores = false := by
    cases op <;> first | rfl | skip
    · exact absurd (.inl rfl) (h1 _ _)
    · exact absurd (.inr rfl) (h1 _ _)
    · exact absurd rfl (h2 _)
    · exact absurd rfl (h3 _)
    · exact absurd rfl (h4 _)
    · exact absurd rfl (h5 _)
  refine ⟨?_, fun hq => tstep_table hs hq hp⟩
  cases hq : op.resets with
  | false => rw [tstep_table hs hq hp]
  | true =>
    cases op <;> first | (cases hq; done) | (cases hs; done) | skip
    · exact (clearT_lifts t).path_inv (P := fun t' => t'.table.epoch = t.table.epoch) (fun _ _ _ h => by rw [h])
        (fun _ h => h.elim) hp
    · exact (shrinkT_lifts t _).path_inv (P := fun t' => t'.table.epoch = t.table.epoch) (fun _ _ _ h => h.1)
        (fun _ h => by rw [h]) hp

/-- C67: as long as the cache is not emptied at once and its capacity stays within `N`, all its unordered iterators are
invalidated at most `N + 1` times, and never if there is room for `N + 1` elements. -/
theorem C67_bounded_number_of_invalidations (hO : NoListFault O) {N : Nat} (hr : Reachable O t.s) (hh : TRun O G t h t')
    (hN : ∀ x ∈ h, x.1.resets = false ∧ CapWithin N x.2.s.c) :
    t.table.epoch ≤ t'.table.epoch ∧ t'.table.epoch ≤ t.table.epoch + (N + 1) ∧ t.table.limit ≤ t'.table.limit ∧
    (N + 1 ≤ t.table.limit → t'.table.epoch = t.table.epoch) := by
  obtain ⟨h1, h2, h3⟩ := hh.path hO hr hN
  exact ⟨h1, by omega, h2, fun h4 => by omega⟩

/-- C67: once a key has been inserted into a full cache (one with `N` entries), unordered iterators are not affected by
insertions any more, except those of evicted entries, as long as the cache is not emptied at once and its capacity stays
within `N`. -/
theorem C67_stable_after_first_eviction (hO : NoListFault O) (hr : Reachable O t.s) {N : Nat}
    (hfull : count t.s.c = N) {op : Op K V} {k : K} {v : V} (hi : op.Inserts k v)
    {e : Nat} {p : Option Ptr} (hp : TPerforms O G op e t (.ok (.inserted true p)) t') {t'' : TSt K V}
    (hh : TRun O G t' h t'') (hN : ∀ x ∈ h, x.1.resets = false ∧ CapWithin N x.2.s.c) :
    t''.table.epoch = t'.table.epoch := by
  have hlen : t.s.c.map.length = N := by
    obtain ⟨u, hu, _⟩ := hr.rel hO
    rw [← hfull, hu.count, hu.rep.map.length_eq, List.length_map]
  have key : ∀ (r : Bool × Option (TIt Ptr)) (r0 : Bool × Option Ptr), Inserted t r r0 t' →
      (Res.inserted r.1 (r.2.map TIt.val) : Res K V) = .inserted true p → N + 1 ≤ t'.table.limit := by
    intro r r0 h1 h2
    injection h2 with h2 _
    rw [← hlen]
    exact (h1.new h2).1
  have hlim : N + 1 ≤ t'.table.limit := by
    rcases hi with rfl | rfl
    · obtain ⟨a, h1, h2⟩ := ret_ok_inv hp
      obtain ⟨b0, _, h3⟩ := (insertT_lifts t k v).inv.1 _ _ h1
      exact key a b0 h3 h2.symm
    · obtain ⟨a, h1, h2⟩ := ret_ok_inv hp
      obtain ⟨b0, _, h3⟩ := (emplaceT_lifts t k v).inv.1 _ _ h1
      exact key a b0 h3 h2.symm
  exact (C67_bounded_number_of_invalidations hO (hr.after hO (r := .inserted true p) hp.bare) hh hN).2.2.2 hlim

/-! ### Examples and refutation -/

/-- A table that grows to the size needed. -/
def tightG : Growth := ⟨fun _ n => n, fun n => n⟩

/-- Two entries in a cache of capacity three; the table has room for `limit` elements. -/
def tdemo (limit : Nat) : TSt Nat Nat :=
  ⟨demoState calmO [.create .basic (.sized 3), .op 0 (.insert 1 10), .op 0 (.insert 2 20)] 0, ⟨limit, 0⟩⟩

theorem tdemo_reachable {limit : Nat} : Reachable calmO (tdemo limit).s :=
  demoState_reachable (O := calmO) (i := 0)
    (ops := [.create .basic (.sized 3), .op 0 (.insert 1 10), .op 0 (.insert 2 20)]) (by decide +kernel) rfl

/-- C67, refuted (`base-cache.hpp` 892, 929, 954, 974, 995, 1031, 1075: "Iterators pointing to other
elements are not affected"): inserting a key without evicting anything can make the unordered iterators of all other entries
unusable. -/
theorem C67_refuted_unordered_iterators_survive_insertion :
    ¬ ∀ (O : Oracle Nat Nat) (G : Growth) (t t' : TSt Nat Nat) (k v e : Nat) (b : Bool) (p : Option Ptr)
      (x : MapNode Nat Nat), Calm O → Reachable O t.s → TPerforms O G (.insert k v) e t (.ok (.inserted b p)) t' →
      x ∈ elements t.s.c → x ∈ elements t'.s.c →
      ∃ res t'', TPerforms O G (.uKey (some x.addr)) t.table.epoch t' res t'' := by
  intro hall
  have hre := tdemo_reachable (limit := 2)
  obtain ⟨t', h1, h2⟩ := Out.ok_fact (o := Impl.tstep calmO tightG (.insert 3 30) 0 (tdemo 2))
    (a := .inserted true (some 4)) (f := fun t' => (t'.table.epoch, elements t'.s.c == elements (tdemo 2).s.c ++
      [⟨4, 3, ⟨30, some 5, 0⟩⟩])) (y := (1, true)) (by decide +kernel) (by decide +kernel)
  have hx : ∃ x, (elements (tdemo 2).s.c)[0]? = some x := by
    cases hx : (elements (tdemo 2).s.c)[0]? with
    | some x => exact ⟨x, rfl⟩
    | none =>
      have : ((elements (tdemo 2).s.c)[0]?).isSome = true := by decide +kernel
      rw [hx] at this
      cases this
  have h0 : (tdemo 2).table.epoch = 0 := rfl
  generalize tdemo 2 = t at *
  obtain ⟨x, hx⟩ := hx
  have hx := List.mem_of_getElem? hx
  injection h2 with h2 h3
  have hx' : x ∈ elements t'.s.c := by
    rw [eq_of_beq h3]
    exact List.mem_append_left _ hx
  obtain ⟨res, t'', hp⟩ := hall calmO tightG t t' 3 30 0 true (some 4) x calmO_calm hre h1 hx hx'
  have hub : Impl.tstep calmO tightG (.uKey (some x.addr)) t.table.epoch t' = .ub := by
    refine bind_ub ?_
    unfold Impl.useIt
    rw [if_neg]
    rw [h0, h2]
    exact Nat.zero_ne_one
  unfold TPerforms at hp
  rw [hub] at hp
  cases res <;> cases hp

/-- With room for three elements the same insertion affects no iterator, and the cache becomes full; the next one evicts, and
the table grows. -/
example : ((Impl.tstep calmO tightG (.insert 3 30) 0 (tdemo 3)).state.map fun t => (t.table.epoch, count t.s.c)) =
      some (0, 3) ∧
    (((Impl.tstep calmO tightG (.insert 3 30) 0 (tdemo 3)).state.bind fun t =>
      (Impl.tstep calmO tightG (.insert 4 40) 0 t).state).map fun t => (t.table, count t.s.c)) =
      some (⟨4, 1⟩, 3) := by
  decide +kernel

/-- An iterator from the present table, and one from an earlier one. -/
example : (Impl.tstep calmO tightG (.uKey (some 0)) 0 (tdemo 3)).result = some (.key 1) ∧
    (Impl.tstep calmO tightG (.uKey (some 0)) 1 (tdemo 3)).isUb = true := by decide +kernel

/-- The hypotheses of `C67_stable_after_first_eviction` are met. -/
example : ∃ t t' p, Reachable calmO t.s ∧ count t.s.c = 3 ∧
    TPerforms calmO tightG (.insert 4 40) 0 t (.ok (.inserted true p)) t' ∧
    ∃ t'', TRun calmO tightG t' [(.insert 5 50, t')] t'' ∧ ∀ x ∈ [((.insert 5 50 : Op Nat Nat), t')],
      x.1.resets = false ∧ CapWithin 3 x.2.s.c := by
  have hre := demo3_reachable
  have hn : count (demoState calmO demo3 0).c = 3 := by decide +kernel
  obtain ⟨t', h1, h2⟩ := Out.ok_fact (o := Impl.tstep calmO tightG (.insert 4 40) 0 ⟨demoState calmO demo3 0, ⟨3, 0⟩⟩)
    (a := .inserted true (some 6)) (f := fun t' => (t'.s.c.capacity,
      (Impl.tstep calmO tightG (.insert 5 50) 0 t').result)) (y := (some 3, some (.inserted true (some 7))))
    (by decide +kernel) (by decide +kernel)
  generalize demoState calmO demo3 0 = s at *
  injection h2 with h2 h3
  obtain ⟨t'', h4⟩ := Out.ok_of h3
  refine ⟨⟨s, ⟨3, 0⟩⟩, t', some 6, hre, hn, h1, t'', ?_, ?_⟩
  · exact .call (e := 0) (res := .ok (.inserted true (some 7))) .nil h4
  · intro x hx
    cases List.mem_singleton.1 hx
    refine ⟨rfl, ?_⟩
    intro n hc
    rw [show t'.s.c.capacity = _ from h2] at hc
    cases hc
    exact Nat.le_refl _

end LRU
