import Verif.Proofs.ReenterMiss
import Verif.Props.Exceptions
import Verif.Spec.Demo
/-!
# Callbacks that use the cache (C65)

`F` says what the callbacks do: public calls on the cache they are registered with. The theorems hold for every `F`
unless they say otherwise. The claim that no such callback is harmful is false of the code: see the refutations at the end.
-/

set_option autoImplicit false
set_option linter.unusedSectionVars false

namespace LRU

variable {K V : Type} [KeyEqual K] [DecidableEq K] [DecidableEq V] {O : Oracle K V} {F : Event K V → Script K V}
variable {s s' : St (Cache K V) K V} {k : K} {op : Op K V}

/-! ### The cache stays well-formed -/

/-- C65. Whatever the callbacks do, after every call that returned or threw the size is at most the capacity, keys are
distinct, and the map and the list hold the same entries. -/
theorem C65_well_formed (hO : NoListFault O) (h : RReachable O F s) :
    (∀ n, s.c.capacity = some n → count s.c ≤ n) ∧
    (elements s.c).Pairwise (fun a b => keq a.key b.key = false) ∧
    s.c.map.Perm (elements s.c) ∧ (s.c.map.map (·.addr)).Nodup ∧
    s.c.order.map (·.ref) = (elements s.c).map (·.addr) ∧ (s.c.order.map (·.addr)).Nodup ∧
    s.c.map.length = count s.c ∧ s.c.order.length = count s.c := by
  obtain ⟨t, hr, ht⟩ := h.rel hO
  refine ⟨?_, ?_, ?_, ?_, ?_, ?_, ?_, ?_⟩
  · intro n hn
    rw [hr.count]
    exact ht.awf.bound n (by rw [← hr.rep.cap]; exact hn)
  · rw [hr.elements, List.pairwise_map]; exact ht.awf.keys
  · rw [hr.elements]; exact hr.rep.map
  · have := (hr.rep.map.map (·.addr)).nodup_iff
    rw [this, List.map_map]; exact ht.awf.ids
  · rw [hr.elements, hr.rep.order, List.map_map, List.map_map]; rfl
  · rw [hr.rep.order, List.map_map]; exact ht.awf.slots
  · rw [hr.map_length, hr.count]
  · rw [hr.rep.order, List.length_map, hr.count]

/-- C65. The cache is not left in a broken state: with callbacks that do nothing (the model of the other properties)
every call whose preconditions hold goes on to return or throw. -/
theorem C65_calls_complete (hO : NoListFault O) (h : RReachable O F s) (hs : Safe s.c op) (hn : ¬ Terminates s.c op) :
    Completes (Impl.step O op s) := by
  obtain ⟨t, hr, ht⟩ := h.rel hO
  exact step_completes hO hr ht hs hn

/-- C65. How a call ends does not depend on the bound on nested calls, once it is high enough for the call to end. -/
theorem C65_outcome_unique {d d' : Nat} (h : Impl.stepR O F d [] op s ≠ .diverge)
    (h' : Impl.stepR O F d' [] op s ≠ .diverge) : Impl.stepR O F d [] op s = Impl.stepR O F d' [] op s := by
  rcases Nat.le_total d d' with hd | hd
  · obtain ⟨e, rfl⟩ := Nat.exists_eq_add_of_le hd
    exact (stepR_depth e h).symm
  · obtain ⟨e, rfl⟩ := Nat.exists_eq_add_of_le hd
    exact stepR_depth e h'

/-! ### Callbacks that look -/

/-- C65. Callbacks that only ask for size, capacity, free space, fullness and statistics change nothing: every call ends
as with callbacks that do not use the cache. -/
theorem C65_inspecting_callbacks (hO : NoListFault O) (h : RReachable O F s)
    (hF : ∀ e, (F e).Only Op.Inspects) (hn : s.c.capacity ≠ none) (d : Nat) :
    Impl.stepR O F (d + 2) [] op s = Impl.step O op s := by
  obtain ⟨t, hr, ht⟩ := h.rel hO
  exact stepR_quiet hF hn (hr.firm ht) op s rfl

/-! ### Results -/

/-- C65. `find` that returns an entry: whatever the callbacks did meanwhile, it is the entry the key had when `find` was
called, it is still in the cache, and it is the most recently used one. -/
theorem C65_find_hit (hO : NoListFault O) (h : RReachable O F s) {p : Ptr}
    (hd : RReturns O F (.find k) s (.pos (some p)) s') :
    ∃ x x', entryFor s.c k = some x ∧ x.addr = p ∧ (elements s'.c).getLast? = some x' ∧ x'.addr = p ∧ x'.key = x.key ∧
      x'.info.time = x.info.time := by
  obtain ⟨t, hr, ht⟩ := h.rel hO
  obtain ⟨d, hd⟩ := hd
  cases d with
  | zero => cases hd
  | succ d =>
    rw [Impl.stepR] at hd
    obtain ⟨a, ha, e⟩ := ret_ok_inv (show Impl.ret (Impl.findR O F (Impl.stepR O F d) [] k) .pos s = _ from hd)
    injection e with e
    subst e
    obtain ⟨e, t2, e2, hf, hp, ht2, -, hm, hse, hr2⟩ := findR_found hO hr ht ha
    refine ⟨e.node, e2.node, ?_, hp, ?_, hse.id.symm.trans hp, hse.key.symm, hse.time.symm⟩
    · rw [hr.entryFor, hf]; rfl
    · rw [hr2.elements]
      show (List.map Ent.node (toEnd e2 t2.c.ents)).getLast? = _
      simp [toEnd]

/-- C65. `find` that returns `end()`, on a plain cache: the key was not stored when `find` was called. -/
theorem C65_find_miss (hO : NoListFault O) (h : RReachable O F s) (hk : s.c.kind = .basic)
    (hd : RReturns O F (.find k) s (.pos none) s') : ¬ Stored s.c k := by
  obtain ⟨t, hr, ht⟩ := h.rel hO
  obtain ⟨d, hd⟩ := hd
  cases d with
  | zero => cases hd
  | succ d =>
    rw [Impl.stepR] at hd
    obtain ⟨a, ha, e⟩ := ret_ok_inv (show Impl.ret (Impl.findR O F (Impl.stepR O F d) [] k) .pos s = _ from hd)
    injection e with e
    subst e
    rw [hr.not_stored]
    exact (findR_missed hr hk ha).1

/-- C65. `lookup` that returns a reference: it refers to the entry the key had when `lookup` was called, which is still
in the cache and holds the value the caller reads. -/
theorem C65_lookup (hO : NoListFault O) (h : RReachable O F s) {p : Ptr} {v : V}
    (hd : RReturns O F (.lookup k) s (.ref p v) s') :
    ∃ x x', entryFor s.c k = some x ∧ x.addr = p ∧ x' ∈ elements s'.c ∧ x'.addr = p ∧ x'.key = x.key ∧
      x'.info.value = v := by
  obtain ⟨t, hr, ht⟩ := h.rel hO
  obtain ⟨d, hd⟩ := hd
  cases d with
  | zero => cases hd
  | succ d =>
    rw [Impl.stepR] at hd
    obtain ⟨⟨p', v'⟩, ha, e⟩ := ret_ok_inv
      (show Impl.ret (Impl.lookupR O F (Impl.stepR O F d) [] k) (fun r => .ref r.1 r.2) s = _ from hd)
    injection e with e e'
    subst e e'
    obtain ⟨e, t2, e2, hf, hp, hr2, ht2, -, hm, hse, hv⟩ := lookupR_found hO hr ht ha
    refine ⟨e.node, e2.node, ?_, hp, ?_, hse.id.symm.trans hp, hse.key.symm, hv⟩
    · rw [hr.entryFor, hf]; rfl
    · rw [hr2.elements]; exact List.mem_map.2 ⟨e2, hm, rfl⟩

/-- C65. `contains` on a plain cache answers for the moment it was called. -/
theorem C65_contains (hO : NoListFault O) (h : RReachable O F s) (hk : s.c.kind = .basic) {b : Bool}
    (hd : RReturns O F (.contains k) s (.bool b) s') : b = true ↔ Stored s.c k := by
  obtain ⟨t, hr, ht⟩ := h.rel hO
  obtain ⟨d, hd⟩ := hd
  cases d with
  | zero => cases hd
  | succ d =>
    rw [Impl.stepR] at hd
    obtain ⟨b', ha, e⟩ := ret_ok_inv (show Impl.ret (Impl.containsR O F (Impl.stepR O F d) [] k) .bool s = _ from hd)
    injection e with e
    subst e
    unfold Impl.containsR at ha
    obtain ⟨l, s1, h1, h2⟩ := bind_ok_inv ha
    cases l with
    | true =>
      obtain ⟨rfl, n, hn, hl, hkn⟩ := lastIs_true (hr.firm ht) h1
      simp only [if_true] at h2
      rw [bind_ok (show Impl.lastAccessedIsOk O s1 = .ok true s1 by
        unfold Impl.lastAccessedIsOk
        rw [bind_ok (show Impl.getKind s1 = .ok .basic s1 by unfold Impl.getKind; rw [hk])]
        rfl)] at h2
      simp only [if_true] at h2
      obtain ⟨n', s2, h3, h4⟩ := bind_ok_inv h2
      obtain ⟨_, s3, h5, h6⟩ := bind_ok_inv h4
      have h6' : (Out.ok true s3 : Out (St (Cache K V) K V) Bool) = .ok b s' := h6
      injection h6' with h7
      subst h7
      simp only [true_iff]
      refine ⟨n, ?_, by rw [KeyEqual.symm]; exact hkn⟩
      rw [hr.elements]
      exact hr.rep.map.mem_iff.1 hn
    | false =>
      have hs1 := lastIs_still (k := k) s
      rw [h1] at hs1
      have hr1 := hr.shared hs1.1 hs1.2
      have ht1 := ht.shared hr hs1.2
      obtain ⟨it, s2, h3, h4⟩ := bind_ok_inv h2
      have h4' : (Out.ok it.isSome s2 : Out (St (Cache K V) K V) Bool) = .ok b s' := h4
      injection h4' with h5
      subst h5
      cases it with
      | none =>
        have h6 := (findR_missed hr1 (by rw [hs1.1]; exact hk) h3).1
        have := hr.not_stored.2 h6
        simpa using this
      | some p =>
        obtain ⟨e, t2, e2, hf, -⟩ := findR_found hO hr1 ht1 h3
        simpa using hr.stored.2 ⟨e, hf⟩

/-! ### Loading on a miss -/

/-- C65. A cache with one miss callback, which stores the missing key: the key is not found, but is stored afterwards as
the most recently used entry, and room has been made for it as by `insert`. -/
theorem C65_load_on_miss (hC : Calm O) {f : K → V} (h : RReachable O (loadOnMiss f) s)
    {cb n : Nat} (hcb : s.c.obs.missCbs = [cb]) (hcap : s.c.capacity = some n) (hn : 0 < n) (hs : ¬ Stored s.c k) :
    ∃ s' x, RReturns O (loadOnMiss f) (.find k) s (.pos none) s' ∧
      RReturns O (loadOnMiss f) (.contains k) s (.bool false) s' ∧
      RThrows O (loadOnMiss f) (.lookup k) s .keyNotFound s' ∧
      Holds x k (f k) ∧ elements s'.c = (elements s.c).drop (count s.c + 1 - n) ++ [x] := by
  obtain ⟨t, hr, ht⟩ := h.rel hC.noListFault
  obtain ⟨m, rfl⟩ := Nat.exists_eq_succ_of_ne_zero (Nat.ne_of_gt hn)
  have hf := hr.not_stored.1 hs
  obtain ⟨s', t', x, h1, hr', -, hxk, hxv, he, -⟩ := registerMissR_load hC hr ht hcb hf (hr.rep.cap ▸ hcap) 0 (f := f)
  have hfind : Impl.findR O (loadOnMiss f) (Impl.stepR O (loadOnMiss f) 1) [] k s = .ok none s' := by
    unfold Impl.findR
    rw [bind_ok (show Impl.mapFind k s = .ok none s by
      unfold Impl.mapFind
      rw [hr.rep.find_key hr.awf, hf]
      rfl)]
    simp only
    rw [bind_ok h1]
    rfl
  have hlast : Impl.lastIs k s = .ok false s := by
    obtain ⟨b, hb⟩ := lastIs_ok (k := k) (hr.firm ht)
    cases b with
    | true =>
      obtain ⟨-, n, hn, -, hkn⟩ := lastIs_true (hr.firm ht) hb
      refine absurd ⟨n, ?_, by rw [KeyEqual.symm]; exact hkn⟩ hs
      rw [hr.elements]
      exact hr.rep.map.mem_iff.1 hn
    | false => exact hb
  refine ⟨s', x.node, ⟨2, ?_⟩, ⟨2, ?_⟩, ⟨2, ?_⟩, ⟨hxk, hxv⟩, ?_⟩
  · rw [Impl.stepR]
    exact bind_ok hfind
  · rw [Impl.stepR]
    refine bind_ok (a := false) ?_
    unfold Impl.containsR
    rw [bind_ok hlast]
    exact bind_ok hfind
  · rw [Impl.stepR]
    refine bind_throw ?_
    unfold Impl.lookupR
    rw [bind_ok hlast]
    exact bind_ok hfind
  · rw [hr'.elements, he, hr.elements, hr.count, List.map_append, List.map_drop]
    congr 2
    omega

/-! ### Callbacks that access the same key again -/

/-- C65. A hit callback (the first one) that begins by accessing the same key never returns: neither do `find`,
`contains`, `lookup` of a stored key. -/
theorem C65_recursive_callback_never_returns (hO : NoListFault O) (h : RReachable O F s) (hk : s.c.kind = .basic)
    {cb : Nat} {rest : List Nat} (hcb : s.c.obs.hitCbs = cb :: rest)
    (hF : ∀ v, ∃ op next, F (.hit cb k v) = .call op next ∧ op.Accesses k) (hs : Stored s.c k) (hop : op.Accesses k) :
    RForever O F op s := by
  obtain ⟨t, hr, ht⟩ := h.rel hO
  obtain ⟨e, he⟩ := hr.stored.1 hs
  intro d
  refine stepR_forever (hr.firm ht) hk hcb hF (n := e.node) ?_ d [] op s hop rfl
  rw [hr.rep.find_key hr.awf, he]
  rfl

/-! ### Callbacks that change the cache on a miss -/

/-- C65. Callbacks that change the cache only on a miss (by inserting, erasing, clearing, resizing, ...) do no harm:
every call whose preconditions hold returns or throws. -/
theorem C65_miss_callbacks_do_no_harm (hO : NoListFault O) (h : RReachable O F s) (hF : ManagesOnMiss F)
    (hc : s.c.capacity ≠ none) (hs : Safe s.c op) (hn : ¬ Terminates s.c op) (d : Nat) :
    Completes (Impl.stepR O F (d + 2) [] op s) := by
  obtain ⟨t, hr, ht⟩ := h.rel hO
  exact stepR_fin hO hF ⟨t, hr, ht, by rw [← hr.rep.cap]; exact hc⟩ hs hn d

/-! ### The hypotheses can be met -/

/-- A full cache with entries 2, 3, 1 (from least to most recently used) and a hit callback. -/
def demoHit : List (WOp Nat Nat) := demo3 ++ [.op 0 (.addHitCallback 0)]

/-- The same with a miss callback. -/
def demoMiss : List (WOp Nat Nat) := demo3 ++ [.op 0 (.addMissCallback 0)]

theorem demoHit_reachable : Reachable calmO (demoState calmO demoHit 0) := demoState_reachable (by decide +kernel) rfl

theorem demoMiss_reachable : Reachable calmO (demoState calmO demoMiss 0) := demoState_reachable (by decide +kernel) rfl

/-- A hit callback that makes one call. -/
def onHit (op : Nat → Op Nat Nat) : Event Nat Nat → Script Nat Nat
  | .hit _ k _ => .one (op k)
  | _ => .done

theorem Reachable.start {s : St (Cache K V) K V} (h : Reachable O s) : RReachable O F s := ⟨s, h, .nil⟩

/-- `find(3)` with a hit callback that inserts 4: the callback evicts 2, then 3 becomes the most recently used. -/
example : RReachable calmO (onHit fun _ => .insert 4 40) (demoState calmO demoHit 0) ∧
    (∃ p s', RReturns calmO (onHit fun _ => .insert 4 40) (.find 3) (demoState calmO demoHit 0) (.pos (some p)) s' ∧
      RReachable calmO (onHit fun _ => .insert 4 40) s' ∧ entries s'.c = [(1, 10), (4, 40), (3, 30)]) := by
  refine ⟨demoHit_reachable.start, ?_⟩
  have h : ((Impl.stepR calmO (onHit fun _ => .insert 4 40) 5 [] (.find 3) (demoState calmO demoHit 0)).result.any
      fun r => match r with | .pos (some _) => true | _ => false) = true := by decide +kernel
  have h' : ((Impl.stepR calmO (onHit fun _ => .insert 4 40) 5 [] (.find 3) (demoState calmO demoHit 0)).state.map
      fun s' => entries s'.c) = some [(1, 10), (4, 40), (3, 30)] := by decide +kernel
  cases ho : Impl.stepR calmO (onHit fun _ => .insert 4 40) 5 [] (.find 3) (demoState calmO demoHit 0) with
  | ok r s' =>
    rw [ho] at h h'
    cases r with
    | pos p =>
      cases p with
      | some p =>
        refine ⟨p, s', ⟨5, ho⟩, ⟨_, demoHit_reachable, .returns .nil ⟨5, ho⟩⟩, ?_⟩
        simpa [Out.state] using h'
      | none => simp [Out.result] at h
    | _ => simp [Out.result] at h
  | throw e s' => rw [ho] at h; cases h
  | ub => rw [ho] at h; cases h
  | terminate => rw [ho] at h; cases h
  | diverge => rw [ho] at h; cases h

/-- `contains(1)` is served by the shortcut and the callback erases the key: the answer is for the moment of the call. -/
example : (Impl.stepR calmO (onHit fun k => .erase k) 5 [] (.contains 1) (demoState calmO demoHit 0)).result =
      some (.bool true) ∧
    ((Impl.stepR calmO (onHit fun k => .erase k) 5 [] (.contains 1) (demoState calmO demoHit 0)).state.map
      fun s' => keys s'.c) = some [2, 3] :=
  ⟨by decide +kernel, by decide +kernel⟩

/-- A cache that loads what it misses. -/
example : RReachable calmO (loadOnMiss (· * 10)) (demoState calmO demoMiss 0) ∧
    (demoState calmO demoMiss 0).c.obs.missCbs = [0] ∧ (demoState calmO demoMiss 0).c.capacity = some 3 ∧
    keys (demoState calmO demoMiss 0).c = [2, 3, 1] ∧
    ((Impl.stepR calmO (loadOnMiss (· * 10)) 5 [] (.lookup 7) (demoState calmO demoMiss 0)).state.map
      fun s' => entries s'.c) = some [(3, 30), (1, 10), (7, 70)] :=
  ⟨demoMiss_reachable.start, by decide +kernel, by decide +kernel, by decide +kernel, by decide +kernel⟩

example : ManagesOnMiss (loadOnMiss (· * 10) : Event Nat Nat → Script Nat Nat) := by
  rintro (_ | _ | ⟨_, _, _ | _⟩)
  · trivial
  · exact ⟨trivial, fun _ => trivial⟩
  · trivial
  · trivial

/-- Callbacks that inspect: the hit callback asks whether the cache is full, and then for its size. -/
example : ∀ e, ((fun e => match e with
      | .hit .. => .call .isFull fun _ => .one .size
      | _ => .done : Event Nat Nat → Script Nat Nat) e).Only Op.Inspects := by
  rintro (_ | _ | _)
  · exact ⟨trivial, fun _ => ⟨trivial, fun _ => trivial⟩⟩
  · trivial
  · trivial

/-- A hit callback that looks the same key up again. -/
example : (demoState calmO demoHit 0).c.obs.hitCbs = 0 :: [] ∧ (demoState calmO demoHit 0).c.kind = .basic ∧
    2 ∈ keys (demoState calmO demoHit 0).c ∧
    (∀ v, ∃ op next, onHit (fun k => .contains k) (.hit 0 2 v) = .call op next ∧ op.Accesses 2) :=
  ⟨by decide +kernel, by decide +kernel, by decide +kernel, fun _ => ⟨_, _, rfl, .inl rfl⟩⟩

/-! ### What is false of the code -/

/-- C65 fails: `find` dereferences its iterator after the callbacks have run. If the cache is full and the key is the
least recently used one, a hit callback that inserts another key evicts the entry, and `find` uses it nevertheless. -/
theorem C65_refuted :
    ¬ ∀ (O : Oracle Nat Nat) (F : Event Nat Nat → Script Nat Nat) (s : St (Cache Nat Nat) Nat Nat) (op : Op Nat Nat),
      Calm O → Steady O → Reachable O s → Safe s.c op →
      (∀ e, (F e).Only (fun op => ∃ k v, op = .insert k v)) → ¬ RUndefined O F op s := by
  intro h
  refine h calmO (onHit fun _ => .insert 4 40) _ (.find 2) calmO_calm calmO_steady demoHit_reachable trivial ?_
    ⟨5, Out.isUb_iff.1 (by decide +kernel)⟩
  rintro (_ | _ | _)
  · exact ⟨⟨4, 40, rfl⟩, fun _ => trivial⟩
  · trivial
  · trivial

/-- C65 fails: a hit callback that erases the key it is told of. -/
theorem C65_erasing_callback_undefined :
    ¬ ∀ (O : Oracle Nat Nat) (F : Event Nat Nat → Script Nat Nat) (s : St (Cache Nat Nat) Nat Nat) (op : Op Nat Nat),
      Calm O → Steady O → Reachable O s → Safe s.c op →
      (∀ e, (F e).Only (fun op => ∃ k, op = .erase k)) → ¬ RUndefined O F op s := by
  intro h
  refine h calmO (onHit fun k => .erase k) _ (.find 2) calmO_calm calmO_steady demoHit_reachable trivial ?_
    ⟨5, Out.isUb_iff.1 (by decide +kernel)⟩
  rintro (_ | _ | _)
  · exact ⟨⟨_, rfl⟩, fun _ => trivial⟩
  · trivial
  · trivial

/-- C65 fails: a hit callback that registers a hit callback changes the container that is being iterated over. -/
theorem C65_registering_callback_undefined :
    ¬ ∀ (O : Oracle Nat Nat) (F : Event Nat Nat → Script Nat Nat) (s : St (Cache Nat Nat) Nat Nat) (op : Op Nat Nat),
      Calm O → Steady O → Reachable O s → Safe s.c op →
      (∀ e, (F e).Only (fun op => ∃ cb, op = .addHitCallback cb)) → ¬ RUndefined O F op s := by
  intro h
  refine h calmO (onHit fun _ => .addHitCallback 1) _ (.lookup 1) calmO_calm calmO_steady demoHit_reachable trivial ?_
    ⟨5, Out.isUb_iff.1 (by decide +kernel)⟩
  rintro (_ | _ | _)
  · exact ⟨⟨_, rfl⟩, fun _ => trivial⟩
  · trivial
  · trivial

/-- What `C65_find_hit` says of `find` is false of `lookup`: if the key is the last accessed one, `lookup` does not move
it after the callbacks have run, so what a callback inserted is more recent. -/
theorem C65_lookup_not_most_recent :
    ¬ ∀ (O : Oracle Nat Nat) (F : Event Nat Nat → Script Nat Nat) (s s' : St (Cache Nat Nat) Nat Nat) (k v : Nat)
      (p : Ptr), Calm O → Steady O → Reachable O s → s.c.kind = .basic →
      RReturns O F (.lookup k) s (.ref p v) s' → (keys s'.c).getLast? = some k := by
  intro h
  have h1 : ((Impl.stepR calmO (onHit fun _ => .insert 4 40) 5 [] (.lookup 1) (demoState calmO demoHit 0)).result.any
      fun r => match r with | .ref _ _ => true | _ => false) = true := by decide +kernel
  have h2 : ((Impl.stepR calmO (onHit fun _ => .insert 4 40) 5 [] (.lookup 1) (demoState calmO demoHit 0)).state.map
      fun s' => keys s'.c) = some [3, 1, 4] := by decide +kernel
  cases ho : Impl.stepR calmO (onHit fun _ => .insert 4 40) 5 [] (.lookup 1) (demoState calmO demoHit 0) with
  | ok r s' =>
    rw [ho] at h1 h2
    cases r with
    | ref p v =>
      have h3 := h calmO _ _ s' 1 v p calmO_calm calmO_steady demoHit_reachable (by decide +kernel) ⟨5, ho⟩
      have h4 : keys s'.c = [3, 1, 4] := by simpa [Out.state] using h2
      rw [h4] at h3
      revert h3
      decide
    | _ => simp [Out.result] at h1
  | throw e s' => rw [ho] at h1; cases h1
  | ub => rw [ho] at h1; cases h1
  | terminate => rw [ho] at h1; cases h1
  | diverge => rw [ho] at h1; cases h1

end LRU
