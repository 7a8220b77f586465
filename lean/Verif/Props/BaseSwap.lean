import Verif.Props.World
import Verif.Props.Timed
import Verif.Props.Expiry
/-!
# C83: swapping caches as objects of their base class

`TimedCache::swap(TimedCache&)` does not override `BaseCache::swap(BaseCache&)`. The latter is called on references to the base
class, and by `swap(a, b)` for timed caches whose `Duration`s differ.
-/

set_option linter.unusedSectionVars false
set_option autoImplicit false

namespace LRU

variable {K V : Type} [KeyEqual K] [DecidableEq K] [DecidableEq V] {O : Oracle K V}
  {w w' : World K V} {i j k : Nat} {a b c : Cache K V} {res : Except Err (Res K V)} {key : K} {ttl : Int} {unit : Nat}

/-- C83. Swapping through the base class exchanges the elements (at the same positions) and the capacities, does not throw, and
leaves statistics, callbacks, the other caches and the shared state alone. Missing for the full statement: the times to live
are not exchanged. -/
theorem C83_base_swap_exchanges_partial (ha : w.caches[i]? = some (some a)) (hb : w.caches[j]? = some (some b)) (hij : i ≠ j)
    (ht : Impl.sameBase a.kind b.kind = true) (hp : WPerforms O (.swapBase i j) w res w') :
    res = .ok .unit ∧ w'.g = w.g ∧ (∀ k, k ≠ i → k ≠ j → w'.caches[k]? = w.caches[k]?) ∧
    ∃ a' b', w'.caches[i]? = some (some a') ∧ w'.caches[j]? = some (some b') ∧
      elements a' = elements b ∧ elements b' = elements a ∧ (∀ q x, At a' q x ↔ At b q x) ∧ (∀ q x, At b' q x ↔ At a q x) ∧
      a'.capacity = b.capacity ∧ b'.capacity = a.capacity ∧ a'.obs = a.obs ∧ b'.obs = b.obs ∧
      a'.kind = a.kind ∧ b'.kind = b.kind := by
  have h1 := baseSwap_eq (O := O) ha hb hij ht
  have h2 : res = .ok .unit ∧ w' = ⟨(w.caches.set i (some { b with obs := a.obs, kind := a.kind })).set j
      (some { a with obs := b.obs, kind := b.kind }), w.g⟩ := by
    cases res with
    | ok r =>
      rw [show Impl.wstep O (.swapBase i j) w = .ok r w' from hp] at h1
      injection h1 with h1 h2
      exact ⟨by rw [h1], h2⟩
    | error e =>
      rw [show Impl.wstep O (.swapBase i j) w = .throw e w' from hp] at h1
      cases h1
  obtain ⟨rfl, rfl⟩ := h2
  refine ⟨rfl, rfl, fun k h1 h2 => ?_, { b with obs := a.obs, kind := a.kind }, { a with obs := b.obs, kind := b.kind }, ?_, ?_,
    rfl, rfl, fun _ _ => Iff.rfl, fun _ _ => Iff.rfl, rfl, rfl, rfl, rfl, rfl, rfl⟩
  · show ((w.caches.set i _).set j _)[k]? = _
    rw [set_get_ne h2, set_get_ne h1]
  · show ((w.caches.set i _).set j _)[i]? = _
    rw [set_get_ne hij]
    exact set_get ha
  · show ((w.caches.set i _).set j _)[j]? = _
    refine set_get (y := some b) ?_
    rw [set_get_ne (fun e => hij e.symm)]
    exact hb

/-- C83. It always completes if the caches exist; a cache swapped with itself does not change. -/
theorem C83_base_swap_returns (ha : w.caches[i]? = some (some a)) (hb : w.caches[j]? = some (some b)) :
    ∃ w', WPerforms O (.swapBase i j) w (.ok .unit) w' ∧ (i = j → w' = w) := by
  by_cases hij : i = j
  · subst hij
    exact ⟨w, baseSwap_self ha, fun _ => rfl⟩
  · cases ht : Impl.sameBase a.kind b.kind with
    | true => exact ⟨_, baseSwap_eq ha hb hij ht, fun h => absurd h hij⟩
    | false =>
      refine ⟨w, ?_, fun _ => rfl⟩
      show Impl.ret (Impl.swapThroughBase i j) _ w = _
      unfold Impl.swapThroughBase
      refine ret_ok (a := ()) ?_
      have get : ∀ {i : Nat} {c : Cache K V}, w.caches[i]? = some (some c) → Impl.getCache i w = .ok c w := by
        intro i c h
        unfold Impl.getCache
        rw [h]
      rw [bind_ok (get ha), bind_ok (get hb), if_pos (by simp [ht])]
      rfl

/-- C83. For caches with the same time to live, in particular plain ones, it is `swap`. -/
theorem C83_like_swap (ha : w.caches[i]? = some (some a)) (hb : w.caches[j]? = some (some b)) (hk : a.kind = b.kind) :
    Impl.wstep O (.swapBase i j) w = Impl.wstep O (.swap i j) w := by
  by_cases hij : i = j
  · subst hij
    rw [baseSwap_self ha, C25_self_swap ha]
  · rw [baseSwap_eq ha hb hij (by rw [hk]; exact sameBase_self _), swap_eq ha hb hij (by rw [hk]; exact sameType_self _)]
    have h1 : ({ b with obs := a.obs, kind := a.kind } : Cache K V) = { b with obs := a.obs } := by rw [hk]
    have h2 : ({ a with obs := b.obs, kind := b.kind } : Cache K V) = { a with obs := b.obs } := by rw [← hk]
    rw [h1, h2]

theorem ownAfter_baseSwap {own : Nat → Bool} (ha : w.caches[i]? = some (some a)) (hb : w.caches[j]? = some (some b))
    (ht : Impl.sameBase a.kind b.kind = true) : ownAfter w own (.swapBase i j) = mark (mark own i (own j)) j (own i) := by
  simp only [ownAfter]
  rw [ha, hb]
  exact if_pos ht

/-- C83. Both caches remain valid: they are reachable caches, to which all theorems about reachable caches apply. -/
theorem C83_swapped_caches_are_valid {own : Nat → Bool} (hw : Prog O w own) (hi : own i = true) (hj : own j = true)
    (ha : w.caches[i]? = some (some a)) (hb : w.caches[j]? = some (some b)) (ht : Impl.sameBase a.kind b.kind = true)
    (hp : WPerforms O (.swapBase i j) w res w') (hk : k = i ∨ k = j) (hc : w'.caches[k]? = some (some c)) :
    Reachable O (viewOf w' k c) := by
  refine ⟨w', _, k, c, hw.wperforms hp, ?_, hc, rfl⟩
  rw [ownAfter_baseSwap ha hb ht]
  unfold mark
  rcases hk with rfl | rfl <;> (split <;> simp_all)

/-- C83. What happens instead: after the swap the time to live of the cache that receives an entry decides whether the entry is
served, although the entry was stored under another one. -/
theorem C83_other_time_to_live (hO : NoListFault O) (hC : NoCallbackFault O) {own : Nat → Bool} (hw : Prog O w own)
    (hi : own i = true) (hj : own j = true) (ha : w.caches[i]? = some (some a)) (hb : w.caches[j]? = some (some b)) (hij : i ≠ j)
    (ht : Impl.sameBase a.kind b.kind = true) (hk : b.kind = .timed ttl unit) (hp : WPerforms O (.swapBase i j) w res w')
    (hc : w'.caches[j]? = some (some c)) {x : MapNode K V} (hx : entryFor a key = some x) :
    (elapsed O unit x w.g.ticks ≤ ttl → ∃ s', Returns O (.contains key) (viewOf w' j c) (.bool true) s') ∧
    (elapsed O unit x w.g.ticks > ttl → ∃ s', Returns O (.contains key) (viewOf w' j c) (.bool false) s') := by
  have hr := C83_swapped_caches_are_valid hw hi hj ha hb ht hp (.inr rfl) hc
  obtain ⟨-, hg, -, a', b', -, h1, -, h2, -, -, -, -, -, -, -, h3⟩ := C83_base_swap_exchanges_partial ha hb hij ht hp
  rw [hc] at h1
  injection h1 with h1
  injection h1 with h1
  subst h1
  have hkind : (viewOf w' j c).c.kind = .timed ttl unit := h3.trans hk
  have hent : entryFor (viewOf w' j c).c key = some x := by
    show entryFor c key = some x
    unfold entryFor at hx ⊢
    rw [h2]
    exact hx
  have hticks : (viewOf w' j c).g.ticks = w.g.ticks := by
    show w'.g.ticks = _
    rw [hg]
  refine ⟨fun he => ?_, fun he => ?_⟩
  · obtain ⟨r, s', h4, h5⟩ := C40_fresh_is_served hO hC hr hkind hent (op := .contains key) (by rw [hticks]; exact he) (.inl rfl)
      (fun h => by cases h)
    cases r <;> first | (cases h5; done) | skip
    next v =>
      cases v with
      | true => exact ⟨s', h4⟩
      | false => cases h5
  · obtain ⟨-, ⟨s', h4, -⟩, -⟩ := C44_expired_is_a_miss_partial hO hC hr hkind hent (by rw [hticks]; exact he)
    exact ⟨s', h4⟩

/-- Two timed caches with different durations: the first with a time to live of 5 units of 2 ticks, the second of 0 units of
1 tick. The first one holds the key 1. -/
def demoDurations : List (WOp Nat Nat) :=
  [.create (.timed 5 2) (.sized 3), .op 0 (.insert 1 10), .create (.timed 0 1) (.sized 2)]

example : ((exec calmO (demoDurations ++ [.swapBase 0 1]) Impl.initWorld).map fun w => (peek 0 w, peek 1 w)) =
    some (some ⟨[], some 2, 0⟩, some ⟨[(1, 10)], some 3, 1⟩) := by decide +kernel

-- both cases of `C83_other_time_to_live`: the entry moves to the other cache and has expired there; it moves back and has not
example : ((exec calmO demoDurations Impl.initWorld).map fun w =>
      match w.caches[0]?, w.caches[1]? with
      | some (some a), some (some b) => (entryFor a 1).map fun x =>
        (decide (b.kind = .timed 0 1), decide (elapsed calmO 1 x w.g.ticks > 0), decide (elapsed calmO 2 x w.g.ticks ≤ 5))
      | _, _ => none) = some (some (true, true, true)) := by decide +kernel

/-- C83 is false: a key that a cache serves is not served by the other cache after the two have been swapped through the base
class, although no time has passed. -/
theorem C83_refuted : ¬ ∀ (O : Oracle Nat Nat) (w w' : World Nat Nat) (i j : Nat) (a b b' : Cache Nat Nat) (k : Nat)
    (s s' : St (Cache Nat Nat) Nat Nat) (v : Bool),
    Calm O → Steady O → Prog O w (fun _ => true) → w.caches[i]? = some (some a) → w.caches[j]? = some (some b) → i ≠ j →
    WPerforms O (.swapBase i j) w (.ok .unit) w' → w'.caches[j]? = some (some b') →
    Returns O (.contains k) (viewOf w i a) (.bool true) s → Returns O (.contains k) (viewOf w' j b') (.bool v) s' →
    v = true := by
  intro hall
  have hf : ((exec calmO demoDurations Impl.initWorld).map fun w => match w.caches[0]?, w.caches[1]? with
      | some (some a), some (some b) => decide (a.kind = .timed 5 2 ∧ b.kind = .timed 0 1 ∧ (entryFor a 1).isSome = true ∧
          (Impl.step calmO (.contains 1) (viewOf w 0 a)).result = some (.bool true) ∧
          ∀ x ∈ entryFor a 1, elapsed calmO 1 x w.g.ticks > 0)
      | _, _ => false) = some true := by decide +kernel
  obtain ⟨w, he, -, hw⟩ := exec_fact hf
  have hr : Reach calmO (fun op => op.copies = false) w :=
    exec_reach he (by intro op hop; revert op hop; decide) .init
  have hr := hr.prog
  split at hw
  · next a b ha hb =>
    obtain ⟨h1, h2, h3, h4, h5⟩ := of_decide_eq_true hw
    obtain ⟨x, hx⟩ := Option.isSome_iff_exists.1 h3
    obtain ⟨s, hs⟩ := Out.ok_of h4
    have ht : Impl.sameBase a.kind b.kind = true := by rw [h1, h2]; rfl
    have hp : WPerforms calmO (.swapBase 0 1) w (.ok .unit) _ := baseSwap_eq ha hb (by decide) ht
    have hc := set_get (l := w.caches.set 0 (some { b with obs := a.obs, kind := a.kind })) (i := 1) (y := some b)
      (x := some { a with obs := b.obs, kind := b.kind }) (by rw [set_get_ne (by decide)]; exact hb)
    obtain ⟨s', hs'⟩ := (C83_other_time_to_live calmO_calm.noListFault calmO_calm.noCallbackFault hr rfl rfl ha hb (by decide)
      ht h2 hp hc hx).2 (h5 x hx)
    have := hall calmO w _ 0 1 a b _ 1 s s' false calmO_calm calmO_steady hr ha hb (by decide) hp hc hs hs'
    cases this
  · cases hw

end LRU
