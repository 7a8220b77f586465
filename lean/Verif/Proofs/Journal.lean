import Verif.Spec.Watched
import Verif.Props.Stats
/-!
# Journals of statistics objects: lemmas for `Props.Watched`
-/

set_option linter.unusedSectionVars false
set_option autoImplicit false

namespace LRU

variable {K V : Type} [DecidableEq K]

/-- The statistics object says what its journal says. -/
structure Journaled (st : Statistics K) (j : Journal K) : Prop where
  total : st.total = j.verdicts.length
  hits : st.hits = j.verdicts.count true
  record : ∀ k, st.find k = j.record k

theorem find_statsFor (st : Statistics K) (k : K) : st.find k = (st.statsFor k).toOption := by
  unfold Statistics.statsFor
  cases st.find k <;> rfl

theorem toOption_map {α β ε : Type} (x : Except ε α) (f : α → β) : (f <$> x).toOption = x.toOption.map f := by
  cases x <;> rfl

theorem Journaled.counted {st st' : Statistics K} {j : Journal K} {k : K} {hit : Bool} (h : Journaled st j)
    (hc : Counted k hit st st') : Journaled st' (.access k hit :: j) := by
  refine ⟨?_, ?_, fun x => ?_⟩
  · have : st'.total = st.total + 1 := hc.total
    rw [this, h.total]
    rfl
  · have : st'.hits = st.hits + _ := hc.hits
    rw [this, h.hits]
    cases hit <;> simp [Journal.verdicts]
  · rw [Journal.record]
    split
    · next hx =>
      subst hx
      rw [find_statsFor, hc.own, ← h.record, find_statsFor]
      cases st.statsFor k <;> rfl
    · next hx => rw [find_statsFor, hc.other x (fun e => hx e.symm), ← h.record, find_statsFor]

theorem find_append (st : Statistics K) (k x : K) (r : KeyStats) :
    ({ st with keys := st.keys ++ [(k, r)] } : Statistics K).find x =
      match st.find x with
      | some y => some y
      | none => if k = x then some r else none := by
  unfold Statistics.find
  rw [List.find?_append]
  cases st.keys.find? (fun p => decide (p.1 = x)) with
  | some y => rfl
  | none =>
    by_cases h : k = x <;> simp [h]

theorem Journaled.watch {st : Statistics K} {j : Journal K} (h : Journaled st j) (k : K) :
    Journaled (st.monitor k) (.watch k :: j) := by
  unfold Statistics.monitor
  cases hf : st.find k with
  | some r =>
    refine ⟨h.total, h.hits, fun x => ?_⟩
    show st.find x = _
    rw [Journal.record]
    by_cases hx : k = x
    · subst hx
      rw [if_pos rfl, ← h.record, hf]
      rfl
    · rw [if_neg hx]
      exact h.record x
  | none =>
    refine ⟨h.total, h.hits, fun x => ?_⟩
    show Statistics.find _ x = _
    rw [find_append, Journal.record, ← h.record]
    split
    · next r hr =>
      split
      · next hx => subst hx; rw [hf] at hr; cases hr
      · exact hr.symm
    · next hr => rw [hr]; rfl

theorem Journaled.watchAll {st : Statistics K} {j : Journal K} (h : Journaled st j) (ks : List K) :
    Journaled (ks.foldl Statistics.monitor st) (ks.reverse.map .watch ++ j) := by
  induction ks generalizing st j with
  | nil => exact h
  | cons k ks ih =>
    have := ih (h.watch k)
    simpa using this

theorem Journaled.new (ks : List K) : Journaled (Statistics.ofKeys ks) (ks.reverse.map .watch) := by
  have := Journaled.watchAll (st := {}) (j := []) ⟨rfl, rfl, fun _ => rfl⟩ ks
  rwa [List.append_nil] at this

theorem Journaled.unwatch {st : Statistics K} {j : Journal K} (h : Journaled st j) (k : K) :
    Journaled { st with keys := st.keys.filter (fun p => p.1 ≠ k) } (.unwatch k :: j) := by
  refine ⟨h.total, h.hits, fun x => ?_⟩
  rw [Journal.record, ← h.record]
  unfold Statistics.find
  rw [List.find?_filter]
  split
  · next hx =>
    subst hx
    rw [List.find?_eq_none.2 (by intro p _; simp)]
    rfl
  · next hx =>
    congr 2
    funext p
    by_cases hp : p.1 = x
    · simp [hp, Ne.symm hx]
    · simp [hp]

theorem Journaled.unwatchAll {st : Statistics K} {j : Journal K} (h : Journaled st j) :
    Journaled st.unmonitorAll (.unwatchAll :: j) := ⟨h.total, h.hits, fun _ => rfl⟩

theorem Journaled.reset {st : Statistics K} {j : Journal K} (h : Journaled st j) (k : K) :
    Journaled (st.updateKey k (fun _ => {})) (.reset k :: j) := by
  refine ⟨h.total, h.hits, fun x => ?_⟩
  rw [Journal.record, ← h.record]
  split
  · next hx => subst hx; exact find_updateKey_self _ _ _
  · next hx => exact find_updateKey_other _ (Ne.symm hx) _

/-! ### Monitored keys -/

theorem mem_everWatched (j : Journal K) (k : K) (h : (j.record k).isSome) : k ∈ j.everWatched := by
  induction j with
  | nil => cases h
  | cons n j ih =>
    cases n with
    | access x hit =>
      rw [Journal.record] at h
      split at h
      · rw [Option.isSome_map] at h; exact ih h
      · exact ih h
    | watch x =>
      rw [Journal.record] at h
      rw [Journal.everWatched]
      split at h
      · next hx =>
        subst hx
        split
        · assumption
        · exact List.mem_cons_self
      · have := ih h
        split
        · exact this
        · exact List.mem_cons_of_mem _ this
    | unwatch x =>
      rw [Journal.record] at h
      split at h
      · cases h
      · exact ih h
    | unwatchAll => cases h
    | reset x =>
      rw [Journal.record] at h
      split at h
      · rw [Option.isSome_map] at h; exact ih h
      · exact ih h

theorem nodup_everWatched (j : Journal K) : j.everWatched.Nodup := by
  induction j with
  | nil => exact List.nodup_nil
  | cons n j ih =>
    cases n <;> first | exact ih | skip
    rw [Journal.everWatched]
    split
    · exact ih
    · next h => exact List.nodup_cons.2 ⟨h, ih⟩

theorem mem_watched (j : Journal K) (k : K) : k ∈ j.watched ↔ (j.record k).isSome := by
  unfold Journal.watched
  rw [List.mem_filter]
  exact ⟨fun h => h.2, fun h => ⟨mem_everWatched j k h, h⟩⟩

theorem nodup_length_le {α : Type} [DecidableEq α] {a b : List α} (ha : a.Nodup) (h : ∀ x ∈ a, x ∈ b) : a.length ≤ b.length := by
  induction a generalizing b with
  | nil => exact Nat.zero_le _
  | cons x a ih =>
    have hx : x ∈ b := h x (by simp)
    have := ih (b := b.erase x) (List.nodup_cons.1 ha).2 (fun y hy => by
      have hne : y ≠ x := fun e => (List.nodup_cons.1 ha).1 (e ▸ hy)
      rw [List.mem_erase_of_ne hne]
      exact h y (by simp [hy]))
    rw [List.length_erase_of_mem hx] at this
    have : 0 < b.length := List.length_pos_of_mem hx
    simp only [List.length_cons]
    omega

theorem mem_keys (st : Statistics K) (k : K) : k ∈ st.keys.map (·.1) ↔ (st.find k).isSome := by
  unfold Statistics.find
  rw [Option.isSome_map, List.find?_isSome, List.mem_map]
  simp

theorem Journaled.keys {st : Statistics K} {j : Journal K} (h : Journaled st j) (hs : StatState st) :
    st.keys.length = j.watched.length := by
  have hn := hs.ok.nodup
  have hm : ∀ k, k ∈ st.keys.map (·.1) ↔ k ∈ j.watched := fun k => by rw [mem_keys, mem_watched, h.record]
  rw [← List.length_map (f := (·.1))]
  exact Nat.le_antisymm (nodup_length_le hn fun k hk => (hm k).1 hk)
    (nodup_length_le ((nodup_everWatched j).sublist List.filter_sublist) fun k hk => (hm k).2 hk)

theorem count_bools (l : List Bool) : l.length = l.count true + l.count false := by
  induction l with
  | nil => rfl
  | cons b l ih => cases b <;> simp <;> omega

theorem Journaled.tell {st : Statistics K} {j : Journal K} (h : Journaled st j) (hs : StatState st) (q : Query K) :
    (st.tell q : News K V) = j.answer q := by
  have hc := count_bools j.verdicts
  have h1 := h.total
  have h2 := h.hits
  have hz : st.total = 0 ↔ j.verdicts = [] := by rw [h1, List.length_eq_zero_iff]
  cases q with
  | accesses => exact congrArg (fun n => News.says (.nat n)) h1
  | hits => exact congrArg (fun n => News.says (.nat n)) h2
  | misses =>
    show (match st.totalMisses with | some n => News.says (.nat n) | none => .other) = _
    unfold Statistics.totalMisses
    rw [if_pos (by omega)]
    show News.says (.nat _) = News.says (.nat _)
    congr 2
    omega
  | hitRate =>
    show News.rate st.hitRate = .rate _
    unfold Statistics.hitRate
    rw [show (if st.total = 0 then none else some ((st.hits : Rat) / (st.total : Rat))) =
      if j.verdicts = [] then none else some ((st.hits : Rat) / (st.total : Rat)) by simp only [hz], h1, h2]
  | missRate =>
    show News.rate st.missRate = .rate _
    unfold Statistics.missRate Statistics.hitRate
    by_cases hne : j.verdicts = []
    · rw [if_pos (hz.2 hne), if_pos hne]; rfl
    · rw [if_neg (fun h => hne (hz.1 h)), if_neg hne]
      have hpos : (j.verdicts.length : Rat) ≠ 0 := by
        intro h0
        have : (j.verdicts.length : Rat) = ((0 : Nat) : Rat) := h0
        rw [Rat.natCast_inj] at this
        exact hne (List.length_eq_zero_iff.1 this)
      have hsum : (j.verdicts.length : Rat) = (j.verdicts.count true : Rat) + (j.verdicts.count false : Rat) := by
        rw [← Rat.natCast_add, ← hc]
      rw [h1, h2, Option.map_some]
      congr 2
      grind
  | recordOf k =>
    show (match st.statsFor k with
      | .ok r => News.record r
      | .error .unmonitoredKey => .unmonitored
      | .error _ => .other) = match j.record k with
      | some r => .record r
      | none => .unmonitored
    unfold Statistics.statsFor
    rw [h.record]
    cases j.record k <;> rfl
  | isMonitoring k => exact congrArg (fun x : Option KeyStats => News.says (.bool x.isSome)) (h.record k)
  | monitoredKeys => exact congrArg (fun n => News.says (.nat n)) (h.keys hs)
  | isMonitoringKeys =>
    have hk := h.keys hs
    show News.says (.bool (!st.keys.isEmpty)) = .says (.bool (!j.watched.isEmpty))
    congr 3
    rw [Bool.eq_iff_iff, List.isEmpty_iff, List.isEmpty_iff, ← List.length_eq_zero_iff, ← List.length_eq_zero_iff, hk]

end LRU
