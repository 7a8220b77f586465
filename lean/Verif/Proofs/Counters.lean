import Verif.Spec.Counters
/-!
# Lemmas on statistics with machine integers
-/

set_option linter.unusedSectionVars false
set_option autoImplicit false

namespace LRU

variable {K : Type} [DecidableEq K]

theorem shown_succ (n : Nat) : shown (n + 1) = shown n + 1#64 := by
  unfold shown; rw [BitVec.ofNat_add]

theorem shown_add (m n : Nat) : shown (m + n) = shown m + shown n := by
  unfold shown; rw [BitVec.ofNat_add]

theorem shown_toNat {n : Nat} (h : n < 2 ^ 64) : (shown n).toNat = n := by
  unfold shown; rw [BitVec.toNat_ofNat, Nat.mod_eq_of_lt h]

/-- The words of a record. -/
def KeyStats.words (x : KeyStats) : WordKeyStats := ⟨shown x.hits, shown x.misses⟩

theorem words_find (st : Statistics K) (k : K) : st.words.find k = (st.find k).map KeyStats.words := by
  unfold WordStatistics.find Statistics.find Statistics.words
  dsimp only
  rw [List.find?_map, Option.map_map, Option.map_map]
  rfl

theorem words_updateKey (st : Statistics K) (k : K) (f : KeyStats → KeyStats) (g : WordKeyStats → WordKeyStats)
    (h : ∀ x, (f x).words = g x.words) : (st.updateKey k f).words = st.words.updateKey k g := by
  unfold Statistics.updateKey WordStatistics.updateKey Statistics.words
  dsimp only
  rw [List.map_map, List.map_map]
  congr 1
  apply List.map_congr_left
  intro p _
  dsimp only [Function.comp]
  split
  · next hp =>
    have := h p.2
    unfold KeyStats.words at this
    dsimp only
    rw [this]
  · rfl

theorem words_monitor (st : Statistics K) (k : K) : (st.monitor k).words = st.words.monitor k := by
  unfold Statistics.monitor WordStatistics.monitor
  rw [words_find]
  cases st.find k with
  | some _ => rfl
  | none =>
    unfold Statistics.words
    dsimp only [Option.map]
    rw [List.map_append]
    rfl

theorem words_ofKeys (ks : List K) : (Statistics.ofKeys ks).words = WordStatistics.ofKeys ks := by
  unfold Statistics.ofKeys WordStatistics.ofKeys
  have key : ∀ (st : Statistics K), (ks.foldl Statistics.monitor st).words = ks.foldl WordStatistics.monitor st.words := by
    induction ks with
    | nil => intro st; rfl
    | cons k ks ih => intro st; rw [List.foldl_cons, List.foldl_cons, ih, words_monitor]
  exact key {}

theorem words_hit (st : Statistics K) (k : K) : (st.registerHit k).words = st.words.registerHit k := by
  unfold Statistics.registerHit WordStatistics.registerHit
  dsimp only
  rw [words_updateKey _ _ _ (fun x => { x with hits := x.hits + 1#64 })]
  · unfold Statistics.words
    dsimp only
    rw [shown_succ, shown_succ]
  · intro x
    unfold KeyStats.words
    dsimp only
    rw [shown_succ]

theorem words_miss (st : Statistics K) (k : K) : (st.registerMiss k).words = st.words.registerMiss k := by
  unfold Statistics.registerMiss WordStatistics.registerMiss
  dsimp only
  rw [words_updateKey _ _ _ (fun x => { x with misses := x.misses + 1#64 })]
  · unfold Statistics.words
    dsimp only
    rw [shown_succ]
  · intro x
    unfold KeyStats.words
    dsimp only
    rw [shown_succ]

theorem words_call (st : Statistics K) (c : StatCall K) : (st.call c).words = st.words.call c := by
  cases c with
  | hit k => exact words_hit st k
  | miss k => exact words_miss st k
  | monitor k => exact words_monitor st k
  | unmonitorAll => rfl
  | unmonitor k =>
    unfold Statistics.call WordStatistics.call Statistics.unmonitor WordStatistics.unmonitor
    dsimp only
    rw [words_find]
    cases st.find k with
    | none => rfl
    | some x =>
      unfold Statistics.words
      dsimp only [Option.map]
      rw [List.filter_map]
      rfl
  | resetKey k =>
    unfold Statistics.call WordStatistics.call Statistics.resetKey WordStatistics.resetKey
    dsimp only
    rw [words_find]
    cases st.find k with
    | none => rfl
    | some x => exact words_updateKey st k _ _ fun _ => rfl

theorem updateKey_find (st : WordStatistics K) (k k' : K) (f : WordKeyStats → WordKeyStats) :
    (st.updateKey k f).find k' = if k' = k then (st.find k').map f else st.find k' := by
  unfold WordStatistics.find WordStatistics.updateKey
  dsimp only
  induction st.keys with
  | nil => simp
  | cons p r ih =>
    simp only [List.map_cons, List.find?_cons]
    by_cases hp : p.1 = k
    · rw [if_pos hp]
      by_cases hk : k' = k
      · subst hk
        simp [hp]
      · rw [if_neg hk] at ih ⊢
        have : ¬ p.1 = k' := fun h => hk (h.symm.trans hp)
        simp only [this, decide_false]
        exact ih
    · rw [if_neg hp]
      by_cases hk : k' = k
      · subst hk
        simp only [if_true] at ih ⊢
        simp only [hp, decide_false]
        exact ih
      · rw [if_neg hk] at ih ⊢
        by_cases hp' : p.1 = k'
        · simp [hp']
        · simp only [hp', decide_false]
          exact ih

theorem find_keys {st st' : WordStatistics K} {k : K} (h : st'.keys = st.keys) : st'.find k = st.find k := by
  unfold WordStatistics.find
  rw [h]

theorem calls_totals (st : WordStatistics K) (l : List (StatCall K)) :
    (st.calls l).total = st.total + shown (accessesIn l) ∧ (st.calls l).hits = st.hits + shown (hitsIn l) := by
  unfold WordStatistics.calls accessesIn hitsIn
  induction l generalizing st with
  | nil => simp [shown]
  | cons c l ih =>
    rw [List.foldl_cons, List.countP_cons, List.countP_cons]
    obtain ⟨h1, h2⟩ := ih (st.call c)
    rw [h1, h2, shown_add, shown_add]
    have key : (st.call c).total = st.total + shown (if c.isAccess = true then 1 else 0) ∧
        (st.call c).hits = st.hits + shown (if c.isHit = true then 1 else 0) := by
      cases c with
      | hit k => exact ⟨rfl, rfl⟩
      | miss k =>
        refine ⟨rfl, ?_⟩
        show st.hits = st.hits + 0#64
        simp
      | monitor k =>
        show (st.monitor k).total = st.total + 0#64 ∧ (st.monitor k).hits = st.hits + 0#64
        unfold WordStatistics.monitor
        cases st.find k <;> simp
      | unmonitorAll =>
        show st.total = st.total + 0#64 ∧ st.hits = st.hits + 0#64
        simp
      | unmonitor k =>
        show ((st.call (.unmonitor k)).total = st.total + 0#64 ∧ (st.call (.unmonitor k)).hits = st.hits + 0#64)
        unfold WordStatistics.call WordStatistics.unmonitor
        cases h : st.find k <;> simp only [h] <;> simp
      | resetKey k =>
        show ((st.call (.resetKey k)).total = st.total + 0#64 ∧ (st.call (.resetKey k)).hits = st.hits + 0#64)
        unfold WordStatistics.call WordStatistics.resetKey
        cases h : st.find k <;> simp only [h] <;> simp [WordStatistics.updateKey]
    rw [key.1, key.2]
    constructor
    · rw [BitVec.add_assoc, BitVec.add_comm (shown (List.countP _ l))]
    · rw [BitVec.add_assoc, BitVec.add_comm (shown (List.countP _ l))]

theorem ofKeys_totals (ks : List K) :
    (WordStatistics.ofKeys ks).total = 0#64 ∧ (WordStatistics.ofKeys ks).hits = 0#64 := by
  have key : ∀ st : WordStatistics K, (ks.foldl WordStatistics.monitor st).total = st.total ∧
      (ks.foldl WordStatistics.monitor st).hits = st.hits := by
    induction ks with
    | nil => intro st; exact ⟨rfl, rfl⟩
    | cons k ks ih =>
      intro st
      rw [List.foldl_cons, (ih _).1, (ih _).2]
      unfold WordStatistics.monitor
      cases st.find k <;> exact ⟨rfl, rfl⟩
  exact key {}

theorem accessesIn_eq (l : List (StatCall K)) : accessesIn l = hitsIn l + missesIn l := by
  unfold accessesIn hitsIn missesIn
  induction l with
  | nil => rfl
  | cons c l ih =>
    rw [List.countP_cons, List.countP_cons, List.countP_cons, ih]
    cases c <;> simp [StatCall.isAccess, StatCall.isHit, StatCall.isMiss] <;> omega

theorem call_key (st : WordStatistics K) (k : K) (c : StatCall K) (hc : ¬ c.Restarts k) (x : WordKeyStats)
    (hx : st.find k = some x) :
    (st.call c).find k = some ⟨x.hits + shown (if c = .hit k then 1 else 0),
      x.misses + shown (if c = .miss k then 1 else 0)⟩ := by
  have hz : ∀ a : SizeT, a + shown 0 = a := fun a => by unfold shown; simp
  cases c with
  | hit k' =>
    show ((st.registerHit k').find k) = _
    unfold WordStatistics.registerHit
    dsimp only
    rw [updateKey_find]
    rw [find_keys (st := st) (st' := { st with total := st.total + 1#64, hits := st.hits + 1#64 }) rfl, hx]
    by_cases hk : k = k'
    · subst hk
      simp [shown]
    · have : ¬ k' = k := fun h => hk h.symm
      simp [hk, this, hz]
  | miss k' =>
    show ((st.registerMiss k').find k) = _
    unfold WordStatistics.registerMiss
    dsimp only
    rw [updateKey_find]
    rw [find_keys (st := st) (st' := { st with total := st.total + 1#64 }) rfl, hx]
    by_cases hk : k = k'
    · subst hk
      simp [shown]
    · have : ¬ k' = k := fun h => hk h.symm
      simp [hk, this, hz]
  | monitor k' =>
    show ((st.monitor k').find k) = _
    unfold WordStatistics.monitor
    cases h : st.find k' with
    | some _ => simp [hx, hz]
    | none =>
      dsimp only
      unfold WordStatistics.find at hx ⊢
      dsimp only
      rw [List.find?_append]
      cases h2 : st.keys.find? (fun p => decide (p.1 = k)) with
      | none => rw [h2] at hx; cases hx
      | some p =>
        rw [h2] at hx
        simpa [hz] using hx
  | unmonitorAll => exact absurd trivial hc
  | unmonitor k' =>
    have hk : ¬ k' = k := hc
    show WordStatistics.find (st.call (.unmonitor k')) k = _
    unfold WordStatistics.call WordStatistics.unmonitor
    cases h : st.find k' with
    | none => simp only [h]; simp [hx, hz]
    | some _ =>
      simp only [h]
      unfold WordStatistics.find at hx ⊢
      dsimp only
      rw [List.find?_filter]
      have : (fun p : K × WordKeyStats => decide (decide (p.1 ≠ k') = true ∧ decide (p.1 = k) = true)) =
          fun p => decide (p.1 = k) := by
        funext p
        by_cases hp : p.1 = k
        · have : ¬ p.1 = k' := fun h => hk (h.symm.trans hp)
          simp [hp, Ne.symm hk]
        · simp [hp]
      rw [this, hx]
      simp [hz]
  | resetKey k' =>
    have hk : ¬ k' = k := hc
    show WordStatistics.find (st.call (.resetKey k')) k = _
    unfold WordStatistics.call WordStatistics.resetKey
    cases h : st.find k' with
    | none => simp only [h]; simp [hx, hz]
    | some _ =>
      simp only [h]
      rw [updateKey_find, if_neg (Ne.symm hk), hx]
      simp [hz]

theorem calls_key (st : WordStatistics K) (k : K) (l : List (StatCall K)) (hl : ∀ c ∈ l, ¬ c.Restarts k)
    (x : WordKeyStats) (hx : st.find k = some x) :
    (st.calls l).find k = some ⟨x.hits + shown (l.count (.hit k)), x.misses + shown (l.count (.miss k))⟩ := by
  unfold WordStatistics.calls
  induction l generalizing st x with
  | nil => rw [List.foldl_nil, hx]; simp [shown]
  | cons c l ih =>
    rw [List.foldl_cons, ih (st.call c) (fun c hc => hl c (List.mem_cons_of_mem _ hc)) _
      (call_key st k c (hl c (List.mem_cons_self ..)) x hx)]
    have key : ∀ (a : SizeT) (m n : Nat), a + shown n + shown m = a + shown (m + n) := by
      intro a m n
      rw [shown_add, BitVec.add_assoc, BitVec.add_comm (shown n)]
    rw [key, key, List.count_cons, List.count_cons]
    simp only [beq_iff_eq]

/-- What is left of one. -/
theorem rest_rate {h m a : Nat} (he : a = h + m) (h0 : a ≠ 0) : 1 - (h : Rat) / (a : Rat) = (m : Rat) / (a : Rat) := by
  have h1 : (a : Rat) ≠ 0 := by
    intro h
    exact h0 (Rat.natCast_inj.1 h)
  have h2 : (a : Rat) = (h : Rat) + (m : Rat) := by rw [he, Rat.natCast_add]
  grind

end LRU
