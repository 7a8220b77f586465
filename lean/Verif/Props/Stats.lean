import Verif.Proofs.StatInv
import Verif.Spec.DemoTrace
import Verif.Props.Expiry
/-!
# Statistics and callbacks: C18, C19, C20, C21, C24, C60

`Run O s h s'` are the calls `h` (newest first) on one cache; `Trace O w h w'` the steps `h` of a program with any
number of caches and statistics objects. A statistics object is identified by a number; those below `nextStat` exist.
Statements about traces need no assumption about the caches and hold even when caches are copied.
-/

set_option linter.unusedSectionVars false
set_option autoImplicit false

namespace LRU

variable {K V : Type} [KeyEqual K] [DecidableEq K] [DecidableEq V] {O : Oracle K V}
  {s s' : St (Cache K V) K V} {h : List (Call K V)} {i : Nat} {k : K}

/-! ### C18 -/

/-- C18. The statistics object `i` counts exactly the accesses made while the cache reported to it; hits are those for
which the key was stored. This holds whether or not callbacks throw. -/
theorem C18_counts (hO : NoListFault O) (hs : Reachable O s) (hb : s.c.kind = .basic) (hi : i < s.g.nextStat)
    (hr : Run O s h s') :
    (s'.g.stats i).totalAccesses = (s.g.stats i).totalAccesses + h.countP (fun c => c.reportsTo i) ∧
    (s'.g.stats i).totalHits = (s.g.stats i).totalHits + h.countP (fun c => c.reportsTo i && c.wasStored) := by
  have inv : i < s'.g.nextStat ∧ s'.c.kind = .basic ∧
      (s'.g.stats i).totalAccesses = (s.g.stats i).totalAccesses + h.countP (fun c => c.reportsTo i) ∧
      (s'.g.stats i).totalHits = (s.g.stats i).totalHits + h.countP (fun c => c.reportsTo i && c.wasStored) := by
    induction hr with
    | nil => exact ⟨hi, hb, rfl, rfl⟩
    | @call h s1 s2 op res hrun hp ih =>
      obtain ⟨h1, h2, h3, h4⟩ := ih
      refine ⟨Nat.lt_of_lt_of_le h1 (performs_nextStat hp), (performs_kind hp).trans h2, ?_⟩
      rw [List.countP_cons, List.countP_cons]
      cases ha : op.isAccess with
      | false =>
        rw [(performs_other hp ha).2.2.1 i h1, h3, h4]
        simp [Call.reportsTo, ha]
      | true =>
        by_cases hst : s1.c.obs.stats = some i
        · obtain ⟨k, hk⟩ : ∃ k, op.accessed = some k := by
            rw [isAccess_accessed] at ha
            exact Option.isSome_iff_exists.1 ha
          obtain ⟨⟨n, h5⟩, _⟩ := (hrun.reachable hO hs).registers hO h2 (accessed_iff.1 hk) hp
          have h6 := h5.counted i hst
          rw [h6.total, h6.hits, h3, h4]
          simp [Call.reportsTo, ha, hst, Call.wasStored, hk, Nat.add_assoc]
        · rw [(performs_minds hp ha).others i hst, h3, h4]
          simp [Call.reportsTo, ha, hst]
  exact inv.2.2

/-- C18. Misses are the rest (the subtraction in `total_misses()` does not wrap). -/
theorem C18_misses (hO : NoListFault O) (hs : Reachable O s) (hb : s.c.kind = .basic) (hi : i < s.g.nextStat)
    (hr : Run O s h s') (n : Nat) (hn : (s.g.stats i).totalMisses = some n) :
    (s'.g.stats i).totalMisses = some (n + h.countP (fun c => c.reportsTo i && !c.wasStored)) := by
  obtain ⟨h1, h2⟩ := C18_counts hO hs hb hi hr
  have h3 : h.countP (fun c => c.reportsTo i) =
      h.countP (fun c => c.reportsTo i && c.wasStored) + h.countP (fun c => c.reportsTo i && !c.wasStored) := by
    clear hr h1 h2
    induction h with
    | nil => rfl
    | cons c h ih =>
      simp only [List.countP_cons, ih]
      cases c.reportsTo i <;> cases c.wasStored <;> simp <;> omega
  unfold Statistics.totalMisses at hn ⊢
  unfold Statistics.totalAccesses Statistics.totalHits at *
  split at hn
  · injection hn with hn
    rw [if_pos (by omega)]
    congr 1
    omega
  · cases hn

/-- C18. While the cache keeps reporting to `i`, these are all `contains`, `find` and `lookup` calls; without throwing
callbacks the hits are the calls that reported success. -/
theorem C18_monitored (hO : NoListFault O) (hs : Reachable O s) (hb : s.c.kind = .basic) (hi : i < s.g.nextStat)
    (hm : s.c.obs.stats = some i) (hr : Run O s h s') (hno : ∀ c ∈ h, c.op.setsMonitor = false)
    (hu : ∀ c ∈ h, c.res ≠ .error .user) :
    (s'.g.stats i).totalAccesses = (s.g.stats i).totalAccesses + h.countP (fun c => c.op.isAccess) ∧
    (s'.g.stats i).totalHits = (s.g.stats i).totalHits + h.countP (fun c => c.op.isAccess && found c.res) := by
  have key : s'.c.kind = .basic ∧ s'.c.obs.stats = some i ∧ ∀ c ∈ h, c.reportsTo i = c.op.isAccess ∧
      (c.op.isAccess = true → c.wasStored = found c.res) := by
    clear hi
    induction hr with
    | nil => exact ⟨hb, hm, by simp⟩
    | @call h s1 s2 op res hrun hp ih =>
      obtain ⟨h1, h2, h3⟩ := ih (fun c hc => hno c (List.mem_cons_of_mem _ hc)) (fun c hc => hu c (List.mem_cons_of_mem _ hc))
      have h4 := hno _ (List.mem_cons_self ..)
      have h5 := hu _ (List.mem_cons_self ..)
      refine ⟨(performs_kind hp).trans h1, ?_, ?_⟩
      · cases ha : op.isAccess with
        | true => rw [(performs_minds hp ha).obs]; exact h2
        | false => rw [(performs_other hp ha).2.2.2.2.2 h4]; exact h2
      · intro c hc
        rcases List.mem_cons.1 hc with rfl | hc
        · refine ⟨by simp [Call.reportsTo, h2], fun ha => ?_⟩
          obtain ⟨k, hk⟩ : ∃ k, op.accessed = some k := by
            rw [isAccess_accessed] at ha
            exact Option.isSome_iff_exists.1 ha
          obtain ⟨_, h6, _⟩ := (hrun.reachable hO hs).registers hO h1 (accessed_iff.1 hk) hp
          rw [(h6 h5).2]
          simp [Call.wasStored, hk]
        · exact h3 c hc
  obtain ⟨h1, h2⟩ := C18_counts hO hs hb hi hr
  refine ⟨?_, ?_⟩
  · rw [h1]
    congr 1
    exact List.countP_congr fun c hc => by rw [(key.2.2 c hc).1]
  · rw [h2]
    congr 1
    refine List.countP_congr fun c hc => ?_
    rw [(key.2.2 c hc).1]
    cases ha : c.op.isAccess with
    | false => simp
    | true => rw [(key.2.2 c hc).2 ha]

/-- C18. All other calls leave every existing statistics object as it is. No assumption about the cache is needed. -/
theorem C18_other_calls {op : Op K V} {res : Except Err (Res K V)} (hp : Performs O op s res s')
    (ha : op.isAccess = false) : ∀ j, j < s.g.nextStat → s'.g.stats j = s.g.stats j :=
  (performs_other hp ha).2.2.1

/-- A monitored cache on which two of three accesses are hits. -/
def demoMonitored : List (WOp Nat Nat) := demo3 ++ [.newStats [1, 7], .op 0 (.monitor (some 0))]

theorem demoMonitored_reachable : Reachable calmO (demoState calmO demoMonitored 0) :=
  demoState_reachable (by decide +kernel) rfl

example : let s := demoState calmO demoMonitored 0
    s.c.kind = .basic ∧ 0 < s.g.nextStat ∧ s.c.obs.stats = some 0 ∧
    ((runFrom calmO ([.lookup 1, .find 7, .insert 4 40, .contains 2, .contains 4] : List (Op Nat Nat)) [] s).map
      fun p => (p.1.countP (fun c => c.op.isAccess), p.1.countP (fun c => c.op.isAccess && found c.res),
        (p.2.g.stats 0).totalAccesses, (p.2.g.stats 0).totalHits, (p.2.g.stats 0).totalMisses)) =
      some (4, 2, 4, 2, some 2) := by decide +kernel

/-! ### C19 -/

section trace

variable {w w' : World K V} {t : List (WCall K V)}

/-- C19. For a key that stays monitored, `hits_for` and `misses_for` grow by exactly the number of hits and misses on
this key, by whatever cache reports to the object; monitoring the key again or touching other keys does not matter. -/
theorem C19_key_counts (hi : i < w.g.nextStat) (ht : Trace O w t w') (hpl : ∀ c ∈ t, c.plainFor i)
    (hu : ∀ c ∈ t, c.res ≠ .error .user) (hk : ∀ c ∈ t, c.op ≠ .stat i (.unmonitor k) ∧ c.op ≠ .stat i .unmonitorAll ∧
      c.op ≠ .stat i (.resetKey k)) (x : KeyStats) (hx : (w.g.stats i).statsFor k = .ok x) :
    (w'.g.stats i).statsFor k = .ok
      ⟨x.hits + t.countP (fun c => decide (c.accessFor i = some k) && found c.res),
       x.misses + t.countP (fun c => decide (c.accessFor i = some k) && !found c.res)⟩ := by
  have inv : i < w'.g.nextStat ∧ (w'.g.stats i).statsFor k = .ok
      ⟨x.hits + t.countP (fun c => decide (c.accessFor i = some k) && found c.res),
       x.misses + t.countP (fun c => decide (c.accessFor i = some k) && !found c.res)⟩ := by
    induction ht with
    | nil => exact ⟨hi, by rw [hx]; rfl⟩
    | @step t w1 w2 op res _ hp ih =>
      obtain ⟨h1, h2⟩ := ih (fun c hc => hpl c (List.mem_cons_of_mem _ hc)) (fun c hc => hu c (List.mem_cons_of_mem _ hc))
        (fun c hc => hk c (List.mem_cons_of_mem _ hc))
      obtain ⟨h3, h4⟩ := object_step hp h1
      refine ⟨h3, ?_⟩
      rw [List.countP_cons, List.countP_cons]
      rcases h4 with ⟨j, h5, h6⟩ | ⟨h5, h6⟩
      · have h7 := (h6 (hpl _ (List.mem_cons_self ..))).1 (hu _ (List.mem_cons_self ..))
        by_cases hj : k = j
        · subst hj
          rw [h7.own, h2, h5]
          cases hf : found res <;> simp [Except.map, KeyStats.plus, Nat.add_assoc]
        · rw [h7.other k hj, h2, h5]
          have : ¬ j = k := fun h => hj h.symm
          simp [this]
      · have h8 : (w2.g.stats i).statsFor k = (w1.g.stats i).statsFor k := by
          rcases h6 with h6 | ⟨o, h6, h7⟩
          · rw [h6]
          · have hk' := hk _ (List.mem_cons_self ..)
            simp only [h6] at hk'
            cases o with
            | monitor j =>
              injection h7 with h7
              rw [← h7]
              unfold Statistics.monitor
              split
              · rfl
              · next hn =>
                unfold Statistics.statsFor Statistics.find at h2 ⊢
                simp only
                rw [List.find?_append]
                cases hf : (w1.g.stats i).keys.find? (fun p => p.1 = k) with
                | none => rw [hf] at h2; cases h2
                | some p => rfl
            | unmonitor j =>
              have hjk : k ≠ j := by rintro rfl; exact hk'.1 rfl
              have h7 : (w1.g.stats i).unmonitor j = _ := h7
              unfold Statistics.unmonitor at h7
              split at h7
              · cases h7
              · injection h7 with h7
                rw [← h7]
                unfold Statistics.statsFor Statistics.find
                simp only
                have : List.find? (fun p : K × KeyStats => decide (p.1 = k))
                    (List.filter (fun p => decide (p.1 ≠ j)) (w1.g.stats i).keys) =
                    List.find? (fun p => decide (p.1 = k)) (w1.g.stats i).keys := by
                  rw [List.find?_filter]
                  congr 1
                  funext p
                  by_cases hp : p.1 = k
                  · simp [hp, hjk]
                  · simp [hp]
                rw [this]
            | unmonitorAll => exact absurd rfl hk'.2.1
            | resetKey j =>
              have hjk : k ≠ j := by rintro rfl; exact hk'.2.2 rfl
              have h7 : (w1.g.stats i).resetKey j = _ := h7
              unfold Statistics.resetKey at h7
              split at h7
              · cases h7
              · injection h7 with h7
                rw [← h7, statsFor_eq, statsFor_eq, find_updateKey_other _ hjk]
        rw [h8, h2, h5]
        simp
  exact inv.2

/-- C19. `accesses_for` is the sum; unmonitored keys throw `UnmonitoredKey`; `monitor` starts a key at zero and does not
reset it when it is monitored already; `reset_key` sets it to zero; `unmonitor` removes it. -/
theorem C19_statistics_calls (st : Statistics K) (j : K) :
    (∀ x : KeyStats, x.accesses = x.hits + x.misses) ∧
    (st.isMonitoring k = false ↔ st.statsFor k = .error .unmonitoredKey) ∧
    (st.isMonitoring k = false → st.unmonitor k = .error .unmonitoredKey ∧ st.resetKey k = .error .unmonitoredKey) ∧
    (∀ x, st.statsFor k = .ok x → (st.monitor j).statsFor k = .ok x) ∧
    (st.isMonitoring k = false → (st.monitor k).statsFor k = .ok {}) ∧
    (∀ st', st.resetKey k = .ok st' → st'.statsFor k = .ok {} ∧ ∀ j, j ≠ k → st'.statsFor j = st.statsFor j) ∧
    (∀ st', st.unmonitor k = .ok st' → st'.isMonitoring k = false ∧ ∀ j, j ≠ k → st'.statsFor j = st.statsFor j) := by
  refine ⟨fun _ => rfl, ?_, ?_, ?_, ?_, ?_, ?_⟩
  · unfold Statistics.isMonitoring Statistics.statsFor
    cases st.find k <;> simp
  · intro hm
    unfold Statistics.isMonitoring at hm
    unfold Statistics.unmonitor Statistics.resetKey
    cases hf : st.find k with
    | none => exact ⟨rfl, rfl⟩
    | some x => rw [hf] at hm; cases hm
  · intro x hx
    unfold Statistics.monitor
    split
    · exact hx
    · unfold Statistics.statsFor Statistics.find at hx ⊢
      simp only
      rw [List.find?_append]
      cases hf : st.keys.find? (fun p => p.1 = k) with
      | none => rw [hf] at hx; cases hx
      | some p => rw [hf] at hx; exact hx
  · intro hm
    unfold Statistics.isMonitoring at hm
    unfold Statistics.monitor
    cases hf : st.find k with
    | some x => rw [hf] at hm; cases hm
    | none =>
      unfold Statistics.statsFor Statistics.find at *
      simp only
      rw [List.find?_append]
      cases hg : st.keys.find? (fun p => p.1 = k) with
      | some p => rw [hg] at hf; cases hf
      | none => simp
  · intro st' h
    unfold Statistics.resetKey at h
    cases hf : st.find k with
    | none => rw [hf] at h; cases h
    | some x =>
      rw [hf] at h
      injection h with h
      rw [← h]
      exact ⟨by rw [statsFor_eq, find_updateKey_self, hf]; rfl,
        fun j hj => by rw [statsFor_eq, statsFor_eq, find_updateKey_other _ hj]⟩
  · intro st' h
    unfold Statistics.unmonitor at h
    cases hf : st.find k with
    | none => rw [hf] at h; cases h
    | some x =>
      rw [hf] at h
      injection h with h
      rw [← h]
      refine ⟨?_, ?_⟩
      · unfold Statistics.isMonitoring Statistics.find
        simp only
        rw [List.find?_filter]
        have : (List.find? (fun a : K × KeyStats => decide (decide (a.1 ≠ k) = true ∧ decide (a.1 = k) = true)) st.keys)
            = none := by
          rw [List.find?_eq_none]
          intro p _
          by_cases hp : p.1 = k <;> simp [hp]
        rw [this]
        rfl
      · intro j hj
        unfold Statistics.statsFor Statistics.find
        simp only
        rw [List.find?_filter]
        congr 3
        funext p
        by_cases hp : p.1 = j
        · simp [hp, hj]
        · simp [hp]

/-- A program with two monitored caches: one object for keys 1 and 7, shared by both. -/
def demoShared : List (WOp Nat Nat) :=
  [.newStats [1, 7], .newStats [], .create .basic (.sized 2), .create .basic (.sized 2), .create .basic (.sized 2),
   .op 0 (.monitor (some 0)), .op 1 (.monitor (some 0)), .op 2 (.monitor (some 1)), .op 0 (.insert 1 10),
   .op 1 (.insert 2 20), .op 2 (.insert 1 30)]

/-- Five steps: hits on 1 by cache 0, misses on 1 and 7 by cache 1, a hit on 2 by cache 1, a hit on 1 by cache 2. -/
def demoAccesses : List (WOp Nat Nat) :=
  [.op 0 (.lookup 1), .op 1 (.lookup 1), .stat 0 (.monitor 1), .op 1 (.find 7), .op 1 (.contains 2), .op 2 (.contains 1)]

example : ((exec calmO demoShared Impl.initWorld).bind fun w => (traceFrom calmO demoAccesses [] w).map fun p =>
      (p.1.countP (fun c => decide (c.accessFor 0 = some 1) && found c.res),
       p.1.countP (fun c => decide (c.accessFor 0 = some 1) && !found c.res),
       (w.g.stats 0).keys, (p.2.g.stats 0).keys)) =
    some (1, 1, [(1, ⟨0, 0⟩), (7, ⟨0, 0⟩)], [(1, ⟨1, 1⟩), (7, ⟨0, 1⟩)]) := by decide +kernel

example : ((exec calmO demoShared Impl.initWorld).bind fun w => (traceFrom calmO demoAccesses [] w).map fun p =>
      (p.1.countP (fun c => (c.accessFor 0).isSome), (p.2.g.stats 0).totalAccesses, (p.2.g.stats 0).totalHits,
       (p.2.g.stats 1).totalAccesses)) = some (4, 4, 2, 1) := by decide +kernel

end trace

/-! ### C20 -/

/-- Sum over all monitored keys. -/
def Statistics.sumHits (st : Statistics K) : Nat := (st.keys.map (·.2.hits)).sum

@[inherit_doc Statistics.sumHits]
def Statistics.sumMisses (st : Statistics K) : Nat := (st.keys.map (·.2.misses)).sum

/-- C20. In every state of a `Statistics` object hits do not exceed accesses, so `total_misses()` does not wrap; every
key is monitored at most once; the sums over the monitored keys do not exceed the totals. -/
theorem C20_totals (st : Statistics K) (hst : StatState st) :
    st.totalHits ≤ st.totalAccesses ∧ st.totalMisses = some (st.totalAccesses - st.totalHits) ∧
    (st.keys.map (·.1)).Nodup ∧ st.sumHits ≤ st.totalHits ∧ st.sumHits + st.sumMisses ≤ st.totalAccesses ∧
    st.sumMisses ≤ st.totalAccesses - st.totalHits := by
  have h := hst.ok
  have h1 := h.hits
  have h2 := h.misses
  unfold Statistics.totalHits Statistics.totalAccesses Statistics.totalMisses Statistics.sumHits Statistics.sumMisses
  refine ⟨by omega, ?_, h.nodup, h1, by omega, by omega⟩
  rw [if_pos (by omega)]

/-- C20. The rates lie between 0 and 1 and add up to 1 as soon as there was an access; otherwise they are undefined
(`0/0`). -/
theorem C20_rates (st : Statistics K) (hst : StatState st) :
    (0 < st.totalAccesses → ∃ r m, st.hitRate = some r ∧ st.missRate = some m ∧ 0 ≤ r ∧ r ≤ 1 ∧ 0 ≤ m ∧ m ≤ 1 ∧
      r + m = 1) ∧
    (st.totalAccesses = 0 → st.hitRate = none ∧ st.missRate = none) := by
  have h := hst.ok
  have h2 := h.misses
  unfold Statistics.totalAccesses Statistics.missRate Statistics.hitRate
  refine ⟨fun hpos => ?_, fun h0 => by rw [if_pos h0]; exact ⟨rfl, rfl⟩⟩
  rw [if_neg (by omega)]
  obtain ⟨h3, h4⟩ := rat_div_bounds (a := st.hits) (b := st.total) (by omega) hpos
  refine ⟨_, _, rfl, rfl, h3, h4, ?_, ?_, ?_⟩
  · exact (Rat.le_iff_sub_nonneg _ _).1 h4
  · rw [Rat.le_iff_sub_nonneg]
    have : (1 : Rat) - (1 - (st.hits : Rat) / (st.total : Rat)) = (st.hits : Rat) / (st.total : Rat) := by grind
    rw [this]
    exact h3
  · grind

/-- C20. All statistics objects of all programs are in such states. -/
theorem C20_in_programs {ok : WOp K V → Prop} {w : World K V} (hw : Reach O ok w) (i : Nat) : StatState (w.g.stats i) :=
  hw.states i

/-- Such a state, in which the bounds are strict: one of the keys counted in the totals was never monitored. -/
example : let st := (((Statistics.ofKeys [1, 7]).registerHit 1).registerHit 2).registerMiss 7
    StatState st ∧ st.totalAccesses = 3 ∧ st.totalHits = 2 ∧ st.totalMisses = some 1 ∧ st.sumHits = 1 ∧ st.sumMisses = 1 ∧
    st.hitRate = some (2 / 3) ∧ st.missRate = some (1 / 3) :=
  ⟨.miss 7 (.hit 2 (.hit 1 (.new [1, 7]))), by decide +kernel⟩

/-! ### C21 -/

section callbacks

variable {op : Op K V} {res : Except Err (Res K V)} {w w' : World K V} {wop : WOp K V}

/-- C21. In any run of calls on a plain cache in which no callback throws, exactly the due callbacks are called, in the
order of the calls and within each call in the order of registration: hit or miss callbacks first, then access
callbacks (see `dueCallbacks`). -/
theorem C21_callbacks (hO : NoListFault O) (hs : Reachable O s) (hb : s.c.kind = .basic) (hr : Run O s h s')
    (hu : ∀ c ∈ h, c.res ≠ .error .user) : s'.g.log = s.g.log ++ h.reverse.flatMap Call.callbacks := by
  have inv : s'.c.kind = .basic ∧ s'.g.log = s.g.log ++ h.reverse.flatMap Call.callbacks := by
    induction hr with
    | nil => exact ⟨hb, by simp⟩
    | @call h s1 s2 op res hrun hp ih =>
      obtain ⟨h1, h2⟩ := ih (fun c hc => hu c (List.mem_cons_of_mem _ hc))
      refine ⟨(performs_kind hp).trans h1, ?_⟩
      rw [List.reverse_cons, List.flatMap_append, ← List.append_assoc, ← h2]
      simp only [List.flatMap_cons, List.flatMap_nil, List.append_nil]
      cases hk : op.accessed with
      | none =>
        have ha : op.isAccess = false := by rw [isAccess_accessed, hk]; rfl
        rw [(performs_other hp ha).1]
        simp [Call.callbacks, hk]
      | some k =>
        obtain ⟨_, h3, _⟩ := (hrun.reachable hO hs).registers hO h1 (accessed_iff.1 hk) hp
        rw [(h3 (hu _ (List.mem_cons_self ..))).1.log]
        simp [Call.callbacks, hk]
  exact inv.2

/-- C21. If a callback throws, those after it are not called: the callbacks called are the first of those due. -/
theorem C21_throwing_callback (hO : NoListFault O) (hs : Reachable O s) (hb : s.c.kind = .basic) (ha : op.Accesses k)
    (hp : Performs O op s res s') :
    ∃ n, s'.g.log = s.g.log ++ (dueCallbacks s.c.obs k (stored? s.c k)).take n := by
  obtain ⟨⟨n, h1⟩, _⟩ := hs.registers hO hb ha hp
  exact ⟨n, h1.log⟩

/-- C21. No other call on a cache calls a callback, in whatever state the cache is, … -/
theorem C21_nothing_else (hp : Performs O op s res s') (ha : op.isAccess = false) : s'.g.log = s.g.log :=
  (performs_other hp ha).1

/-- … and no program step that is not a call on a cache: construction, destruction, swapping, moving, copying,
comparing, calls on statistics objects. -/
theorem C21_nothing_else_in_programs (hp : WPerforms O wop w res w') (ha : ∀ j o, wop ≠ .op j o) :
    w'.g.log = w.g.log := by
  cases hp.effect with
  | called j o => exact absurd rfl (ha j o)
  | created kind ctor n s' h =>
    have hs := ctorBody_q (O := O) ctor
      ⟨Impl.emptyCache kind (Impl.ctorCapacity ctor), { w.g with ext := Impl.allNodes w.caches }⟩
    rw [h] at hs
    exact (show Silent _ s' from hs).log
  | createThrow kind ctor e s' h =>
    have hs := ctorBody_q (O := O) ctor
      ⟨Impl.emptyCache kind (Impl.ctorCapacity ctor), { w.g with ext := Impl.allNodes w.caches }⟩
    rw [h] at hs
    exact (show Silent _ s' from hs).log
  | _ => rfl

/-- Two hit callbacks, a miss and an access callback. -/
def demoCallbacks : List (WOp Nat Nat) :=
  demo3 ++ [.op 0 (.addHitCallback 5), .op 0 (.addHitCallback 6), .op 0 (.addMissCallback 7), .op 0 (.addAccessCallback 8)]

theorem demoCallbacks_reachable : Reachable calmO (demoState calmO demoCallbacks 0) :=
  demoState_reachable (by decide +kernel) rfl

example : ((runFrom calmO ([.lookup 1, .erase 1, .find 1] : List (Op Nat Nat)) [] (demoState calmO demoCallbacks 0)).map
      fun p => (p.2.g.log, p.1.reverse.flatMap Call.callbacks)) =
    some ([.hit 5 1 10, .hit 6 1 10, .access 8 1 true, .miss 7 1, .access 8 1 false],
      [.hit 5 1 10, .hit 6 1 10, .access 8 1 true, .miss 7 1, .access 8 1 false]) := by decide +kernel

end callbacks

/-! ### C24 -/

section shared

variable {w w' : World K V} {t : List (WCall K V)} {res : Except Err (Res K V)} {wop : WOp K V}

/-- C24 for plain caches. In any interleaving of program steps, `total_accesses()` of a statistics object grows by
the number of accesses on caches reporting to it at the time. (Missing: timed caches, see
`C24_expired_access_not_counted`.) -/
theorem C24_accesses_partial (hi : i < w.g.nextStat) (ht : Trace O w t w') (hpl : ∀ c ∈ t, c.plainFor i) :
    (w'.g.stats i).totalAccesses = (w.g.stats i).totalAccesses + t.countP (fun c => (c.accessFor i).isSome) := by
  have inv : i < w'.g.nextStat ∧ (w'.g.stats i).totalAccesses =
      (w.g.stats i).totalAccesses + t.countP (fun c => (c.accessFor i).isSome) := by
    induction ht with
    | nil => exact ⟨hi, rfl⟩
    | @step t w1 w2 op res _ hp ih =>
      obtain ⟨h1, h2⟩ := ih (fun c hc => hpl c (List.mem_cons_of_mem _ hc))
      obtain ⟨h3, h4⟩ := object_step hp h1
      refine ⟨h3, ?_⟩
      rw [List.countP_cons]
      rcases h4 with ⟨j, h5, h6⟩ | ⟨h5, h6⟩
      · obtain ⟨_, hit, h7⟩ := h6 (hpl _ (List.mem_cons_self ..))
        rw [h7.total, h2, h5]
        simp [Nat.add_assoc]
      · rw [h5]
        have : (w2.g.stats i).totalAccesses = (w1.g.stats i).totalAccesses := by
          rcases h6 with h6 | ⟨o, _, h7⟩
          · rw [h6]
          · exact (statStep_totals h7).1
        rw [this, h2]
        simp
  exact inv.2

/-- C24 for plain caches. Hits are those of these accesses that succeeded, if no callback throws. -/
theorem C24_hits_partial (hi : i < w.g.nextStat) (ht : Trace O w t w') (hpl : ∀ c ∈ t, c.plainFor i)
    (hu : ∀ c ∈ t, c.res ≠ .error .user) :
    (w'.g.stats i).totalHits = (w.g.stats i).totalHits + t.countP (fun c => (c.accessFor i).isSome && found c.res) := by
  have inv : i < w'.g.nextStat ∧ (w'.g.stats i).totalHits =
      (w.g.stats i).totalHits + t.countP (fun c => (c.accessFor i).isSome && found c.res) := by
    induction ht with
    | nil => exact ⟨hi, rfl⟩
    | @step t w1 w2 op res _ hp ih =>
      obtain ⟨h1, h2⟩ := ih (fun c hc => hpl c (List.mem_cons_of_mem _ hc)) (fun c hc => hu c (List.mem_cons_of_mem _ hc))
      obtain ⟨h3, h4⟩ := object_step hp h1
      refine ⟨h3, ?_⟩
      rw [List.countP_cons]
      rcases h4 with ⟨j, h5, h6⟩ | ⟨h5, h6⟩
      · have h7 := (h6 (hpl _ (List.mem_cons_self ..))).1 (hu _ (List.mem_cons_self ..))
        rw [h7.hits, h2, h5]
        simp [Nat.add_assoc]
      · rw [h5]
        have : (w2.g.stats i).totalHits = (w1.g.stats i).totalHits := by
          rcases h6 with h6 | ⟨o, _, h7⟩
          · rw [h6]
          · exact (statStep_totals h7).2
        rw [this, h2]
        simp
  exact inv.2

/-- C24. A step that is neither a call on the object nor an access on a cache reporting to it leaves it unchanged, for
plain and timed caches. -/
theorem C24_unrelated_steps (hi : i < w.g.nextStat) (hp : WPerforms O wop w res w')
    (ha : (WCall.mk wop res w w').accessFor i = none) (hs : ∀ o, wop ≠ .stat i o) : w'.g.stats i = w.g.stats i := by
  rcases (object_step hp hi).2 with ⟨k, h1, _⟩ | ⟨_, h2 | ⟨o, h2, _⟩⟩
  · rw [ha] at h1; cases h1
  · exact h2
  · exact absurd h2 (hs o)

/-- C24 is false for timed caches: `contains` of an expired last accessed key is not counted. -/
theorem C24_expired_access_not_counted :
    ¬ ∀ (O : Oracle Nat Nat) (w w' : World Nat Nat) (t : List (WCall Nat Nat)) (i : Nat), Calm O → Steady O →
      Reach O (fun op => op.copies = false) w → i < w.g.nextStat → Trace O w t w' →
      (w'.g.stats i).totalAccesses = (w.g.stats i).totalAccesses + t.countP (fun c => (c.accessFor i).isSome) := by
  intro h
  obtain ⟨w, hw⟩ : ∃ w, exec calmO demoExpired Impl.initWorld = some w :=
    Option.isSome_iff_exists.1 (by decide +kernel)
  have hd : (exec calmO demoExpired Impl.initWorld).bind (fun w => (traceFrom calmO [.op 0 (.contains 1)] [] w).map fun p =>
      ((w.g.stats 0).totalAccesses, w.g.nextStat, (p.2.g.stats 0).totalAccesses,
        p.1.countP (fun c => (c.accessFor 0).isSome))) = some (0, 1, 0, 1) := by decide +kernel
  rw [hw] at hd
  simp only [Option.bind_some, Option.map_eq_some_iff, Prod.mk.injEq] at hd
  obtain ⟨p, hp, h1, h2, h3, h4⟩ := hd
  have := h calmO w p.2 p.1 0 calmO_calm calmO_steady
    (exec_reach hw (by intro op hop; revert op hop; decide) .init) (by omega) (traceFrom_trace hp .nil)
  omega

end shared

/-! ### C60 -/

section lifecycle

variable {w w' : World K V} {t : List (WCall K V)} {res : Except Err (Res K V)}

/-- C60. `is_monitoring()` and `stats()`: the object the cache reports to, or `NotMonitoring`. -/
theorem C60_stats (s : St (Cache K V) K V) :
    Returns O .isMonitoring s (.bool s.c.obs.stats.isSome) s ∧ Returns O .sharedStats s (.optNat s.c.obs.stats) s ∧
    (∀ j, s.c.obs.stats = some j → Returns O .stats s (.nat j) s) ∧
    (s.c.obs.stats = none → Throws O .stats s .notMonitoring s) := by
  refine ⟨rfl, rfl, fun j hj => ?_, fun hn => ?_⟩
  · show Impl.ret Impl.stats _ s = _
    exact ret_ok (by unfold Impl.stats; rw [bind_ok (m := Impl.getObs) (s := s) rfl, hj]; rfl)
  · show Impl.ret Impl.stats _ s = _
    exact ret_throw (by unfold Impl.stats; rw [bind_ok (m := Impl.getObs) (s := s) rfl, hn]; rfl)

/-- C60. `monitor(shared_ptr)`, `monitor(keys...)` and `stop_monitoring()` change which object the cache reports to and
nothing else; `monitor(keys...)` makes a new object with all counters at zero. -/
theorem C60_monitor (s : St (Cache K V) K V) (j : Option Nat) (ks : List K) :
    (∃ s', Returns O (.monitor j) s .unit s' ∧ s'.g = s.g ∧ s'.c.obs.stats = j ∧
      s'.c = { s.c with obs := { s.c.obs with stats := j } }) ∧
    (∃ s', Returns O .stopMonitoring s .unit s' ∧ s'.g = s.g ∧ s'.c.obs.stats = none ∧
      s'.c = { s.c with obs := { s.c.obs with stats := none } }) ∧
    (∃ s', Returns O (.monitorNew ks) s (.nat s.g.nextStat) s' ∧ s'.c.obs.stats = some s.g.nextStat ∧
      s'.c = { s.c with obs := { s.c.obs with stats := some s.g.nextStat } } ∧ s.g.nextStat < s'.g.nextStat ∧
      (s'.g.stats s.g.nextStat).totalAccesses = 0 ∧ (s'.g.stats s.g.nextStat).totalHits = 0 ∧
      (∀ k, (s'.g.stats s.g.nextStat).statsFor k = if k ∈ ks then .ok {} else .error .unmonitoredKey) ∧
      ∀ i, i ≠ s.g.nextStat → s'.g.stats i = s.g.stats i) := by
  refine ⟨⟨_, rfl, rfl, rfl, rfl⟩, ⟨_, rfl, rfl, rfl, rfl⟩, ⟨_, rfl, rfl, rfl, Nat.lt_succ_self _, ?_, ?_, ?_, ?_⟩⟩
  · show (if s.g.nextStat = s.g.nextStat then Statistics.ofKeys ks else _).totalAccesses = 0
    rw [if_pos rfl]; exact (ofKeys_zero ks).1
  · show (if s.g.nextStat = s.g.nextStat then Statistics.ofKeys ks else _).totalHits = 0
    rw [if_pos rfl]; exact (ofKeys_zero ks).2.1
  · intro k
    show (if s.g.nextStat = s.g.nextStat then Statistics.ofKeys ks else _).statsFor k = _
    rw [if_pos rfl]; exact (ofKeys_zero ks).2.2 k
  · intro i hi
    show (if i = s.g.nextStat then _ else _) = _
    rw [if_neg hi]

/-- C60. An object that no cache reports to is frozen. -/
theorem C60_frozen (hi : i < w.g.nextStat) (ht : Trace O w t w') (hn : ∀ c ∈ t, c.accessFor i = none)
    (hs : ∀ c ∈ t, ∀ o, c.op ≠ .stat i o) : w'.g.stats i = w.g.stats i := by
  have inv : i < w'.g.nextStat ∧ w'.g.stats i = w.g.stats i := by
    induction ht with
    | nil => exact ⟨hi, rfl⟩
    | @step t w1 w2 op res _ hp ih =>
      obtain ⟨h1, h2⟩ := ih (fun c hc => hn c (List.mem_cons_of_mem _ hc)) (fun c hc => hs c (List.mem_cons_of_mem _ hc))
      exact ⟨(object_step hp h1).1, (C24_unrelated_steps h1 hp (hn _ (List.mem_cons_self ..))
        (hs _ (List.mem_cons_self ..))).trans h2⟩
  exact inv.2

/-- C60. Calls other than the three keep the cache reporting to the same object. -/
theorem C60_stays {op : Op K V} (hp : Performs O op s res s') (hn : op.setsMonitor = false) :
    s'.c.obs.stats = s.c.obs.stats := by
  cases ha : op.isAccess with
  | true => rw [(performs_minds hp ha).obs]
  | false => exact (performs_other hp ha).2.2.2.2.2 hn

/-- The observers (statistics object and callbacks) of cache `i`. -/
def obsOf (w : World K V) (i : Nat) : Option Obs := (w.caches[i]?.bind id).map (·.obs)

/-- C60. A copy shares the statistics object (and has the same callbacks); the original keeps its own. -/
theorem C60_copy {i j : Nat} {r : Res K V} (b : Cache K V) :
    (w.caches[i]? = some (some b) → WPerforms O (.copyCtor i) w (.ok r) w' →
      obsOf w' w.caches.length = some b.obs ∧ ∀ n, n < w.caches.length → obsOf w' n = obsOf w n) ∧
    (w.caches[j]? = some (some b) → WPerforms O (.copyAssign i j) w (.ok r) w' → w' = w ∨
      obsOf w' i = some b.obs ∧ ∀ n, n ≠ i → obsOf w' n = obsOf w n) := by
  constructor
  · intro hb hp
    cases hp.effect with
    | copied _ b' c hb' hc =>
      rw [hb] at hb'
      injection hb' with hb'; injection hb' with hb'
      subst hb'
      refine ⟨?_, fun n hn => ?_⟩
      · have : c.obs = b.obs := by rw [copyOf_fields hc]
        simp [obsOf, this]
      · simp [obsOf, List.getElem?_append_left hn]
  · intro hb hp
    cases hp.effect with
    | copyAssigned _ _ a b' c ha hb' hij hty hc =>
      right
      rw [hb] at hb'
      injection hb' with hb'; injection hb' with hb'
      subst hb'
      have hlt : i < w.caches.length := (List.getElem?_eq_some_iff.1 ha).1
      refine ⟨?_, fun n hn => ?_⟩
      · have : c.obs = b.obs := by rw [copyOf_fields hc]
        simp [obsOf, this, hlt]
      · simp [obsOf, Ne.symm hn]
    | copyNothing => exact .inl rfl

/-- C60. `swap`, move construction and move assignment leave the statistics object (and the callbacks) with the
original object; a move-constructed cache is not monitored. -/
theorem C60_swap_move {i j : Nat} {r : Res K V} :
    (WPerforms O (.swap i j) w (.ok r) w' → ∀ n, obsOf w' n = obsOf w n) ∧
    (WPerforms O (.swapBase i j) w (.ok r) w' → ∀ n, obsOf w' n = obsOf w n) ∧
    (WPerforms O (.moveAssign i j) w (.ok r) w' → ∀ n, obsOf w' n = obsOf w n) ∧
    (WPerforms O (.moveCtor i) w (.ok r) w' →
      obsOf w' w.caches.length = some {} ∧ ∀ n, n < w.caches.length → obsOf w' n = obsOf w n) := by
  have two : ∀ {a b : Cache K V} {x y : Cache K V}, w.caches[i]? = some (some a) → w.caches[j]? = some (some b) →
      i ≠ j → x.obs = a.obs → y.obs = b.obs → ∀ n,
      obsOf ⟨(w.caches.set i (some x)).set j (some y), w.g⟩ n = obsOf w n := by
    intro a b x y ha hb hij hx hy n
    have hi : i < w.caches.length := (List.getElem?_eq_some_iff.1 ha).1
    have hj : j < w.caches.length := (List.getElem?_eq_some_iff.1 hb).1
    by_cases h2 : j = n
    · subst h2
      have : obsOf w j = some b.obs := by unfold obsOf; rw [hb]; rfl
      rw [this]
      simp [obsOf, hj, hy]
    · by_cases h1 : i = n
      · subst h1
        have : obsOf w i = some a.obs := by unfold obsOf; rw [ha]; rfl
        rw [this]
        simp [obsOf, hi, hx, h2]
      · simp [obsOf, h1, h2]
  refine ⟨fun hp => ?_, fun hp => ?_, fun hp => ?_, fun hp => ?_⟩
  · cases hp.effect with
    | swapped _ _ a b ha hb hij _ => exact two ha hb hij rfl rfl
    | swapNothing => exact fun _ => rfl
  · cases hp.effect with
    | baseSwapped _ _ a b ha hb hij _ => exact two ha hb hij rfl rfl
    | baseSwapNothing => exact fun _ => rfl
  · cases hp.effect with
    | moveAssigned _ _ a b ha hb hij _ => exact two ha hb hij rfl rfl
    | moveNothing => exact fun _ => rfl
  · cases hp.effect with
    | moved _ b hb =>
      have hi : i < w.caches.length := (List.getElem?_eq_some_iff.1 hb).1
      refine ⟨by simp [obsOf], fun n hn => ?_⟩
      by_cases h1 : i = n
      · subst h1
        have : obsOf w i = some b.obs := by unfold obsOf; rw [hb]; rfl
        rw [this]
        simp [obsOf, List.getElem?_append_left, hi]
      · simp [obsOf, List.getElem?_append_left, hn, h1]

/-- A program in which cache 0 is monitored, copied, swapped and moved. -/
example : ((exec calmO ([.create .basic (.sized 2), .create .basic (.sized 2), .op 0 (.monitorNew [1]), .op 0 (.insert 1 10),
      .copyCtor 0, .swap 0 1, .moveCtor 1, .op 0 (.contains 1), .op 0 .stopMonitoring, .op 0 (.contains 1)] :
        List (WOp Nat Nat)) Impl.initWorld).map fun w =>
      ((List.range 4).map fun i => (obsOf w i).map (·.stats), (w.g.stats 0).totalAccesses)) =
    some ([some none, some none, some (some 0), some none], 1) := by decide +kernel

end lifecycle

end LRU
