import Verif.Proofs.TimedMachine
import Verif.Props.Expiry
/-!
# C71: a timed cache answers exactly like a textbook LRU map with expiry

`TLru.replies` (`Spec.TimedMachine`) computes the answers of a list of keys with values and insertion times to calls made at
given times. `timedAnswers` are the answers of the cache; `KeyNotFound` and `KeyExpired` count as the same answer. Nothing fails
(`Calm`), the cache has a capacity (it was not moved from), and the clock shows the same time whenever one call reads it
(`Paced`). The clock may go backwards between calls.
-/

set_option linter.unusedSectionVars false
set_option autoImplicit false

namespace LRU

variable {K V : Type} [KeyEqual K] [DecidableEq K] [DecidableEq V] {O O' : Oracle K V} {s s' : St (Cache K V) K V}
  {ttl : Int} {res : Nat}

/-- C71. Whatever was done to the cache before, and whatever calls follow at whatever times: all answers are those of the
textbook. -/
theorem C71_same_answers (hC : Calm O) (h : Reachable O s) (hk : s.c.kind = .timed ttl res) (hc : s.c.capacity ≠ none)
    (ops : List (Op K V × Int)) (hops : ∀ x ∈ ops, x.1.byKeyTimed = true) (hp : Paced O s ops) :
    timedAnswers O s (ops.map Prod.fst) = (TLru.replies (asTimed s.c) ⟨ttl, res⟩ ops).map some :=
  timed_answers_eq hC ops h hk hc hops hp

/-- C71. One call at the time `now`: it returns the textbook's answer, or throws where the textbook finds nothing, and leaves
the textbook's keys, values, times and order behind. -/
theorem C71_call (hC : Calm O) (h : Reachable O s) (hk : s.c.kind = .timed ttl res) (hc : s.c.capacity ≠ none)
    {op : Op K V} (hop : op.byKeyTimed = true) {now : Int}
    (hp : ∀ s', ((∃ r, Returns O op s r s') ∨ ∃ e, Throws O op s e s') → ∀ n, s.g.ticks ≤ n → n < s'.g.ticks → O.clock n = now) :
    (∃ r s', Returns O op s r s' ∧ r.ans s'.c = some ((asTimed s.c).reply ⟨ttl, res⟩ now op).1 ∧
      asTimed s'.c = ((asTimed s.c).reply ⟨ttl, res⟩ now op).2) ∨
    (∃ e s', Throws O op s e s' ∧ (e = .keyNotFound ∨ e = .keyExpired) ∧
      ((asTimed s.c).reply ⟨ttl, res⟩ now op).1 = .notFound ∧
      asTimed s'.c = ((asTimed s.c).reply ⟨ttl, res⟩ now op).2) := by
  have hp' : PacedCall O now op s := by
    unfold PacedCall
    cases hs : Impl.step O op s with
    | ok r s' => exact hp s' (.inl ⟨r, hs⟩)
    | throw e s' => exact hp s' (.inr ⟨e, hs⟩)
    | _ => trivial
  obtain ⟨h1, h2⟩ := call_answers_at hC h hk hc hop hp'
  cases hs : Impl.step O op s with
  | ok r s' =>
    rw [hs] at h1 h2
    exact .inl ⟨r, s', hs, h1, h2⟩
  | throw e s' =>
    rw [hs] at h1 h2
    cases e <;> first | (cases h1; done) | skip
    · exact .inr ⟨_, s', hs, .inl rfl, by injection h1 with h1; exact h1.symm, h2⟩
    · exact .inr ⟨_, s', hs, .inr rfl, by injection h1 with h1; exact h1.symm, h2⟩
  | terminate => rw [hs] at h2; exact h2.elim
  | ub => rw [hs] at h2; exact h2.elim
  | diverge => rw [hs] at h2; exact h2.elim

/-- C71. As long as nothing expires, a timed cache cannot be told from a plain cache: not from the answers to the calls that
both have. -/
theorem C71_like_plain (hC : Calm O) (hC' : Calm O') (h : Reachable O s) (h' : Reachable O' s')
    (hk : s.c.kind = .timed ttl res) (hk' : s'.c.kind = .basic) (hc : s.c.capacity ≠ none)
    (hcap : s.c.capacity = s'.c.capacity) (hent : entries s.c = entries s'.c)
    (ops : List (Op K V × Int)) (hops : ∀ x ∈ ops, x.1.byKeyBoth = true) (hp : Paced O s ops)
    (hold : ∀ x ∈ ops, ∀ n ∈ elements s.c, (x.2 - n.info.time).tdiv res ≤ ttl)
    (hnew : ∀ x ∈ ops, ∀ y ∈ ops, (x.2 - y.2).tdiv res ≤ ttl) :
    timedAnswers O s (ops.map Prod.fst) = answers O' s' (ops.map Prod.fst) := by
  have hb : ∀ op : Op K V, op.byKeyBoth = true → op.byKey = true ∧ op.byKeyTimed = true := fun op ho => by
    unfold Op.byKeyBoth at ho
    exact Bool.and_eq_true_iff.1 ho
  rw [C71_same_answers hC h hk hc ops (fun x hx => (hb _ (hops x hx)).2) hp,
    answers_eq hC' _ h' hk' (hcap ▸ hc) (fun op ho => by
      obtain ⟨x, hx, rfl⟩ := List.mem_map.1 ho
      exact (hb _ (hops x hx)).1),
    show asLru s'.c = asLru s.c by unfold asLru; rw [hcap, hent], ← asTimed_plain]
  congr 1
  refine (TLru.plain_replies (P := fun time => (∃ n ∈ elements s.c, n.info.time = time) ∨ ∃ y ∈ ops, y.2 = time) ops ?_ ?_).symm
  · intro x hx
    obtain ⟨n, hn, rfl⟩ := List.mem_map.1 hx
    exact .inl ⟨n, hn, rfl⟩
  · intro x hx
    refine ⟨hops x hx, .inr ⟨x, hx, rfl⟩, ?_⟩
    intro time ht
    unfold Terms.expired
    rw [decide_eq_false_iff_not, Int.not_lt]
    rcases ht with ⟨n, hn, rfl⟩ | ⟨y, hy, rfl⟩
    · exact hold x hx n hn
    · exact hnew x hx y hy

/-! ### The theorems apply -/

/-- A program that inserts, updates, finds, evicts and removes, each call at the given time. The time to live is 2 units of 10
clock ticks. -/
def demoTimedProgram : List (Op Nat Nat × Int) :=
  [(.insert 1 10, 0), (.insert 2 20, 10), (.lookup 1, 20), (.contains 1, 25), (.insert 3 30, 29), (.lookup 1, 31),
   (.hasExpired 1, 31), (.size, 31), (.allExpired, 31), (.emplace 1 11, 32), (.find 1, 33), (.allExpired, 33),
   (.clearExpired, 40), (.insertRange [(4, 40), (3, 31), (5, 50)], 45), (.lookup 3, 70), (.assignRange [(6, 60), (7, 70)], 71),
   (.lookup 6, 90), (.clearExpired, 110), (.spaceLeft, 110)]

/-- The clock shows those times while the program runs. -/
def pacedO : Oracle Nat Nat :=
  { calmO with clock := fun n =>
      [0, 10, 20, 20, 25, 29, 31, 31, 31, 33, 33, 40, 45, 45, 45, 70, 70, 71, 71, 90, 90, 110, 110].getD n 110 }

theorem pacedO_calm : Calm pacedO := calmO_calm

def demoTimed : List (WOp Nat Nat) := [.create (.timed 2 10) (.sized 2)]

theorem demoTimed_reachable : Reachable pacedO (demoState pacedO demoTimed 0) := demoState_reachable (by decide +kernel) rfl

/-- The answers of the textbook. An updated key keeps its time: it has expired at 31 and is still expired at 33. Then
`all_expired` looks at that key only, and `clear_expired` stops at the other one. -/
example : TLru.replies (⟨some 2, []⟩ : TLru Nat Nat) ⟨2, 10⟩ demoTimedProgram =
    [.stored true (some (1, 10)), .stored true (some (2, 20)), .value 10, .bool true, .stored true (some (3, 30)), .notFound,
     .bool true, .nat 2, .bool false, .stored false (some (1, 11)), .item none, .bool true, .nat 0, .nat 3, .value 31, .unit,
     .value 60, .nat 2, .nat 2] := by decide +kernel

/-- The clock shows the times of the calls: `Paced`, as a test. -/
def pacedTest (O : Oracle Nat Nat) : St (Cache Nat Nat) Nat Nat → List (Op Nat Nat × Int) → Bool
  | _, [] => true
  | s, (op, now) :: ops =>
    match Impl.step O op s with
    | .ok _ s' | .throw _ s' => (List.range s'.g.ticks).all (fun n => decide (n < s.g.ticks) || O.clock n == now) && pacedTest O s' ops
    | _ => true

theorem paced_of_test {O : Oracle Nat Nat} {ops : List (Op Nat Nat × Int)} {s : St (Cache Nat Nat) Nat Nat}
    (h : pacedTest O s ops = true) : Paced O s ops := by
  induction ops generalizing s with
  | nil => trivial
  | cons x ops ih =>
    obtain ⟨op, now⟩ := x
    have key : ∀ s' : St (Cache Nat Nat) Nat Nat,
        ((List.range s'.g.ticks).all (fun n => decide (n < s.g.ticks) || O.clock n == now) && pacedTest O s' ops) = true →
        (∀ n, s.g.ticks ≤ n → n < s'.g.ticks → O.clock n = now) ∧ Paced O s' ops := by
      intro s' h
      rw [Bool.and_eq_true_iff, List.all_eq_true] at h
      refine ⟨fun n h1 h2 => ?_, ih h.2⟩
      have h3 := h.1 n (List.mem_range.2 h2)
      rw [Bool.or_eq_true_iff, decide_eq_true_iff, beq_iff_eq] at h3
      rcases h3 with h3 | h3
      · omega
      · exact h3
    unfold pacedTest at h
    unfold Paced
    cases hs : Impl.step O op s with
    | ok r s' => rw [hs] at h; exact key s' h
    | throw e s' => rw [hs] at h; exact key s' h
    | _ => trivial

/-- The hypotheses of `C71_same_answers` hold, and the answers of the cache are those. -/
example : Calm pacedO ∧ Reachable pacedO (demoState pacedO demoTimed 0) ∧ (demoState pacedO demoTimed 0).c.kind = .timed 2 10 ∧
    (demoState pacedO demoTimed 0).c.capacity ≠ none ∧ (∀ x ∈ demoTimedProgram, x.1.byKeyTimed = true) ∧
    Paced pacedO (demoState pacedO demoTimed 0) demoTimedProgram ∧
    timedAnswers pacedO (demoState pacedO demoTimed 0) (demoTimedProgram.map Prod.fst) =
      (TLru.replies (⟨some 2, []⟩ : TLru Nat Nat) ⟨2, 10⟩ demoTimedProgram).map some :=
  ⟨pacedO_calm, demoTimed_reachable, by decide +kernel, by decide +kernel, by decide +kernel,
   paced_of_test (by decide +kernel), by decide +kernel⟩

/-- The hypotheses of `C71_like_plain` hold for the first five calls, up to the time 29. -/
example : (demoState calmO [.create .basic (.sized 2)] 0).c.kind = .basic ∧
    Reachable calmO (demoState calmO [.create .basic (.sized 2)] 0) ∧
    (demoState pacedO demoTimed 0).c.capacity = (demoState calmO [.create .basic (.sized 2)] 0).c.capacity ∧
    entries (demoState pacedO demoTimed 0).c = entries (demoState calmO [.create .basic (.sized 2)] 0).c ∧
    (∀ x ∈ demoTimedProgram.take 5, x.1.byKeyBoth = true) ∧
    Paced pacedO (demoState pacedO demoTimed 0) (demoTimedProgram.take 5) ∧
    (∀ x ∈ demoTimedProgram.take 5, ∀ y ∈ demoTimedProgram.take 5, (x.2 - y.2).tdiv 10 ≤ 2) ∧
    answers calmO (demoState calmO [.create .basic (.sized 2)] 0) (demoTimedProgram.take 5 |>.map Prod.fst) =
      [some (.stored true (some (1, 10))), some (.stored true (some (2, 20))), some (.value 10), some (.bool true),
       some (.stored true (some (3, 30)))] :=
  ⟨by decide +kernel, demoState_reachable (by decide +kernel) rfl, by decide +kernel, by decide +kernel, by decide +kernel,
   paced_of_test (by decide +kernel), by decide +kernel, by decide +kernel⟩

/-! ### A clock that advances within a call -/

/-- Without `Paced` there need not be any times that explain the answers, even if the clock never goes back: the second test in
`lookup` can find expired what the first one found fresh. The call throws, but has already made the key the most recently
used. -/
theorem C71_no_explanation : ¬ ∀ (O : Oracle Nat Nat) (s : St (Cache Nat Nat) Nat Nat) (ttl : Int) (res : Nat)
    (ops : List (Op Nat Nat)), Calm O → Steady O → Reachable O s → s.c.kind = .timed ttl res → s.c.capacity ≠ none →
    (∀ op ∈ ops, op.byKeyTimed = true) →
    ∃ times : List Int, times.length = ops.length ∧
      timedAnswers O s ops = (TLru.replies (asTimed s.c) ⟨ttl, res⟩ (ops.zip times)).map some := by
  intro h
  obtain ⟨times, h1, h2⟩ := h calmO (demoState calmO demoLate 0) 2 1 [.lookup 1, .shrink 1, .erase 1] calmO_calm calmO_steady
    demoLate_reachable (by decide +kernel) (by decide +kernel) (by decide +kernel)
  have h3 : timedAnswers calmO (demoState calmO demoLate 0) [.lookup 1, .shrink 1, .erase 1] =
      [some .notFound, some .unit, some (.bool true)] := by decide +kernel
  have h4 : asTimed (demoState calmO demoLate 0).c = ⟨some 3, [(1, 10, 0), (2, 20, 1)]⟩ := by
    have e1 : (demoState calmO demoLate 0).c.capacity = some 3 := by decide +kernel
    have e2 : (elements (demoState calmO demoLate 0).c).map (fun n => (n.key, n.info.value, n.info.time)) =
        [(1, 10, 0), (2, 20, 1)] := by decide +kernel
    unfold asTimed
    rw [e1, e2]
  rw [h3, h4] at h2
  match times, h1 with
  | [a, b, c], _ =>
    cases he : Terms.expired ⟨2, 1⟩ a 0 with
    | true =>
      have h5 : TLru.fresh (⟨some 3, [(1, 10, 0), (2, 20, 1)]⟩ : TLru Nat Nat) ⟨2, 1⟩ a 1 = none := TLru.fresh_expired rfl he
      have h6 := TLru.touch_none h5
      simp only [List.zip_cons_cons, TLru.replies, TLru.reply, h5, h6] at h2
      revert h2
      decide +kernel
    | false =>
      have h5 : TLru.fresh (⟨some 3, [(1, 10, 0), (2, 20, 1)]⟩ : TLru Nat Nat) ⟨2, 1⟩ a 1 = some (1, 10) :=
        TLru.fresh_some (x := (1, 10, 0)) rfl he
      simp only [List.zip_cons_cons, TLru.replies, TLru.reply, h5, List.map_cons] at h2
      injection h2 with h2
      injection h2 with h2
      cases h2

end LRU
