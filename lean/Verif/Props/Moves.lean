import Verif.Proofs.Moves
import Verif.Props.Exceptions
/-!
# Copies and moves of keys and values: C75

The README (line 36) says that caches are "100% move-aware". `ledger O m s` (`Model.Moves`) is what a call `m` does to keys and
values when started in `s`. `m.op` is the same call in the vocabulary of `Model.Ops`.
-/

set_option linter.unusedSectionVars false
set_option autoImplicit false

namespace LRU

open Moves (MOp)

variable {K V : Type} [KeyEqual K] [DecidableEq K] [DecidableEq V] {O : Oracle K V}
  {s s' : St (Cache K V) K V} {r : Res K V} {k : K} {v : V} {l : List (K × V)}

/-- C75. The ledger belongs to the call: except for it, both are the same. -/
theorem C75_same_calls (m : MOp K V) : (Moves.step O m s).1 = Impl.step O m.op s :=
  congrFun (Moves.step_body m) s

/-! ### Single elements -/

/-- C75. `insert(key, value)` copies a new key once and its value once, and moves the copy of the value once; it copies the value
of a key that is already there, and nothing into a cache of capacity 0. -/
theorem C75_insert (hO : NoListFault O) (h : Reachable O s) (hd : Returns O (.insert k v) s r s') :
    (s.c.capacity = some 0 → ledger O (.insert k v) s = {}) ∧
    (s.c.capacity ≠ some 0 → ¬ Stored s.c k → ledger O (.insert k v) s = { kCopied := 1, vCopied := 1, vMoved := 1 }) ∧
    (s.c.capacity ≠ some 0 → Stored s.c k → ledger O (.insert k v) s = { vCopied := 1 }) := by
  have hd' : (Moves.step O (.insert k v) s).1 = .ok r s' := (C75_same_calls _).trans hd
  obtain ⟨⟨b, p⟩, s1, h1, h2, h3⟩ := Kept.bind_ok_inv' hd'
  injection h2 with h2 h4
  subst h2 h4
  obtain ⟨_, f2, _, f4, _⟩ := Moves.inserts_facts hO h (.inl rfl) hd
  have h5 : ledger O (.insert k v) s = (Moves.insert O k v s).2 + 0 := h3
  rw [h5, Moves.insert_costs s _ s1 h1, Ledger.add_zero]
  refine ⟨fun h0 => if_pos (f2.2 h0), fun h0 hk => ?_, fun h0 hk => ?_⟩
  · have hp : p ≠ none := fun e => h0 (f2.1 e)
    rw [if_neg hp, if_pos ((f4 hp).2 hk)]
  · have hp : p ≠ none := fun e => h0 (f2.1 e)
    rw [if_neg hp, if_neg (fun hb => (f4 hp).1 hb hk)]

/-- C75. `emplace(key, value)`: the key is constructed once from what was given. If it is new, it is moved once, and so is the
value constructed for it, and nothing is copied besides. If it is there already, the constructed value is *copied* over the old
one. -/
theorem C75_emplace (hO : NoListFault O) (h : Reachable O s) (ka va : Arg) (hd : Returns O (.emplace k v) s r s') :
    (s.c.capacity = some 0 → ledger O (.emplace ka va k v) s = {}) ∧
    (s.c.capacity ≠ some 0 → ¬ Stored s.c k →
      ledger O (.emplace ka va k v) s = ka.key + va.value + { kMoved := 1, vMoved := 1 }) ∧
    (s.c.capacity ≠ some 0 → Stored s.c k → ledger O (.emplace ka va k v) s = ka.key + va.value + { vCopied := 1 }) := by
  have hd' : (Moves.step O (.emplace ka va k v) s).1 = .ok r s' := (C75_same_calls _).trans hd
  obtain ⟨⟨b, p⟩, s1, h1, h2, h3⟩ := Kept.bind_ok_inv' hd'
  injection h2 with h2 h4
  subst h2 h4
  obtain ⟨_, f2, _, f4, _⟩ := Moves.inserts_facts hO h (.inr rfl) hd
  have h5 : ledger O (.emplace ka va k v) s = (Moves.emplace O ka va k v s).2 + 0 := h3
  rw [h5, Moves.emplace_costs s _ s1 h1, Ledger.add_zero]
  refine ⟨fun h0 => if_pos (f2.2 h0), fun h0 hk => ?_, fun h0 hk => ?_⟩
  · have hp : p ≠ none := fun e => h0 (f2.1 e)
    rw [if_neg hp, if_pos ((f4 hp).2 hk)]
  · have hp : p ≠ none := fun e => h0 (f2.1 e)
    rw [if_neg hp, if_neg (fun hb => (f4 hp).1 hb hk)]

/-- C75. Move-awareness as claimed: `emplace` given rvalues or constructor arguments copies neither key nor value. Missing: the
value of a key that is already stored is copied (`C75_emplace_copies`). -/
theorem C75_emplace_does_not_copy_partial (hO : NoListFault O) (h : Reachable O s) {ka va : Arg} (hka : ka ≠ .lvalue)
    (hva : va ≠ .lvalue) (hk : ¬ Stored s.c k) (hd : Returns O (.emplace k v) s r s') :
    (ledger O (.emplace ka va k v) s).kCopied = 0 ∧ (ledger O (.emplace ka va k v) s).vCopied = 0 := by
  obtain ⟨h1, h2, _⟩ := C75_emplace hO h ka va hd
  by_cases h0 : s.c.capacity = some 0
  · rw [h1 h0]; exact ⟨rfl, rfl⟩
  · rw [h2 h0 hk]
    cases ka <;> cases va <;> first | exact ⟨rfl, rfl⟩ | exact absurd rfl hka | exact absurd rfl hva

/-! ### Ranges -/

/-- C75. `insert` of an lvalue range, of iterators or of an initializer list that returns `n`: `n` keys and all values are
copied; `n` values are moved. None of the caller's objects is moved from. -/
theorem C75_range (hO : NoListFault O) (h : Reachable O s) {n : Nat} (hd : Returns O (.insertRange l) s (.nat n) s') :
    (s.c.capacity = some 0 → ledger O (.insertRange l) s = {}) ∧
    (s.c.capacity ≠ some 0 → ledger O (.insertRange l) s = { kCopied := n, vCopied := l.length, vMoved := n }) := by
  have hd' : (Moves.step O (.insertRange l) s).1 = .ok (.nat n) s' := (C75_same_calls _).trans hd
  obtain ⟨m, s1, h1, h2, h3⟩ := Kept.bind_ok_inv' hd'
  injection h2 with h2 h4
  injection h2 with h2
  subst h2 h4
  have h5 : ledger O (.insertRange l) s = (Moves.insertRange O l s).2 + 0 := h3
  rw [h5, Ledger.add_zero]
  obtain ⟨i1, i2, _⟩ := Moves.insertRange_costs hO h h1
  exact ⟨fun h0 => (i1 h0).1, fun h0 => (i2 h0).2⟩

/-- C75. `insert` of an rvalue range that returns `n` takes every key and every value of the caller and moves the new elements
once more. It copies no key, but every value whose key was there already. -/
theorem C75_move_range (hO : NoListFault O) (h : Reachable O s) {n : Nat} (hd : Returns O (.insertRangeMove l) s (.nat n) s') :
    (s.c.capacity = some 0 → ledger O (.insertRangeMove l) s = {}) ∧
    (s.c.capacity ≠ some 0 → n ≤ l.length ∧ ledger O (.insertRangeMove l) s =
      { kMoved := l.length + n, vMoved := l.length + n, vCopied := l.length - n, kTaken := l.length, vTaken := l.length }) := by
  have hd' : (Moves.step O (.insertRangeMove l) s).1 = .ok (.nat n) s' := (C75_same_calls _).trans hd
  obtain ⟨m, s1, h1, h2, h3⟩ := Kept.bind_ok_inv' hd'
  injection h2 with h2 h4
  injection h2 with h2
  subst h2 h4
  have h5 : ledger O (.insertRangeMove l) s = (Moves.insertRangeMove O l s).2 + 0 := h3
  rw [h5, Ledger.add_zero]
  obtain ⟨i1, i2, _⟩ := Moves.insertRangeMove_costs hO h h1
  exact ⟨fun h0 => (i1 h0).1, i2⟩

/-- C75. Assigning an lvalue range or an initializer list copies every value and as many keys as the cache holds afterwards. -/
theorem C75_assign_range (hO : NoListFault O) (h : Reachable O s) (hd : Returns O (.assignRange l) s r s') :
    ledger O (.assignRange l) s = { kCopied := count s'.c, vCopied := l.length, vMoved := count s'.c } :=
  Moves.assignRange_costs hO h ((C75_same_calls _).trans hd)

/-- C75. Assigning an rvalue range takes every key and value; the values of repeated keys are copied. -/
theorem C75_assign_move_range (hO : NoListFault O) (h : Reachable O s) (hd : Returns O (.assignRangeMove l) s r s') :
    count s'.c ≤ l.length ∧ ledger O (.assignRangeMove l) s =
      { kMoved := l.length + count s'.c, vMoved := l.length + count s'.c, vCopied := l.length - count s'.c
        kTaken := l.length, vTaken := l.length } :=
  Moves.assignRangeMove_costs hO h ((C75_same_calls _).trans hd)

/-! ### However the call ends -/

/-- C75. The calls whose parameters are lvalues: none of the caller's objects is moved from, also when an exception is thrown. -/
theorem C75_lvalues_are_safe (m : MOp K V)
    (hm : (∃ k v, m = .insert k v) ∨ (∃ l, m = .insertRange l) ∨ (∃ l, m = .assignRange l) ∨ ∃ k v, m = .emplace .lvalue .lvalue k v) :
    (ledger O m s).kTaken = 0 ∧ (ledger O m s).vTaken = 0 := by
  have hP : Kept.Additive (fun l : Ledger => l.kTaken = 0 ∧ l.vTaken = 0) :=
    ⟨⟨rfl, rfl⟩, fun a b ha hb => by simp [Ledger.add_def, ha, hb]⟩
  rcases hm with ⟨k, v, rfl⟩ | ⟨l, rfl⟩ | ⟨l, rfl⟩ | ⟨k, v, rfl⟩
  · exact (Moves.insert_always hP ⟨rfl, rfl⟩ ⟨rfl, rfl⟩).bind hP (fun _ => .pure hP) s
  · exact (Moves.insertRange_always hP ⟨rfl, rfl⟩ ⟨rfl, rfl⟩ l).bind hP (fun _ => .pure hP) s
  · exact (Kept.Always.plain hP).bind hP (fun _ =>
      (Moves.insertRange_always hP ⟨rfl, rfl⟩ ⟨rfl, rfl⟩ l).bind hP (fun _ => .pure hP)) s
  · exact (Moves.emplace_always hP ⟨rfl, rfl⟩ ⟨rfl, rfl⟩ ⟨rfl, rfl⟩ ⟨rfl, rfl⟩).bind hP (fun _ => .pure hP) s

/-- C75. The calls whose parameters are rvalues never copy a key, also when an exception is thrown. So keys that can only be
moved are no obstacle. -/
theorem C75_keys_are_not_copied (m : MOp K V)
    (hm : (∃ ka va k v, ka ≠ .lvalue ∧ m = .emplace ka va k v) ∨ (∃ l, m = .insertRangeMove l) ∨ ∃ l, m = .assignRangeMove l) :
    (ledger O m s).kCopied = 0 := by
  have hP : Kept.Additive (fun l : Ledger => l.kCopied = 0) := ⟨rfl, fun a b ha hb => by simp [Ledger.add_def, ha, hb]⟩
  rcases hm with ⟨ka, va, k, v, hka, rfl⟩ | ⟨l, rfl⟩ | ⟨l, rfl⟩
  · refine (Moves.emplace_always hP ?_ ?_ rfl rfl).bind hP (fun _ => .pure hP) s
    · cases ka <;> first | rfl | exact absurd rfl hka
    · cases va <;> rfl
  · exact (Moves.insertRangeMove_always hP rfl rfl rfl rfl l).bind hP (fun _ => .pure hP) s
  · exact (Kept.Always.plain hP).bind hP (fun _ =>
      (Moves.insertRangeMove_always hP rfl rfl rfl rfl l).bind hP (fun _ => .pure hP)) s

/-- C75. What an `insert` that throws has done: at most copied the value of a new key. -/
theorem C75_insert_throws (hO : NoListFault O) (h : Reachable O s) {e : Err} (hd : Throws O (.insert k v) s e s') :
    ledger O (.insert k v) s = {} ∨ (¬ Stored s.c k ∧ ledger O (.insert k v) s = { vCopied := 1 }) := by
  have hi : Impl.insert O k v s = .throw e s' := ret_throw_iff.1 hd
  have hi' : (Moves.insert O k v s).1 = .throw e s' := (congrFun (Moves.insert_body k v) s).trans hi
  have hl : ledger O (.insert k v) s = (Moves.insert O k v s).2 := by
    show (Kept.bind (Moves.insert O k v) _ s).2 = _
    unfold Kept.bind
    rcases hs : Moves.insert O k v s with ⟨o, c⟩
    rw [hs] at hi'
    cases hi'
    rfl
  rw [hl]
  obtain ⟨t, hr, ht⟩ := h.rel hO
  rcases Moves.insert_fails hO hi' with h1 | ⟨h1, h2⟩
  · exact .inl h1
  · refine .inr ⟨?_, h2⟩
    rw [hr.not_stored]
    rw [hr.rep.find_key hr.awf k] at h1
    simpa using h1

/-- C75. What an `emplace` that throws has done: nothing, constructed the key, or constructed key and value. -/
theorem C75_emplace_throws (hO : NoListFault O) {ka va : Arg} {e : Err} (hd : Throws O (.emplace k v) s e s') :
    ledger O (.emplace ka va k v) s = {} ∨ ledger O (.emplace ka va k v) s = ka.key ∨
      ledger O (.emplace ka va k v) s = ka.key + va.value := by
  have hi : Impl.emplace O k v s = .throw e s' := ret_throw_iff.1 hd
  have hi' : (Moves.emplace O ka va k v s).1 = .throw e s' := (congrFun (Moves.emplace_body ka va k v) s).trans hi
  have hl : ledger O (.emplace ka va k v) s = (Moves.emplace O ka va k v s).2 := by
    show (Kept.bind (Moves.emplace O ka va k v) _ s).2 = _
    unfold Kept.bind
    rcases hs : Moves.emplace O ka va k v s with ⟨o, c⟩
    rw [hs] at hi'
    cases hi'
    rfl
  rw [hl]
  exact Moves.emplace_fails hO s e s' hi'

/-! ### What is not so -/

/-- C75. `emplace` copies the value of every key that is already there, whatever it was given. -/
theorem C75_emplace_copies (hO : NoListFault O) (h : Reachable O s) (ka : Arg) {va : Arg} (hva : va ≠ .lvalue)
    (hc : s.c.capacity ≠ some 0) (hk : Stored s.c k) (hd : Returns O (.emplace k v) s r s') :
    (ledger O (.emplace ka va k v) s).vCopied = 1 := by
  rw [(C75_emplace hO h ka va hd).2.2 hc hk]
  cases ka <;> cases va <;> first | rfl | exact absurd rfl hva

/-- C75 is false as the README puts it ("100% move-aware"): given rvalues only, a call copies. -/
theorem C75_not_move_aware :
    ¬ ∀ (O : Oracle Nat Nat) (s s' : St (Cache Nat Nat) Nat Nat) (k v : Nat) (r : Res Nat Nat), Calm O → Reachable O s →
      Returns O (.emplace k v) s r s' → (ledger O (.emplace .rvalue .rvalue k v) s).vCopied = 0 := by
  intro h
  obtain ⟨s', hd⟩ := Out.ok_of (o := Impl.step calmO (.emplace 2 99) (demoState calmO demo3 0)) (a := .inserted false (some 2))
    (by decide +kernel)
  have h1 := h calmO _ s' 2 99 _ calmO_calm demo3_reachable hd
  have h2 : (ledger calmO (.emplace .rvalue .rvalue 2 99) (demoState calmO demo3 0)).vCopied = 1 := by decide +kernel
  rw [h2] at h1
  cases h1

/-- C75. An `emplace` that throws may have taken the caller's key and value: the map node is allocated after the move. The cache
is unchanged, but the element is lost. -/
theorem C75_failed_emplace_loses_the_element :
    ¬ ∀ (O : Oracle Nat Nat) (s s' : St (Cache Nat Nat) Nat Nat) (k v : Nat) (e : Err), NoListFault O → Reachable O s →
      Throws O (.emplace k v) s e s' → entries s'.c = entries s.c →
      (ledger O (.emplace .rvalue .rvalue k v) s).kTaken = 0 ∧ (ledger O (.emplace .rvalue .rvalue k v) s).vTaken = 0 := by
  intro h
  obtain ⟨s', hd, he⟩ := Out.throw_fact (o := Impl.step (faultyO .mapNode 11) (.emplace 4 40) (demoState (faultyO .mapNode 11) demo3 0))
    (e := .badAlloc) (f := fun s' => entries s'.c) (y := entries (demoState (faultyO .mapNode 11) demo3 0).c)
    (by decide +kernel) (by decide +kernel)
  have h1 := h (faultyO .mapNode 11) _ s' 4 40 _ (fun n => by simp [faultyO]) (demoState_reachable (by decide +kernel) rfl) hd he
  have h2 : (ledger (faultyO .mapNode 11) (.emplace .rvalue .rvalue 4 40) (demoState (faultyO .mapNode 11) demo3 0)).vTaken = 1 := by
    decide +kernel
  have h3 := h1.2
  rw [h2] at h3
  cases h3

/-! ### Cases that meet the hypotheses -/

/-- Single elements in a cache of capacity 3 holding 2, 3, 1. -/
example : let s := demoState calmO demo3 0
    Reachable calmO s ∧ s.c.capacity = some 3 ∧ (keys s.c = [2, 3, 1]) ∧
    (Impl.step calmO (.insert 4 40) s).result = some (.inserted true (some 6)) ∧
    ledger calmO (.insert 4 40) s = { kCopied := 1, vCopied := 1, vMoved := 1 } ∧
    ledger calmO (.insert 3 40) s = { vCopied := 1 } ∧
    ledger calmO (.emplace .args .args 4 40) s = { kMade := 1, vMade := 1, kMoved := 1, vMoved := 1 } ∧
    ledger calmO (.emplace .rvalue .rvalue 4 40) s = { kTaken := 1, vTaken := 1, kMoved := 2, vMoved := 2 } ∧
    ledger calmO (.emplace .rvalue .args 3 40) s = { kTaken := 1, vMade := 1, kMoved := 1, vCopied := 1 } :=
  ⟨demo3_reachable, by decide +kernel, by decide +kernel, by decide +kernel, by decide +kernel, by decide +kernel,
    by decide +kernel, by decide +kernel, by decide +kernel⟩

/-- An insertion whose map node cannot be allocated. -/
example : let O := faultyO .mapNode 10
    let s := demoState O demo3 0
    NoListFault O ∧ Reachable O s ∧ (Impl.step O (.insert 4 40) s).err = some .badAlloc ∧
    ledger O (.insert 4 40) s = { vCopied := 1 } :=
  ⟨fun n => by simp [faultyO], demoState_reachable (by decide +kernel) rfl, by decide +kernel, by decide +kernel⟩

/-- A range with one new key, one stored key and a repetition. -/
example : let s := demoState calmO demo3 0
    (Impl.step calmO (.insertRange [(4, 40), (3, 33), (4, 44)]) s).result = some (.nat 1) ∧
    ledger calmO (.insertRange [(4, 40), (3, 33), (4, 44)]) s = { kCopied := 1, vCopied := 3, vMoved := 1 } ∧
    ledger calmO (.insertRangeMove [(4, 40), (3, 33), (4, 44)]) s =
      { kMoved := 4, vMoved := 4, vCopied := 2, kTaken := 3, vTaken := 3 } ∧
    ledger calmO (.assignRange [(4, 40), (3, 33), (4, 44)]) s = { kCopied := 2, vCopied := 3, vMoved := 2 } ∧
    ledger calmO (.assignRangeMove [(4, 40), (3, 33), (4, 44)]) s =
      { kMoved := 5, vMoved := 5, vCopied := 1, kTaken := 3, vTaken := 3 } :=
  ⟨by decide +kernel, by decide +kernel, by decide +kernel, by decide +kernel, by decide +kernel⟩

end LRU
