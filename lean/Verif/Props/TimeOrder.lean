import Verif.Proofs.Filed
import Verif.Props.Timed
/-!
# C82: when the expiry functions can be relied on

`all_expired()` and `clear_expired()` are right about caches whose entries are in the order of their time stamps (C42, C43). Here:
caches stay in that order as long as no call brings an entry forward that is not at the front already.
-/

set_option linter.unusedSectionVars false
set_option autoImplicit false

namespace LRU

variable {K V : Type} [KeyEqual K] [DecidableEq K] [DecidableEq V] {O : Oracle K V}
  {s s' s'' : St (Cache K V) K V} {op : Op K V} {r : Res K V} {e : Err} {ttl : Int} {res : Nat}

theorem Rel.sorted_iff {t : St (MCache K V) K V} (hr : Rel s t) :
    SortedByTime s.c ↔ (t.c.ents.map (·.time)).Pairwise (· ≤ ·) := by
  unfold SortedByTime
  rw [hr.elements, List.pairwise_map, List.pairwise_map]
  rfl

theorem Reachable.filed (hO : NoListFault O) (h : Reachable O s) (hs : SortedByTime s.c) {t : St (MCache K V) K V} (hr : Rel s t) :
    Filed O t := ⟨hr.sorted_iff.1 hs, (stamped_inv.rel hr).1 (stamped_inv.reachable hO h)⟩

/-- C82. On a monotonic clock, a call that brings no entry forward (whether it returns or throws) keeps the entries in the order of
their time stamps: it asks for and inserts only keys that are not stored, or stored in the most recently used entry. All other
calls are fine. -/
theorem C82_call_keeps_time_order (hO : NoListFault O) (hS : Steady O) (h : Reachable O s) (hs : SortedByTime s.c)
    (hb : ¬ op.BringsForward s.c) (hd : Returns O op s r s' ∨ Throws O op s e s') : SortedByTime s'.c := by
  rcases hd with hd | hd
  · obtain ⟨t, t', hr, ht, h3, hr', _⟩ := h.returns hO hd
    have h4 := step_filed hO hS hr ht (h.filed hO hs hr) hb
    rw [h3] at h4
    exact hr'.sorted_iff.2 h4.sorted
  · obtain ⟨t, t', hr, ht, h3, hr', _⟩ := h.throws hO hd
    have h4 := step_filed hO hS hr ht (h.filed hO hs hr) hb
    rw [h3] at h4
    exact hr'.sorted_iff.2 h4.sorted

/-- C82, for histories of calls, between which other caches may be used. -/
theorem C82_history_keeps_time_order (hO : NoListFault O) (hS : Steady O) (h : Reachable O s) (hs : SortedByTime s.c)
    {l : List (Call K V)} (hl : History O s l s') (hb : ∀ c ∈ l, ¬ c.op.BringsForward c.before.c) : SortedByTime s'.c := by
  induction hl with
  | nil => exact hs
  | ok hl hd ih =>
    exact C82_call_keeps_time_order (e := .user) hO hS (hl.reachable hO h) (ih fun c hc => hb c (List.mem_cons_of_mem _ hc))
      (hb _ (List.mem_cons_self ..)) (.inl hd)
  | throw hl hd ih =>
    exact C82_call_keeps_time_order (r := .unit) hO hS (hl.reachable hO h) (ih fun c hc => hb c (List.mem_cons_of_mem _ hc))
      (hb _ (List.mem_cons_self ..)) (.inr hd)
  | elsewhere _ hx ih => unfold SortedByTime; rw [hx.cache]; exact ih hb

/-- C82. After such a history, for instance of a new cache, `all_expired()` is true exactly if all entries have expired. -/
theorem C82_all_expired (hO : NoListFault O) (hS : Steady O) (h : Reachable O s) (hs : SortedByTime s.c)
    {l : List (Call K V)} (hl : History O s l s') (hb : ∀ c ∈ l, ¬ c.op.BringsForward c.before.c)
    (hk : s'.c.kind = .timed ttl res) :
    ∃ b s'', Returns O .allExpired s' (.bool b) s'' ∧ (b = true ↔ ∀ x ∈ elements s'.c, elapsed O res x s'.g.ticks > ttl) :=
  C42_all_expired_partial hO (hl.reachable hO h) hk (C82_history_keeps_time_order hO hS h hs hl hb)

/-- C82. After such a history `clear_expired()` returns, removes every entry that had expired when it was called, keeps every entry that
has not expired when it last reads the clock, and returns the number of entries removed. -/
theorem C82_clear_expired (hO : NoListFault O) (hS : Steady O) (h : Reachable O s) (hs : SortedByTime s.c)
    {l : List (Call K V)} (hl : History O s l s') (hb : ∀ c ∈ l, ¬ c.op.BringsForward c.before.c)
    (hk : s'.c.kind = .timed ttl res) :
    ∃ s'', Returns O .clearExpired s' (.nat (count s'.c - count s''.c)) s'' ∧
      (∀ x ∈ elements s'.c, elapsed O res x s'.g.ticks > ttl → x ∉ elements s''.c) ∧
      (∀ x ∈ elements s'.c, elapsed O res x (s''.g.ticks - 1) ≤ ttl → x ∈ elements s''.c) ∧
      (elements s''.c).Sublist (elements s'.c) ∧ SortedByTime s''.c := by
  have hr := hl.reachable hO h
  have hs' := C82_history_keeps_time_order hO hS h hs hl hb
  obtain ⟨m, s'', h1, -⟩ := C43_clear_expired_removes_only_expired hO hr hk
  obtain ⟨h2, h3, h4, h5⟩ := C43_clear_expired_partial hO hS hr hk hs' h1
  exact ⟨s'', h5 ▸ h1, h2, h3, h4, C82_call_keeps_time_order (e := .user) hO hS hr hs' (op := .clearExpired) (fun h => h) (.inl h1)⟩

/-! ### The hypotheses are met -/

/-- A new cache is in order. -/
example : SortedByTime (demoState calmO [.create (.timed 5 1) (.sized 3)] 0).c := by
  unfold SortedByTime
  decide +kernel

/-- Inserting new keys (with eviction), asking for absent keys and erasing brings nothing forward; asking for an old key does. -/
example : (¬ (Op.insert 3 30 : Op Nat Nat).BringsForward (demoState calmO demoSorted 0).c) ∧
    ¬ (Op.erase 1 : Op Nat Nat).BringsForward (demoState calmO demoSorted 0).c := by
  refine ⟨?_, fun h => h⟩
  rintro ⟨x, hx, -⟩
  have : entryFor (demoState calmO demoSorted 0).c 3 = none := by decide +kernel
  rw [this] at hx
  cases hx

example : (Op.find 1 : Op Nat Nat).BringsForward (demoState calmO demoSorted 0).c := by
  have h : (entryFor (demoState calmO demoSorted 0).c 1).isSome = true ∧
      (elements (demoState calmO demoSorted 0).c).getLast? ≠ entryFor (demoState calmO demoSorted 0).c 1 := by decide +kernel
  obtain ⟨x, hx⟩ := Option.isSome_iff_exists.1 h.1
  exact ⟨x, hx, fun hl => h.2 (by rw [hl, hx])⟩

end LRU
