import Verif.Proofs.CostExact
import Verif.Props.Cost
/-!
# C69: what accesses and insertions cost, exactly

Upper bounds alone would also hold for a meter that forgets to charge. These are the exact prices of the calls whose complexity
is documented, in terms of what the caller can see.
-/

set_option linter.unusedSectionVars false
set_option autoImplicit false

namespace LRU

variable {K V : Type} [KeyEqual K] [DecidableEq K] [DecidableEq V] {O : Oracle K V} {s s' : St (Cache K V) K V} {op : Op K V}
  {k k' : K} {v : V} {r : Res K V}

/-- C69. `find` makes one search, moves one node if it finds the key and there is another one, and tells everyone who is
interested. -/
theorem C69_find_price (hO : NoListFault O) (h : Reachable O s) (hd : Returns O (.find k) s r s') :
    (r = .pos none ∧ price O (.find k) s = { hash := 1, nodes := 0, watch := missAudience s.c.obs }) ∨
    ∃ p, r = .pos (some p) ∧
      price O (.find k) s = { hash := 1, nodes := if count s.c = 1 then 0 else 1, watch := hitAudience s.c.obs } := by
  obtain ⟨x, h1, rfl⟩ := Cost.ret_cost (s := s) (s' := s') (c := price O (.find k) s) (r := r) (m := Cost.find O k) (f := .pos)
    (Prod.ext ((C69_same_calls O (.find k) s).trans hd) rfl)
  have h2 := Cost.find_cost h1
  rw [h.map_length hO] at h2
  cases x with
  | none => exact .inl ⟨rfl, h2.trans (by simp [missAudience])⟩
  | some p => exact .inr ⟨p, rfl, h2.trans (by simp [hitAudience])⟩

/-- C69. `contains` and `lookup` cost nothing but notifications if the key is the one accessed last; notifications are left out
if its entry has expired. Otherwise they cost what `find` costs. -/
theorem C69_access_price (hO : NoListFault O) (h : Reachable O s) (ha : op = .contains k ∨ op = .lookup k)
    (hd : Returns O op s r s') :
    (Remembers s.c k → price O op s = if r = .bool false then {} else { watch := hitAudience s.c.obs }) ∧
    (¬ Remembers s.c k → price O op s = price O (.find k) s) := by
  rw [← h.lastIs_iff hO]
  rcases ha with rfl | rfl
  · obtain ⟨b, h1, rfl⟩ := Cost.ret_cost (s := s) (s' := s') (c := price O (.contains k) s) (r := r) (m := Cost.contains O k)
      (f := .bool) (Prod.ext ((C69_same_calls O (.contains k) s).trans hd) rfl)
    obtain ⟨h2, h3⟩ := Cost.contains_cost h1
    refine ⟨fun hl => (h2 hl).trans ?_, fun hl => ?_⟩
    · cases b
      · rfl
      · rfl
    · obtain ⟨x, h4, _⟩ := h3 hl
      exact (Cost.ret_price h4).symm
  · obtain ⟨b, h1, rfl⟩ := Cost.ret_cost (s := s) (s' := s') (c := price O (.lookup k) s) (r := r) (m := Cost.lookup O k)
      (f := fun r => .ref r.1 r.2) (Prod.ext ((C69_same_calls O (.lookup k) s).trans hd) rfl)
    obtain ⟨h2, h3⟩ := Cost.lookup_cost h1
    refine ⟨fun hl => (h2 hl).trans (if_neg (fun h => by cases h)).symm, fun hl => ?_⟩
    obtain ⟨x, s1, h4⟩ := h3 hl
    exact (Cost.ret_price h4).symm

/-- C69. Insertions into a cache of capacity 0 cost nothing; otherwise a key that is stored costs a search and a node that is
moved (unless it is the only one), a new key two searches and two nodes, and one that evicts another a third search, and a third
node unless the capacity is 1. -/
theorem C69_insert_price (hO : NoListFault O) (h : Reachable O s) {n : Nat} (hc : s.c.capacity = some n) (hi : op.Inserts k v)
    {b : Bool} {p : Option Ptr} (hd : Returns O op s (.inserted b p) s') :
    price O op s =
      if n = 0 then {}
      else if b = false then { hash := 1, nodes := if count s.c = 1 then 0 else 1 }
      else if count s.c < n then { hash := 2, nodes := 2 }
      else { hash := 3, nodes := if count s'.c = 1 then 2 else 3 } := by
  have key : ∀ r : Bool × Option Ptr, Cost.InsertBill s s' n r (price O op s) →
      (Res.inserted r.1 r.2 : Res K V) = .inserted b p → price O op s =
      if n = 0 then {}
      else if b = false then { hash := 1, nodes := if count s.c = 1 then 0 else 1 }
      else if count s.c < n then { hash := 2, nodes := 2 }
      else { hash := 3, nodes := if count s'.c = 1 then 2 else 3 } := by
    intro r hb hr
    injection hr with h1 h2
    have hs' := (h.after hO hd).map_length hO
    have hs := h.map_length hO
    show price O op s = _
    by_cases h0 : n = 0
    · rw [if_pos h0]; exact (hb.nothing h0).2
    · rw [if_neg h0]
      cases hbb : b with
      | false => rw [if_pos rfl, ← hs]; exact hb.old h0 (h1.trans hbb)
      | true =>
        rw [if_neg (fun h => by cases h)]
        by_cases hn : count s.c < n
        · rw [if_pos hn]; exact hb.new h0 (h1.trans hbb) (by rw [hs]; exact hn)
        · rw [if_neg hn, ← hs']; exact hb.evicts h0 (h1.trans hbb) (by rw [hs]; omega)
  rcases hi with rfl | rfl
  · obtain ⟨x, h1, h2⟩ := Cost.ret_cost (s := s) (s' := s') (c := price O (.insert k v) s) (r := .inserted b p) (m := Cost.insert O k v)
      (f := fun r => .inserted r.1 r.2) (Prod.ext ((C69_same_calls O (.insert k v) s).trans hd) rfl)
    exact key x (Cost.insert_cost hc h1) h2
  · obtain ⟨x, h1, h2⟩ := Cost.ret_cost (s := s) (s' := s') (c := price O (.emplace k v) s) (r := .inserted b p) (m := Cost.emplace O k v)
      (f := fun r => .inserted r.1 r.2) (Prod.ext ((C69_same_calls O (.emplace k v) s).trans hd) rfl)
    exact key x (Cost.emplace_cost hc h1) h2

/-! ### The hypotheses can be met -/

/-- A full cache with statistics and a callback for hits (keys 2, 3, 1, the last one accessed last). -/
example : Reachable calmO (demoState calmO demoPast 0) ∧ (demoState calmO demoPast 0).c.capacity = some 3 ∧
    (Impl.step calmO (.find 2) (demoState calmO demoPast 0)).result.map (· != .pos none) = some true ∧
    (Impl.step calmO (.find 9) (demoState calmO demoPast 0)).result = some (.pos none) ∧
    (Impl.step calmO (.contains 1) (demoState calmO demoPast 0)).result = some (.bool true) ∧
    ((elements (demoState calmO demoPast 0).c).map fun x => (x.key, some x.addr == (demoState calmO demoPast 0).c.last)) =
      [(2, false), (3, false), (1, true)] ∧
    (missAudience (demoState calmO demoPast 0).c.obs, hitAudience (demoState calmO demoPast 0).c.obs) = (1, 2) :=
  ⟨demoState_reachable (by decide +kernel) rfl, by decide +kernel, by decide +kernel, by decide +kernel, by decide +kernel,
    by decide +kernel, by decide +kernel⟩

/-- Insertions that evict, that find the key, and that find room. -/
example : price calmO (.insert 9 90) (demoState calmO demoPast 0) = { hash := 3, nodes := 3 } ∧
    price calmO (.emplace 2 22) (demoState calmO demoPast 0) = { hash := 1, nodes := 1 } ∧
    price calmO (.insert 9 90) (demoState calmO (demoPast ++ [.op 0 (.erase 3)]) 0) = { hash := 2, nodes := 2 } ∧
    price calmO (.find 9) (demoState calmO demoPast 0) = { hash := 1, watch := 1 } := by decide +kernel

end LRU
