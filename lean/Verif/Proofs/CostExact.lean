import Verif.Proofs.CostStep
import Verif.Proofs.Asserts
import Verif.Proofs.ReenterCalls
import Verif.Proofs.Alias
/-!
# The exact cost of calls: lemmas for `Props.CostExact`
-/

set_option linter.unusedSectionVars false
set_option autoImplicit false

namespace LRU

theorem Bill.ext' {a b : Bill} (h1 : a.hash = b.hash) (h2 : a.nodes = b.nodes) (h3 : a.watch = b.watch) : a = b := by
  cases a; cases b; simp only [Bill.mk.injEq]; exact ⟨h1, h2, h3⟩

namespace Metered

variable {σ α β : Type}

theorem bind_inv {m : Metered σ α} {f : α → Metered σ β} {s s' : σ} {b : β} {c : Bill} (h : (m >>= f) s = (.ok b s', c)) :
    ∃ a s1 c1 c2, m s = (.ok a s1, c1) ∧ f a s1 = (.ok b s', c2) ∧ c = c1 + c2 := by
  change Metered.bind m f s = _ at h
  unfold Metered.bind at h
  rcases hm : m s with ⟨o, c1⟩
  rw [hm] at h
  cases o with
  | ok a s1 =>
    injection h with h1 h2
    exact ⟨a, s1, c1, (f a s1).2, rfl, Prod.ext h1 rfl, h2.symm⟩
  | throw e s1 => injection h with h1 _; cases h1
  | ub => injection h with h1 _; cases h1
  | terminate => injection h with h1 _; cases h1
  | diverge => injection h with h1 _; cases h1

theorem charge_inv {p : σ → Bill} {m : M σ α} {s s' : σ} {a : α} {c : Bill} (h : charge p m s = (.ok a s', c)) :
    m s = .ok a s' ∧ c = p s := by
  injection h with h1 h2; exact ⟨h1, h2.symm⟩

theorem free_inv {m : M σ α} {s s' : σ} {a : α} {c : Bill} (h : free m s = (.ok a s', c)) : m s = .ok a s' ∧ c = 0 :=
  charge_inv h

theorem pure_inv {s s' : σ} {a b : α} {c : Bill} (h : (pure a : Metered σ α) s = (.ok b s', c)) : a = b ∧ s = s' ∧ c = 0 := by
  injection h with h1 h2
  injection h1 with h1 h3
  exact ⟨h1, h3, h2.symm⟩

theorem free_bind_inv {m : M σ α} {f : α → Metered σ β} {s s' : σ} {b : β} {c : Bill} (h : (free m >>= f) s = (.ok b s', c)) :
    ∃ a s1, m s = .ok a s1 ∧ f a s1 = (.ok b s', c) := by
  obtain ⟨a, s1, c1, c2, h1, h2, rfl⟩ := bind_inv h
  obtain ⟨h3, rfl⟩ := free_inv h1
  exact ⟨a, s1, h3, by rw [h2, Bill.zero_add]⟩

end Metered

open Metered

namespace Cost

variable {K V : Type} [KeyEqual K] [DecidableEq K] [DecidableEq V] {O : Oracle K V} {s s' : St (Cache K V) K V} {c : Bill}

theorem registerHit_cache {o : Obs} {k : K} {v : V} {u : Unit} (h : LRU.registerHit O o k v s = .ok u s') : s'.c = s.c := by
  have := (registerHit_still (O := O) (o := o) (k := k) (v := v)) s
  rw [h] at this
  exact this.1

theorem moveToFront_cost {it : Option Ptr} {u : Unit} (h : (moveToFront it : CM K V Unit) s = (.ok u s', c)) :
    c = { nodes := if s.c.map.length = 1 then 0 else 1 } := by
  unfold moveToFront at h
  obtain ⟨n, s1, h1, h⟩ := free_bind_inv h
  injection h1 with h1 h2
  subst h1 h2
  by_cases hn : s.c.map.length = 1
  · rw [if_pos hn] at h
    rw [if_pos hn]
    exact (pure_inv h).2.2
  · rw [if_neg hn] at h
    rw [if_neg hn]
    exact (charge_inv h).2

theorem find_cost {k : K} {r : Option Ptr} (h : (find O k : CM K V (Option Ptr)) s = (.ok r s', c)) :
    c = { hash := 1, nodes := if r = none ∨ s.c.map.length = 1 then 0 else 1,
          watch := s.c.obs.stats.toList.length + (if r = none then s.c.obs.missCbs else s.c.obs.hitCbs).length +
            s.c.obs.accCbs.length } := by
  unfold find at h
  obtain ⟨o, s1, h1, h⟩ := free_bind_inv h
  injection h1 with h1 h2
  subst h1 h2
  obtain ⟨x, s1, c1, c2, h1, h0, rfl⟩ := bind_inv h
  clear h
  obtain ⟨h1', rfl⟩ := charge_inv h1
  clear h1
  injection h1' with h1 h2
  subst h2
  have miss : ∀ {t : St (Cache K V) K V} {c2 : Bill}, t.c = s.c →
      (registerMiss O s.c.obs k >>= fun _ => (pure none : CM K V (Option Ptr))) t = (.ok r s', c2) →
      r = none ∧ c2 = { watch := s.c.obs.stats.toList.length + s.c.obs.missCbs.length + s.c.obs.accCbs.length } := by
    intro t c2 _ h
    obtain ⟨_, s2, c3, c4, h3, h4, rfl⟩ := bind_inv h
    obtain ⟨_, rfl⟩ := charge_inv h3
    obtain ⟨rfl, _, rfl⟩ := pure_inv h4
    exact ⟨rfl, Bill.add_zero _⟩
  cases x with
  | none =>
    obtain ⟨rfl, rfl⟩ := miss rfl h0
    exact Bill.ext' rfl (by simp) (by simp)
  | some n =>
    obtain ⟨b, s1, h2, h⟩ := free_bind_inv h0
    have e1 := Impl.Debug.hasExpiredInfo_ok _ _ _ _ _ h2
    cases b with
    | true =>
      obtain ⟨rfl, rfl⟩ := miss e1 h
      exact Bill.ext' rfl (by simp) (by simp)
    | false =>
      obtain ⟨_, s2, c3, c4, h3, h4, rfl⟩ := bind_inv h
      obtain ⟨h3', rfl⟩ := charge_inv h3
      have e2 := registerHit_cache h3'
      obtain ⟨_, s3, c5, c6, h5, h6, rfl⟩ := bind_inv h4
      obtain rfl := moveToFront_cost h5
      obtain ⟨_, s4, _, h8⟩ := free_bind_inv h6
      obtain ⟨rfl, _, rfl⟩ := pure_inv h8
      rw [e2, e1]
      exact Bill.ext' rfl (by simp) (by simp)

theorem ret_cost {α : Type} {m : CM K V α} {f : α → Res K V} {r : Res K V} (h : (ret m f) s = (.ok r s', c)) :
    ∃ a, m s = (.ok a s', c) ∧ f a = r := by
  unfold ret at h
  obtain ⟨a, s1, c1, c2, h1, h2, rfl⟩ := bind_inv h
  obtain ⟨h3, rfl, rfl⟩ := pure_inv h2
  exact ⟨a, by rw [h1, Bill.add_zero], h3⟩

theorem ret_price {k : K} {x : Option Ptr} (h : (find O k : CM K V (Option Ptr)) s = (.ok x s', c)) : price O (.find k) s = c := by
  show ((find O k >>= fun r => pure (Res.pos r) : CM K V (Res K V)) s).2 = c
  have : (find O k >>= fun r => pure (Res.pos r) : CM K V (Res K V)) s = (.ok (.pos x) s', c + 0) := by
    show Metered.bind _ _ s = _
    unfold Metered.bind
    rw [h]
    rfl
  rw [this]
  exact Bill.add_zero c

/-- What the body of `insert` and `emplace` costs for a new key. -/
theorem insertNode_cost {k : K} {v : V} {t : Int} {p : Ptr} {n : Nat} (hcap : s.c.capacity = some n)
    (h : (insertNode O k v t : CM K V Ptr) s = (.ok p s', c)) :
    (s.c.map.length < n → c = { hash := 2 - 1, nodes := 2 }) ∧
    (n ≤ s.c.map.length → c = { hash := 3 - 1, nodes := if s'.c.map.length = 1 then 2 else 3 }) := by
  unfold insertNode at h
  obtain ⟨p1, s1, c1, c2, h1, h0, rfl⟩ := bind_inv h
  clear h
  obtain ⟨h1', rfl⟩ := charge_inv h1
  clear h1
  have h1 := h1'
  have e1 : s1.c.map.length = s.c.map.length + 1 ∧ s1.c.capacity = some n := by
    unfold Impl.mapEmplace at h1
    obtain ⟨_, t1, g1, h1⟩ := LRU.bind_ok_inv h1
    have hc := attempt_state g1
    obtain ⟨q, t2, g2, h1⟩ := LRU.bind_ok_inv h1
    injection g2 with g2 g3
    subst g2 g3
    obtain ⟨_, t3, g4, h1⟩ := LRU.bind_ok_inv h1
    injection g4 with g4 g5
    injection h1 with h1 h2
    subst g5 h2
    refine ⟨?_, by show t1.c.capacity = _; rw [hc]; exact hcap⟩
    show (O.shuffle _ (_ :: t1.c.map)).length = _
    rw [(O.shuffle_perm _ _).length_eq, List.length_cons, hc]
  obtain ⟨q, s2, c3, c4, h2, h3, rfl⟩ := bind_inv h0
  clear h0
  obtain ⟨_, s3, h4, h3'⟩ := free_bind_inv h3
  clear h3
  injection h4 with _ h5
  obtain ⟨_, rfl, rfl⟩ := pure_inv h3'
  have e3 : s3.c.map.length = s2.c.map.length := by
    subst h5; exact List.length_map ..
  unfold insertNewKey at h2
  obtain ⟨_, s4, c5, c6, h6, h7, rfl⟩ := bind_inv h2
  clear h2
  obtain ⟨l, s5, h8, h7'⟩ := free_bind_inv h7
  clear h7
  obtain ⟨_, rfl, rfl⟩ := pure_inv h7'
  have e4 : s5 = s4 := by
    unfold Impl.orderBack at h8
    obtain ⟨x, t1, g1, h8⟩ := LRU.bind_ok_inv h8
    injection g1 with _ g2
    subst g2
    cases x with
    | none => cases h8
    | some _ => injection h8 with _ h8; exact h8.symm
  subst e4
  unfold evictOrAppend at h6
  obtain ⟨m, t1, g1, h6⟩ := free_bind_inv h6
  injection g1 with g1 g2
  subst g1 g2
  obtain ⟨m, t1, g1, h6⟩ := free_bind_inv h6
  unfold Impl.readCapacity at g1
  rw [e1.2] at g1
  injection g1 with g1 g2
  subst g1 g2
  rw [e1.1] at h6
  by_cases hn : s.c.map.length + 1 > n
  · rw [if_pos hn] at h6
    refine ⟨fun h => by omega, fun _ => ?_⟩
    unfold evictLruFor at h6
    obtain ⟨l0, t1, g1, h6⟩ := free_bind_inv h6
    obtain ⟨k0, t2, g2, h6⟩ := free_bind_inv h6
    obtain ⟨_, t3, c7, c8, g3, h6', rfl⟩ := bind_inv h6
    clear h6
    obtain ⟨_, rfl⟩ := charge_inv g3
    obtain ⟨_, t4, g4, h6⟩ := free_bind_inv h6'
    clear h6'
    have hk : s5.c.map.length = t4.c.map.length := by
      have := congrArg Prod.fst h6
      change (moveToFront (some l0.addr) : CM K V Unit).body t4 = _ at this
      rw [moveToFront_body] at this
      unfold Impl.moveToFront at this
      obtain ⟨x, u1, j1, this⟩ := LRU.bind_ok_inv this
      injection j1 with j1 j2
      subst j1 j2
      split at this
      · injection this with _ this; rw [← this]
      · unfold Impl.spliceToEnd at this
        obtain ⟨y, u2, j3, this⟩ := LRU.bind_ok_inv this
        injection this with _ this
        have j4 : u2 = t4 := by
          unfold Impl.derefOrder at j3
          split at j3
          · injection j3 with _ j3; exact j3.symm
          · cases j3
        rw [← this, j4]
    obtain rfl := moveToFront_cost h6
    rw [e3, hk]
    split <;> rfl
  · rw [if_neg hn] at h6
    obtain ⟨_, rfl⟩ := charge_inv h6
    exact ⟨fun _ => rfl, fun h => by omega⟩

/-- What an insertion costs. -/
structure InsertBill (s s' : St (Cache K V) K V) (n : Nat) (r : Bool × Option Ptr) (c : Bill) : Prop where
  nothing : n = 0 → r = (false, none) ∧ c = {}
  new : n ≠ 0 → r.1 = true → s.c.map.length < n → c = { hash := 2, nodes := 2 }
  evicts : n ≠ 0 → r.1 = true → n ≤ s.c.map.length → c = { hash := 3, nodes := if s'.c.map.length = 1 then 2 else 3 }
  old : n ≠ 0 → r.1 = false → c = { hash := 1, nodes := if s.c.map.length = 1 then 0 else 1 }

theorem new_bill {s1 : St (Cache K V) K V} {k : K} {v : V} {t : Int} {n : Nat} {r : Bool × Option Ptr} (h0 : n ≠ 0)
    (hc : s1.c = s.c) (hcap : s.c.capacity = some n)
    (h : (do let p ← insertNode O k v t; free (Impl.setLast p); pure (true, some p) : CM K V (Bool × Option Ptr)) s1 = (.ok r s', c)) :
    InsertBill s s' n r ({ hash := 1 } + c) := by
  obtain ⟨p, s2, c1, c2, h1, h2, hc'⟩ := bind_inv h
  obtain ⟨_, s3, h3, h4⟩ := free_bind_inv h2
  obtain ⟨h5, h6, h7⟩ := pure_inv h4
  injection h3 with _ h3
  have e : s'.c.map.length = s2.c.map.length := by rw [← h6, ← h3]
  have := insertNode_cost (n := n) (by rw [hc]; exact hcap) h1
  rw [hc] at this
  refine ⟨fun h => absurd h h0, fun _ _ hn => ?_, fun _ _ hn => ?_, fun _ hr => ?_⟩
  · rw [hc', h7, this.1 hn]; rfl
  · rw [hc', h7, this.2 hn, e]; split <;> rfl
  · rw [← h5] at hr; cases hr

theorem old_bill {s1 : St (Cache K V) K V} {v : V} {x : MapNode K V} {n : Nat} {r : Bool × Option Ptr} (h0 : n ≠ 0)
    (hc : s1.c = s.c)
    (h : (do moveToFrontAssign O x v; free (Impl.setLast x.addr); pure (false, some x.addr) : CM K V (Bool × Option Ptr)) s1 =
      (.ok r s', c)) :
    InsertBill s s' n r ({ hash := 1 } + c) := by
  obtain ⟨_, s2, c1, c2, h1, h2, hc'⟩ := bind_inv h
  obtain ⟨_, s3, h3, h4⟩ := free_bind_inv h2
  obtain ⟨h5, h6, h7⟩ := pure_inv h4
  unfold moveToFrontAssign at h1
  obtain ⟨_, s4, c3, c4, h8, h9, hc3⟩ := bind_inv h1
  have h10 := (free_inv h9).2
  have h11 := moveToFront_cost h8
  rw [hc] at h11
  refine ⟨fun h => absurd h h0, fun _ hr => ?_, fun _ hr => ?_, fun _ _ => ?_⟩
  · rw [← h5] at hr; cases hr
  · rw [← h5] at hr; cases hr
  · rw [hc', h7, hc3, h10, h11]; exact Bill.ext' rfl (by simp) rfl

theorem insert_cost {k : K} {v : V} {r : Bool × Option Ptr} {n : Nat} (hcap : s.c.capacity = some n)
    (h : (insert O k v : CM K V (Bool × Option Ptr)) s = (.ok r s', c)) : InsertBill s s' n r c := by
  unfold insert at h
  obtain ⟨m, s1, g, h1⟩ := free_bind_inv h
  unfold Impl.readCapacity at g
  rw [hcap] at g
  injection g with g1 g2
  subst g1 g2
  by_cases h0 : n = 0
  · rw [if_pos h0] at h1
    obtain ⟨rfl, _, rfl⟩ := pure_inv h1
    exact ⟨fun _ => ⟨rfl, rfl⟩, fun h => absurd h0 h, fun h => absurd h0 h, fun h => absurd h0 h⟩
  · rw [if_neg h0] at h1
    obtain ⟨x, s1, c1, c2, h2, h3, hc⟩ := bind_inv h1
    obtain ⟨h4, h5⟩ := charge_inv h2
    injection h4 with _ h4
    subst h4
    rw [hc, h5]
    cases x with
    | none =>
      obtain ⟨t, s2, h6, h7⟩ := free_bind_inv h3
      obtain ⟨_, s3, h8, h9⟩ := free_bind_inv h7
      exact new_bill h0 ((attempt_state h8).trans (Impl.Debug.insertionTime_ok _ _ _ _ h6)) hcap h9
    | some x => exact old_bill h0 rfl h3

theorem emplace_cost {k : K} {v : V} {r : Bool × Option Ptr} {n : Nat} (hcap : s.c.capacity = some n)
    (h : (emplace O k v : CM K V (Bool × Option Ptr)) s = (.ok r s', c)) : InsertBill s s' n r c := by
  unfold emplace at h
  obtain ⟨m, s1, g, h1⟩ := free_bind_inv h
  unfold Impl.readCapacity at g
  rw [hcap] at g
  injection g with g1 g2
  subst g1 g2
  by_cases h0 : n = 0
  · rw [if_pos h0] at h1
    obtain ⟨rfl, _, rfl⟩ := pure_inv h1
    exact ⟨fun _ => ⟨rfl, rfl⟩, fun h => absurd h0 h, fun h => absurd h0 h, fun h => absurd h0 h⟩
  · rw [if_neg h0] at h1
    obtain ⟨_, s0, g0, h1'⟩ := free_bind_inv h1
    have e0 := attempt_state g0
    obtain ⟨x, s1, c1, c2, h2, h3, hc⟩ := bind_inv h1'
    obtain ⟨h4, h5⟩ := charge_inv h2
    injection h4 with _ h4
    subst h4
    rw [hc, h5]
    cases x with
    | none =>
      obtain ⟨_, s2, h6, h7⟩ := free_bind_inv h3
      obtain ⟨t, s3, h8, h9⟩ := free_bind_inv h7
      exact new_bill h0 ((Impl.Debug.insertionTime_ok _ _ _ _ h8).trans ((attempt_state h6).trans e0)) hcap h9
    | some x =>
      obtain ⟨_, s2, h6, h7⟩ := free_bind_inv h3
      exact old_bill h0 ((attempt_state h6).trans e0) h7

/-- `contains`: what it costs to answer from the entry accessed last, or otherwise. -/
theorem contains_cost {k : K} {b : Bool} (h : (contains O k : CM K V Bool) s = (.ok b s', c)) :
    ((Impl.lastIs k : Impl.CM K V Bool) s = .ok true s →
      c = if b then { watch := s.c.obs.stats.toList.length + s.c.obs.hitCbs.length + s.c.obs.accCbs.length } else {}) ∧
    ((Impl.lastIs k : Impl.CM K V Bool) s ≠ .ok true s →
      ∃ x, (find O k : CM K V (Option Ptr)) s = (.ok x s', c) ∧ x.isSome = b) := by
  unfold contains at h
  obtain ⟨o, s1, h1, h2⟩ := free_bind_inv h
  injection h1 with h1 h1'
  subst h1 h1'
  obtain ⟨y, s2, h3, h4⟩ := free_bind_inv h2
  obtain rfl := lastIs_state h3
  cases y with
  | true =>
    refine ⟨fun _ => ?_, fun h => absurd h3 h⟩
    obtain ⟨z, s3, h5, h6⟩ := free_bind_inv h4
    cases z with
    | true =>
      obtain ⟨m, s4, _, h7⟩ := free_bind_inv h6
      obtain ⟨_, s5, c1, c2, h8, h9, hc⟩ := bind_inv h7
      obtain ⟨rfl, _, h10⟩ := pure_inv h9
      rw [hc, h10, (charge_inv h8).2]; exact Bill.add_zero _
    | false =>
      obtain ⟨rfl, _, h10⟩ := pure_inv h6
      exact h10
  | false =>
    refine ⟨fun h => ?_, fun _ => ?_⟩
    · rw [h3] at h; injection h with h; cases h
    · obtain ⟨x, s5, c1, c2, h8, h9, hc⟩ := bind_inv h4
      obtain ⟨h11, rfl, h10⟩ := pure_inv h9
      exact ⟨x, by rw [h8, hc, h10, Bill.add_zero], h11⟩

/-- `lookup`, likewise. -/
theorem lookup_cost {k : K} {r : Ptr × V} (h : (lookup O k : CM K V (Ptr × V)) s = (.ok r s', c)) :
    ((Impl.lastIs k : Impl.CM K V Bool) s = .ok true s →
      c = { watch := s.c.obs.stats.toList.length + s.c.obs.hitCbs.length + s.c.obs.accCbs.length }) ∧
    ((Impl.lastIs k : Impl.CM K V Bool) s ≠ .ok true s →
      ∃ x s1, (find O k : CM K V (Option Ptr)) s = (.ok (some x) s1, c)) := by
  unfold lookup at h
  obtain ⟨o, s1, h1, h2⟩ := free_bind_inv h
  injection h1 with h1 h1'
  subst h1 h1'
  obtain ⟨y, s2, h3, h4⟩ := free_bind_inv h2
  obtain rfl := lastIs_state h3
  cases y with
  | true =>
    refine ⟨fun _ => ?_, fun h => absurd h3 h⟩
    obtain ⟨m, s4, _, h7⟩ := free_bind_inv h4
    obtain ⟨_, s5, c1, c2, h8, h9, hc⟩ := bind_inv h7
    obtain ⟨_, _, h10⟩ := pure_inv h9
    rw [hc, h10, (charge_inv h8).2]; exact Bill.add_zero _
  | false =>
    refine ⟨fun h => ?_, fun _ => ?_⟩
    · rw [h3] at h; injection h with h; cases h
    · obtain ⟨x, s5, c1, c2, h8, h9, hc⟩ := bind_inv h4
      cases x with
      | none => cases (free_inv h9).1
      | some p =>
        obtain ⟨m, s6, _, h10⟩ := free_bind_inv h9
        exact ⟨p, s5, by rw [h8, hc, (pure_inv h10).2.2, Bill.add_zero]⟩

end Cost

section last

variable {K V : Type} [KeyEqual K] [DecidableEq K] [DecidableEq V] {O : Oracle K V} {s : St (Cache K V) K V} {k : K}

theorem Reachable.map_length (hO : NoListFault O) (h : Reachable O s) : s.c.map.length = count s.c := by
  obtain ⟨t, hr, _⟩ := h.rel hO
  rw [hr.count, hr.rep.map.length_eq, List.length_map]

theorem Reachable.lastIs_iff (hO : NoListFault O) (h : Reachable O s) :
    (Impl.lastIs k : Impl.CM K V Bool) s = .ok true s ↔ Remembers s.c k := by
  have run : ∀ x ∈ elements s.c, s.c.last = some x.addr →
      (Impl.lastIs k : Impl.CM K V Bool) s = .ok (keq k x.key) s := by
    intro x hx hl
    have hd : (Impl.deref x.addr : Impl.CM K V _) s = .ok x s := by
      obtain ⟨t, hr, ht⟩ := h.rel hO
      obtain ⟨e, he, rfl, _⟩ := hr.ent_of_mem ht hx
      unfold Impl.deref
      rw [hr.rep.find_addr hr.awf, show (t.c.ents.find? fun y => y.id == e.node.addr) = some e from
        find?_key (f := fun y : Ent K V => y.id) ht.awf.ids he]
      rfl
    unfold Impl.lastIs
    rw [bind_ok (m := Impl.getLast) (s := s) rfl, hl]
    show (Impl.deref x.addr >>= fun n => pure (keq k n.key) : Impl.CM K V Bool) s = _
    rw [bind_ok hd]
    rfl
  constructor
  · intro h1
    cases hl : s.c.last with
    | none =>
      unfold Impl.lastIs at h1
      rw [bind_ok (m := Impl.getLast) (s := s) rfl, hl] at h1
      injection h1 with h1
      cases h1
    | some p =>
      obtain ⟨t, hr, ht⟩ := h.rel hO
      obtain ⟨e, he, hp⟩ := ht.clean.last p (by rw [← hr.rep.last, hl])
      have hx : e.node ∈ elements s.c := by rw [hr.elements]; exact List.mem_map_of_mem he
      have hl' : s.c.last = some e.node.addr := by rw [hl, ← hp]; rfl
      have := run _ hx hl'
      rw [h1] at this
      injection this with this
      exact ⟨e.node, hx, hl', this.symm⟩
  · rintro ⟨x, hx, hl, hk⟩
    rw [run x hx hl, hk]

end last

end LRU
