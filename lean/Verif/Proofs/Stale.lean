import Verif.Proofs.Equal
import Verif.Proofs.Own
/-!
# Calls on caches whose list iterators are stale

In a copy the list iterators stored in the map lead into the recency list of the original, and the last-accessed pointer
to a node of the original (`World.lean`, `copyOf`).
-/

set_option linter.unusedSectionVars false
set_option autoImplicit false

namespace LRU

variable {K V : Type} [KeyEqual K]

/-- No list iterator of the cache leads to a position of the cache, and the last-accessed pointer does not lead to a node
of the cache. -/
structure Stale (t : St (MCache K V) K V) : Prop where
  ords : ∀ e ∈ t.c.ents, ∀ q, e.ord = some q → q ∉ t.c.ents.map (·.slot)
  last : ∀ p, t.c.last = some p → p ∉ t.c.ents.map (·.id)

theorem find_slot_none {t : St (MCache K V) K V} {q : Ptr} (h : q ∉ t.c.ents.map (·.slot)) :
    t.c.ents.find? (fun e => e.slot == q) = none := by
  rw [List.find?_eq_none]
  intro x hx h1
  exact h (List.mem_map.2 ⟨x, hx, eq_of_beq h1⟩)

theorem find_id_none {t : St (MCache K V) K V} {q : Ptr} (h : q ∉ t.c.ents.map (·.id)) :
    t.c.ents.find? (fun e => e.id == q) = none := by
  rw [List.find?_eq_none]
  intro x hx h1
  exact h (List.mem_map.2 ⟨x, hx, eq_of_beq h1⟩)

theorem eraseNode_astray {t : St (MCache K V) K V} {n : MapNode K V}
    (h : ∀ q, n.info.order = some q → q ∉ t.c.ents.map (·.slot)) : Mid.eraseNode n t = .ub := by
  unfold Mid.eraseNode
  cases hq : n.info.order with
  | none => rfl
  | some q => simp only [find_slot_none (h q hq)]

theorem moveToFront_astray {t : St (MCache K V) K V} {it : Option Ptr}
    (h : ∀ q, it = some q → q ∉ t.c.ents.map (·.slot)) (hn : t.c.ents.length ≠ 1) : Mid.moveToFront it t = .ub := by
  unfold Mid.moveToFront
  rw [bind_ok (show Mid.size t = .ok t.c.ents.length t from rfl), if_neg hn]
  unfold Mid.spliceToEnd
  cases it with
  | none => rfl
  | some q => simp only [find_slot_none (h q rfl)]

variable [DecidableEq K] [DecidableEq V] {O : Oracle K V}

/-- `key == _last_accessed` in a stale cache. -/
theorem lastIs_stale {t : St (MCache K V) K V} (h : Stale t) (k : K) :
    Mid.lastIs k t = .ub ∨ Mid.lastIs k t = .ok false t ∨
      ∃ p n, t.c.last = some p ∧ n ∈ t.g.ext ∧ n.addr = p ∧ keq k n.key = true ∧ Mid.lastIs k t = .ok true t ∧
        Mid.lastNode t = .ok n t := by
  have hg : Mid.getLast t = .ok t.c.last t := rfl
  unfold Mid.lastIs Mid.lastNode
  rw [bind_ok hg, bind_ok hg]
  cases hl : t.c.last with
  | none => exact .inr (.inl rfl)
  | some p =>
    simp only
    cases hx : t.g.ext.find? (fun n => n.addr == p) with
    | none =>
      have hd : Mid.deref p t = .ub := by
        unfold Mid.deref
        simp only [find_id_none (h.last p hl), hx]
      rw [bind_ub hd]
      exact .inl rfl
    | some n =>
      have hd : Mid.deref p t = .ok n t := by
        unfold Mid.deref
        simp only [find_id_none (h.last p hl), hx]
      rw [bind_ok hd]
      cases hk : keq k n.key with
      | false => exact .inr (.inl rfl)
      | true =>
        refine .inr (.inr ⟨p, n, rfl, List.mem_of_find?_eq_some hx, ?_, hk, rfl, hd⟩)
        have := List.find?_some hx
        exact eq_of_beq this

/-- Erasing a stored key of a stale cache is undefined. -/
theorem erase_stale {s : St (Cache K V) K V} {t : St (MCache K V) K V} (hr : Rel s t) (h : Stale t) {e : Ent K V}
    (he : e ∈ t.c.ents) {k : K} (hk : keq e.key k = true) : Mid.step O (.erase k) t = .ub := by
  show Impl.ret (Mid.erase k) _ t = .ub
  refine ret_ub ?_
  unfold Mid.erase
  have inv : ∀ (n : MapNode K V), (∀ q, n.info.order = some q → q ∉ t.c.ents.map (·.slot)) →
      (Mid.invalidateIf n.key >>= fun _ => Mid.eraseNode n : Mid.CM K V Unit) t = .ub := by
    intro n hn
    rcases lastIs_stale h n.key with h1 | h1 | ⟨p, m, -, -, -, -, h1, -⟩
    · rw [bind_ub (by unfold Mid.invalidateIf; rw [bind_ub h1])]
    · rw [bind_ok (a := ()) (s' := t) (by unfold Mid.invalidateIf; rw [bind_ok h1]; rfl)]
      exact eraseNode_astray hn
    · rw [bind_ok (a := ()) (s' := ⟨{ t.c with last := none }, t.g⟩)
        (by unfold Mid.invalidateIf; rw [bind_ok h1]; rfl)]
      exact eraseNode_astray (t := ⟨{ t.c with last := none }, t.g⟩) hn
  rcases lastIs_stale h k with h1 | h1 | ⟨p, n, hp, hn, hnp, -, h1, h2⟩
  · rw [bind_ub h1]
  · rw [bind_ok h1, if_neg (by simp)]
    have hf : t.c.ents.find? (fun x => keq x.key k) = some e :=
      find?_of_unique he hk (fun y hy hy' => key_inj_of_pairwise' hr.awf.keys y hy e he hy' hk)
    have hm : Mid.mapFind k t = .ok (some e.node) t := by
      unfold Mid.mapFind
      rw [hf]
      rfl
    rw [bind_ok hm]
    simp only
    have h3 : Mid.eraseIt (some e.node.addr) t = .ub := by
      unfold Mid.eraseIt
      have hd : Mid.derefIt (some e.node.addr) t = .ok e.node t := by
        unfold Mid.derefIt
        simp only [show e.node.addr = e.id from rfl, find?_key hr.awf.ids he]
      rw [bind_ok hd]
      exact inv e.node (h.ords e he)
    rw [bind_ub h3]
  · rw [bind_ok h1, if_pos rfl, bind_ok h2]
    have hq : ∀ q, n.info.order = some q → q ∉ t.c.ents.map (·.slot) := fun q hq =>
      (hr.awf.foreign p n q hp (h.last p hp) hn hnp hq).1
    rw [bind_ub (show Mid.eraseKeyInfo n t = .ub from inv n hq)]

/-- Finding a stored key of a plain stale cache never returns. -/
theorem find_stale {s : St (Cache K V) K V} {t : St (MCache K V) K V} (hr : Rel s t) (h : Stale t) {e : Ent K V}
    (he : e ∈ t.c.ents) {k : K} (hk : keq e.key k = true) (hb : t.c.kind = .basic) (hn : t.c.ents.length ≠ 1) :
    Mid.find O k t = .ub ∨ ∃ g, Mid.find O k t = .throw .user ⟨t.c, g⟩ := by
  have hf : t.c.ents.find? (fun x => keq x.key k) = some e :=
    find?_of_unique he hk (fun y hy hy' => key_inj_of_pairwise' hr.awf.keys y hy e he hy' hk)
  have hm : Mid.mapFind k t = .ok (some e.node) t := by
    unfold Mid.mapFind
    rw [hf]
    rfl
  unfold Mid.find
  rw [bind_ok (show Mid.getObs t = .ok t.c.obs t from rfl), bind_ok hm]
  simp only
  have hx : Mid.hasExpiredInfo O e.node.info.time t = .ok false t := by
    unfold Mid.hasExpiredInfo
    rw [bind_ok (show Mid.getKind t = .ok t.c.kind t from rfl), hb]
    rfl
  rw [bind_ok hx, if_neg (by simp)]
  rcases registerHit_cases (O := O) t.c.obs k e.node.info.value t with ⟨h1, -⟩ | ⟨n, cb, -, -, h1⟩
  · rw [bind_ok h1, bind_ub (moveToFront_astray (t := ⟨t.c, hitG t.c.obs k e.node.info.value t.g⟩) (it := e.node.info.order)
      (h.ords e he) hn)]
    exact .inl rfl
  · rw [bind_throw h1]
    exact .inr ⟨_, rfl⟩

/-- A fresh copy, as seen by the list machine. -/
theorem copy_stale {b c : Cache K V} {n : Ptr} (hb : LWf b n) (hc : Impl.copyOf O n b = some c) :
    ∃ a, Rep b a ∧ AWF a (baseG n) ∧ Rep c (a.copy n) ∧
      (∀ e ∈ (a.copy n).ents, ∀ q, e.ord = some q → q ∉ (a.copy n).ents.map (·.slot)) ∧
      (∀ p, (a.copy n).last = some p → p ∉ (a.copy n).ents.map (·.id)) := by
  obtain ⟨a, hr, hw⟩ := hb
  obtain ⟨c', h1, h2⟩ := copyOf_rep (O := O) hr hw n
  rw [hc] at h1
  injection h1 with h1
  subst h1
  refine ⟨a, hr, hw, h2, ?_, ?_⟩
  · intro x hx q hq hs
    obtain ⟨e, he, q', -, -, rfl⟩ := copyEnts_mem hx
    obtain ⟨y, hy, rfl⟩ := List.mem_map.1 hs
    obtain ⟨e2, he2, q2, h3, -, rfl⟩ := copyEnts_mem hy
    have h4 := (hw.lt e he).2.2 _ hq
    exact absurd (Nat.lt_of_lt_of_le h4 (Nat.le_trans (Nat.le_add_right _ _) h3)) (Nat.lt_irrefl _)
  · intro p hp hs
    obtain ⟨y, hy, rfl⟩ := List.mem_map.1 hs
    obtain ⟨e2, he2, q2, -, -, rfl⟩ := copyEnts_mem hy
    have h4 := hw.lastLt _ hp
    exact absurd (Nat.lt_of_lt_of_le h4 (Nat.le_add_right _ _)) (Nat.lt_irrefl _)

end LRU
