import Verif.Proofs.Struct
import Verif.Spec.Environment
/-!
# Simulation of the insertion of a new node
-/

set_option linter.unusedSectionVars false

namespace LRU

variable {K V : Type} [KeyEqual K]

theorem bind_ok {σ α β : Type} {m : M σ α} {f : α → M σ β} {s s' : σ} {a : α} (h : m s = .ok a s') :
    (m >>= f) s = f a s' := by
  show M.bind m f s = _
  unfold M.bind
  rw [h]

theorem bind_ub {σ α β : Type} {m : M σ α} {f : α → M σ β} {s : σ} (h : m s = .ub) :
    (m >>= f) s = .ub := by
  show M.bind m f s = _
  unfold M.bind
  rw [h]

theorem bind_setSelf {β : Type} {h : Unit → Impl.CM K V β} {f : Cache K V → Cache K V} {s} :
    (Impl.setSelf f >>= h) s = h () ⟨f s.c, s.g⟩ := rfl

/-- Appending a new entry with fresh addresses. -/
theorem AWF.snoc {a : MCache K V} {g g' : Shared K V} (w : AWF a g) {e : Ent K V} {l : List (Ent K V)}
    (hl : l.Sublist a.ents) (hext : g'.ext = g.ext) (hnext : g.next ≤ g'.next)
    (hid : g.next ≤ e.id) (hid' : e.id < g'.next) (hslot : ∀ x ∈ l, x.slot ≠ e.slot)
    (hslot' : e.slot < g'.next) (hord : e.ord = some e.slot)
    (hkey : ∀ x ∈ l, keq x.key e.key = false)
    (hlink : ∀ x ∈ l, x.ord ≠ some e.slot)
    (hforeign : ∀ p n, a.last = some p → p ∉ l.map (·.id) → n ∈ g.ext → n.addr = p →
      n.info.order ≠ some e.slot)
    (hb : ∀ n, a.cap = some n → l.length < n) (hc : a.cap ≠ none) :
    AWF { a with ents := l ++ [e] } g' := by
  have w' := w.sublist hl
  have hlt : ∀ x ∈ l, x.id ≠ e.id := by
    intro x hx h
    have := (w.lt x (hl.subset hx)).1
    rw [h] at this
    exact absurd this (Nat.not_lt.2 hid)
  exact {
    ids := by
      simp only [List.map_append, List.map_cons, List.map_nil]
      rw [List.nodup_append]
      refine ⟨w'.ids, by simp, ?_⟩
      intro x hx y hy
      simp only [List.mem_singleton] at hy
      subst hy
      obtain ⟨z, hz, rfl⟩ := List.mem_map.1 hx
      exact hlt z hz
    slots := by
      simp only [List.map_append, List.map_cons, List.map_nil]
      rw [List.nodup_append]
      refine ⟨w'.slots, by simp, ?_⟩
      intro x hx y hy
      simp only [List.mem_singleton] at hy
      subst hy
      obtain ⟨z, hz, rfl⟩ := List.mem_map.1 hx
      exact hslot z hz
    keys := by
      rw [List.pairwise_append]
      refine ⟨w'.keys, by simp, ?_⟩
      intro x hx y hy
      simp only [List.mem_singleton] at hy
      subst hy
      exact hkey x hx
    linked := by
      intro x hx q hq hm
      simp only [List.map_append, List.map_cons, List.map_nil, List.mem_append, List.mem_singleton] at hx hm
      rcases hx with hx | hx
      · rcases hm with hm | hm
        · exact w'.linked x hx q hq hm
        · rw [hm] at hq
          exact absurd hq (hlink x hx)
      · subst hx
        rw [hord] at hq
        exact (Option.some.inj hq).symm
    bound := by
      intro n hn
      have := hb n hn
      show (l ++ [e]).length ≤ n
      simp only [List.length_append, List.length_singleton]
      omega
    capNone := fun h => absurd h hc
    lt := by
      intro x hx
      simp only [List.mem_append, List.mem_singleton] at hx
      rcases hx with hx | hx
      · obtain ⟨h1, h2, h3⟩ := w.lt x (hl.subset hx)
        exact ⟨Nat.lt_of_lt_of_le h1 hnext, Nat.lt_of_lt_of_le h2 hnext,
          fun q hq => Nat.lt_of_lt_of_le (h3 q hq) hnext⟩
      · subst hx
        refine ⟨hid', hslot', ?_⟩
        intro q hq
        rw [hord] at hq
        exact (Option.some.inj hq) ▸ hslot'
    foreign := by
      intro p n q h1 h2 h3 h4 h5
      simp only [List.map_append, List.map_cons, List.map_nil, List.mem_append, List.mem_singleton,
        not_or] at h2 ⊢
      rw [hext] at h3
      obtain ⟨h6, h7⟩ := w'.foreign p n q h1 h2.1 h3 h4 h5
      refine ⟨⟨h6, ?_⟩, Nat.lt_of_lt_of_le h7 hnext⟩
      intro hq
      rw [hq] at h5
      exact hforeign p n h1 h2.1 h3 h4 h5
    lastLt := fun p hp => Nat.lt_of_lt_of_le (w.lastLt p hp) hnext
    extDisj := by
      intro x hx n hn
      rw [hext] at hn
      simp only [List.mem_append, List.mem_singleton] at hx
      rcases hx with hx | hx
      · exact w.extDisj x (hl.subset hx) n hn
      · subst hx
        have := w.extLt n hn
        intro h
        rw [h] at this
        exact absurd this (Nat.not_lt.2 hid)
    extLt := by
      intro n hn
      rw [hext] at hn
      exact Nat.lt_of_lt_of_le (w.extLt n hn) hnext }

/-- `_insert_new_key` and the link, after the map node was created. -/
theorem placeNode_sim {O : Oracle K V} (hO : NoListFault O) {k : K} {v : V} {t : Int}
    {s : St (Cache K V) K V} {m : St (MCache K V) K V} (hr : Rel s m)
    (hk : ∀ e ∈ m.c.ents, keq e.key k = false) (p : Ptr) (hp : p = m.g.next) :
    OutRel Rel (fun _ t => Own p t.c)
      ((Impl.insertNewKey O p >>= fun q => Impl.setOrder p q >>= fun _ => pure ())
        ⟨{ s.c with map := O.shuffle p (⟨p, k, ⟨v, none, t⟩⟩ :: s.c.map) },
          { s.g with next := p + 1 }⟩)
      (Mid.placeNode O k v t p ⟨m.c, { m.g with next := p + 1 }⟩) := by
  have hperm : (O.shuffle p (⟨p, k, ⟨v, none, t⟩⟩ :: s.c.map)).Perm
      (⟨p, k, ⟨v, none, t⟩⟩ :: m.c.ents.map Ent.node) :=
    (O.shuffle_perm _ _).trans (hr.rep.map.cons _)
  generalize O.shuffle p (⟨p, k, ⟨v, none, t⟩⟩ :: s.c.map) = L at hperm ⊢
  have hlen : L.length = m.c.ents.length + 1 := by simpa using hperm.length_eq
  have hidlt : ∀ e ∈ m.c.ents, e.id ≠ p := by
    intro e he h
    have := (hr.awf.lt e he).1
    rw [h, hp] at this
    exact absurd this (Nat.lt_irrefl _)
  have hsetMap : ∀ (l : List (Ent K V)) (q : Ptr), (∀ e ∈ l, e ∈ m.c.ents) →
      (l.map Ent.node).map (fun n : MapNode K V =>
        if n.addr = p then { n with info := { n.info with order := some q } } else n) = l.map Ent.node := by
    intro l q hl
    rw [List.map_map]
    refine List.map_congr_left (fun e he => ?_)
    have : e.node.addr ≠ p := hidlt e (hl e he)
    simp [this]
  have hsz : ∀ (st : St (Cache K V) K V), Impl.size st = .ok st.c.map.length st := fun _ => rfl
  cases hcap : m.c.cap with
  | none =>
    simp only [Impl.insertNewKey, Impl.evictOrAppend, Mid.placeNode, Impl.size, Mid.size, Impl.readCapacity,
      Mid.readCapacity, bind, M.bind, hlen, hr.rep.cap, hcap]
    trivial
  | some cap =>
    have hcap' : s.c.capacity = some cap := by rw [hr.rep.cap, hcap]
    by_cases hfull : m.c.ents.length + 1 > cap
    · cases hents : m.c.ents with
      | nil =>
        rw [hents] at hfull hlen
        have h1 : Impl.evictOrAppend O p ⟨{ s.c with map := L }, { s.g with next := p + 1 }⟩ = .ub := by
          unfold Impl.evictOrAppend
          rw [bind_ok (hsz _)]
          rw [bind_ok (a := cap) (s' := ⟨{ s.c with map := L }, { s.g with next := p + 1 }⟩)]
          · simp only [hlen, hfull, if_true]
            unfold Impl.evictLruFor
            refine bind_ub ?_
            unfold Impl.orderFront
            rw [bind_ok (a := none) (s' := ⟨{ s.c with map := L }, { s.g with next := p + 1 }⟩)]
            · rfl
            · simp [Impl.orderFirst, hr.rep.order, hents]
          · simp [Impl.readCapacity, hcap']
        have h2 : Mid.placeNode O k v t p ⟨m.c, { m.g with next := p + 1 }⟩ = .ub := by
          rw [← hents] at hfull
          simp only [Mid.placeNode, Mid.size, Mid.readCapacity, bind, M.bind, hcap]
          rw [if_pos hfull]
          simp only [Mid.replaceFirst, hents]
        rw [h2, bind_ub]
        · trivial
        · unfold Impl.insertNewKey
          exact bind_ub h1
      | cons e r =>
        have hmem : ∀ x, x ∈ e :: r → x ∈ m.c.ents := by intro x hx; rw [hents]; exact hx
        have w := hr.awf
        have hpw := w.keys
        have hsl := w.slots
        rw [hents] at hperm hpw hsl
        rw [List.pairwise_cons] at hpw
        rw [List.map_cons, List.nodup_cons] at hsl
        have hfind : L.find? (fun n => n.addr == e.id) = some e.node := by
          refine find?_of_unique (hperm.mem_iff.2 (by simp)) (by simp [Ent.node]) ?_
          intro y hy hye
          simp only [beq_iff_eq] at hye
          have := hperm.mem_iff.1 hy
          rcases List.mem_cons.1 this with h | h
          · subst h
            exact absurd hye.symm (hidlt e (hmem e (by simp)))
          · obtain ⟨x, hx, rfl⟩ := List.mem_map.1 h
            rw [map_inj_of_nodup w.ids x (hmem x hx) e (hmem e (by simp)) hye]
        have hfilter : (L.filter (fun n => !keq n.key e.key)).Perm
            (⟨p, k, ⟨v, none, t⟩⟩ :: r.map Ent.node) := by
          refine (hperm.filter _).trans (.of_eq ?_)
          have h1 : keq k e.key = false := by rw [keq_comm]; exact hk e (hmem e (by simp))
          have h2 : (r.map Ent.node).filter (fun n => !keq n.key e.key) = r.map Ent.node := by
            rw [List.filter_eq_self]
            intro n hn
            obtain ⟨x, hx, rfl⟩ := List.mem_map.1 hn
            have := hpw.1 x hx
            rw [keq_comm] at this
            simp [Ent.node, this]
          simp only [List.map_cons, List.filter_cons, h1, Ent.node, KeyEqual.refl]
          simp only [Bool.not_false, if_true, Bool.not_true, Bool.false_eq_true, if_false]
          exact congrArg _ h2
        have hflen : (L.filter (fun n => !keq n.key e.key)).length = r.length + 1 := by
          simpa using hfilter.length_eq
        have hrslots : (r.map Ent.lnode).filter (fun n => n.addr != e.slot) = r.map Ent.lnode := by
          rw [List.filter_eq_self]
          intro n hn
          obtain ⟨x, hx, rfl⟩ := List.mem_map.1 hn
          have : x.slot ≠ e.slot := fun h => hsl.1 (List.mem_map.2 ⟨x, hx, h⟩)
          simpa [Ent.lnode] using this
        have hord : s.c.order = ⟨e.slot, e.id⟩ :: r.map Ent.lnode := by rw [hr.rep.order, hents]; rfl
        -- the state after `_move_to_front`
        have hmove : Impl.moveToFront (K := K) (V := V) (some e.slot)
            ⟨{ s.c with
                map := L.filter (fun n => !keq n.key e.key)
                order := ⟨e.slot, p⟩ :: r.map Ent.lnode }, { s.g with next := p + 1 }⟩ =
            .ok () ⟨{ s.c with
                map := L.filter (fun n => !keq n.key e.key)
                order := r.map Ent.lnode ++ [⟨e.slot, p⟩] }, { s.g with next := p + 1 }⟩ := by
          simp only [Impl.moveToFront, Impl.size, bind, M.bind, hflen]
          by_cases hr0 : r.length + 1 = 1
          · have : r = [] := List.length_eq_zero_iff.1 (by omega)
            subst this
            simp [pure, M.pure]
          · simp only [hr0, if_false]
            simp [Impl.spliceToEnd, Impl.derefOrder, bind, M.bind, Impl.setSelf, M.modify, hrslots]
        have hev : Impl.evictLruFor p ⟨{ s.c with map := L }, { s.g with next := p + 1 }⟩ =
            .ok () ⟨{ s.c with
                map := L.filter (fun n => !keq n.key e.key)
                order := r.map Ent.lnode ++ [⟨e.slot, p⟩] }, { s.g with next := p + 1 }⟩ := by
          have h1 : Impl.orderFront ⟨{ s.c with map := L }, { s.g with next := p + 1 }⟩ =
              .ok ⟨e.slot, e.id⟩ ⟨{ s.c with map := L }, { s.g with next := p + 1 }⟩ := by
            simp [Impl.orderFront, Impl.orderFirst, bind, M.bind, hord, pure, M.pure]
          have h2 : Impl.keyOf ⟨e.slot, e.id⟩ ⟨{ s.c with map := L }, { s.g with next := p + 1 }⟩ =
              .ok e.key ⟨{ s.c with map := L }, { s.g with next := p + 1 }⟩ := by
            simp [Impl.keyOf, Impl.deref, bind, M.bind, hfind, pure, M.pure, Ent.node]
          unfold Impl.evictLruFor
          unfold Impl.mapEraseKey
          rw [bind_ok h1, bind_ok h2, bind_setSelf, bind_setSelf, ← hmove]
          simp only [hord]
        have hins : Impl.insertNewKey O p ⟨{ s.c with map := L }, { s.g with next := p + 1 }⟩ =
            .ok e.slot ⟨{ s.c with
                map := L.filter (fun n => !keq n.key e.key)
                order := r.map Ent.lnode ++ [⟨e.slot, p⟩] }, { s.g with next := p + 1 }⟩ := by
          unfold Impl.insertNewKey
          have h1 : Impl.evictOrAppend O p ⟨{ s.c with map := L }, { s.g with next := p + 1 }⟩ =
              .ok () ⟨{ s.c with
                map := L.filter (fun n => !keq n.key e.key)
                order := r.map Ent.lnode ++ [⟨e.slot, p⟩] }, { s.g with next := p + 1 }⟩ := by
            unfold Impl.evictOrAppend
            rw [bind_ok (hsz _)]
            rw [bind_ok (a := cap) (s' := ⟨{ s.c with map := L }, { s.g with next := p + 1 }⟩)]
            · simp only [hlen, hfull, if_true]
              exact hev
            · simp [Impl.readCapacity, hcap']
          rw [bind_ok h1]
          simp [Impl.orderBack, Impl.orderLast, bind, M.bind, pure, M.pure]
        rw [bind_ok hins]
        have hmid : Mid.placeNode O k v t p ⟨m.c, { m.g with next := p + 1 }⟩ =
            .ok () ⟨{ m.c with ents := r ++ [⟨p, e.slot, k, v, t, some e.slot⟩] }, { m.g with next := p + 1 }⟩ := by
          simp only [Mid.placeNode, Mid.size, Mid.readCapacity, bind, M.bind, hcap]
          rw [if_pos hfull]
          simp only [Mid.replaceFirst, hents, hcap]
        rw [hmid]
        refine ⟨rfl, ⟨?_, ?_, ?_⟩, ?_⟩
        · refine { order := ?_, map := ?_, last := hr.rep.last, cap := hr.rep.cap, kind := hr.rep.kind, obs := hr.rep.obs }
          · simp [Ent.lnode]
          · refine (hfilter.map _).trans ?_
            rw [List.map_cons, hsetMap r e.slot (fun x hx => hmem x (by simp [hx])), List.map_append]
            simp only [if_true]
            exact List.perm_append_comm (l₁ := [_])
        · simp [hr.g]
        · refine w.snoc (e := ⟨p, e.slot, k, v, t, some e.slot⟩) (l := r) ?_ rfl ?_ ?_ ?_ ?_ ?_ rfl ?_ ?_ ?_ ?_ ?_
          · rw [hents]; exact List.sublist_cons_self _ _
          · rw [hp]; exact Nat.le_succ _
          · rw [hp]; exact Nat.le_refl _
          · exact Nat.lt_succ_self p
          · intro x hx h
            exact hsl.1 (List.mem_map.2 ⟨x, hx, h⟩)
          · have := (w.lt e (hmem e (by simp))).2.1
            rw [← hp] at this
            exact Nat.lt_succ_of_lt this
          · intro x hx
            exact hk x (hmem x (by simp [hx]))
          · intro x hx h
            have := w.linked x (hmem x (by simp [hx])) e.slot h (by rw [hents]; simp)
            exact hsl.1 (List.mem_map.2 ⟨x, hx, this.symm⟩)
          · intro q n h1 h2 h3 h4 h5
            have hq : q ∉ m.c.ents.map (·.id) := by
              rw [hents, List.map_cons, List.mem_cons, not_or]
              refine ⟨?_, h2⟩
              intro h
              exact w.extDisj e (hmem e (by simp)) n h3 (h4.trans h)
            have := (w.foreign q n e.slot h1 hq h3 h4 h5).1
            exact this (by rw [hents]; simp)
          · intro n hn
            have := w.bound n hn
            rw [hents, List.length_cons] at this
            exact this
          · rw [hcap]; simp
        · exact ⟨_, List.mem_append_right _ (List.mem_singleton.2 rfl), rfl⟩
    · have w := hr.awf
      have hnl := hO s.g.steps
      have hins : Impl.insertNewKey O p ⟨{ s.c with map := L }, { s.g with next := p + 1 }⟩ =
          .ok (p + 1) ⟨{ s.c with map := L, order := s.c.order ++ [⟨p + 1, p⟩] },
            { s.g with next := p + 1 + 1, steps := s.g.steps + 1 }⟩ := by
        unfold Impl.insertNewKey
        have h1 : Impl.evictOrAppend O p ⟨{ s.c with map := L }, { s.g with next := p + 1 }⟩ =
            .ok () ⟨{ s.c with map := L, order := s.c.order ++ [⟨p + 1, p⟩] },
            { s.g with next := p + 1 + 1, steps := s.g.steps + 1 }⟩ := by
          unfold Impl.evictOrAppend
          rw [bind_ok (hsz _)]
          rw [bind_ok (a := cap) (s' := ⟨{ s.c with map := L }, { s.g with next := p + 1 }⟩)]
          · simp only [hlen, hfull, if_false]
            simp [Impl.orderAppend, attempt, hnl, bind, M.bind, alloc, Impl.setSelf, M.modify]
          · simp [Impl.readCapacity, hcap']
        rw [bind_ok h1]
        simp [Impl.orderBack, Impl.orderLast, bind, M.bind, pure, M.pure]
      rw [bind_ok hins]
      have hmid : Mid.placeNode O k v t p ⟨m.c, { m.g with next := p + 1 }⟩ =
          .ok () ⟨{ m.c with ents := m.c.ents ++ [⟨p, p + 1, k, v, t, some (p + 1)⟩] },
            { m.g with next := p + 1 + 1, steps := m.g.steps + 1 }⟩ := by
        rw [hr.g] at hnl
        simp only [Mid.placeNode, Mid.size, Mid.readCapacity, bind, M.bind, hcap]
        rw [if_neg hfull]
        simp [M.bind, attempt, hnl, alloc, Mid.setSelf, M.modify, hcap]
      rw [hmid]
      refine ⟨rfl, ⟨?_, ?_, ?_⟩, ?_⟩
      · refine { order := ?_, map := ?_, last := hr.rep.last, cap := hr.rep.cap, kind := hr.rep.kind, obs := hr.rep.obs }
        · simp [Ent.lnode, hr.rep.order]
        · refine (hperm.map _).trans ?_
          rw [List.map_cons, hsetMap m.c.ents (p + 1) (fun x hx => hx), List.map_append]
          simp only [if_true]
          exact List.perm_append_comm (l₁ := [_])
      · simp [hr.g]
      · refine w.snoc (e := ⟨p, p + 1, k, v, t, some (p + 1)⟩) (l := m.c.ents) (List.Sublist.refl _) rfl ?_ ?_ ?_ ?_ ?_ rfl hk ?_ ?_ ?_ ?_
        · rw [hp]; exact Nat.le_add_right _ 2
        · rw [hp]; exact Nat.le_refl _
        · exact Nat.lt_add_of_pos_right (n := p) (by decide : 0 < 2)
        · intro x hx h
          have h' := (w.lt x hx).2.1
          rw [h, hp] at h'
          exact absurd h' (Nat.not_lt.2 (Nat.le_succ _))
        · exact Nat.lt_succ_self (p + 1)
        · intro x hx h
          have h' := (w.lt x hx).2.2 _ h
          rw [hp] at h'
          exact absurd h' (Nat.not_lt.2 (Nat.le_succ _))
        · intro q n h1 h2 h3 h4 h5
          have h' := (w.foreign q n (p + 1) h1 h2 h3 h4 h5).2
          rw [hp] at h'
          exact absurd h' (Nat.not_lt.2 (Nat.le_succ _))
        · intro n hn
          rw [hcap] at hn
          cases hn
          omega
        · rw [hcap]; simp
      · exact ⟨_, List.mem_append_right _ (List.mem_singleton.2 rfl), rfl⟩

theorem insertNode_sim {O : Oracle K V} (hO : NoListFault O) {k : K} {v : V} {t : Int} :
    RSim (fun m => ∀ e ∈ m.c.ents, keq e.key k = false) (Impl.insertNode O k v t) (Mid.insertNode O k v t)
      (fun p m => Own p m.c) := by
  have key : Impl.insertNode O k v t = (attempt O .mapNode >>= fun _ => fun s =>
        (Impl.insertNewKey O s.g.next >>= fun q => Impl.setOrder s.g.next q >>= fun _ => pure s.g.next)
        ⟨{ s.c with map := O.shuffle s.g.next (⟨s.g.next, k, ⟨v, none, t⟩⟩ :: s.c.map) },
          { s.g with next := s.g.next + 1 }⟩) := by
    funext s
    simp only [Impl.insertNode, Impl.mapEmplace, bind, M.bind, attempt]
    cases O.fails Site.mapNode s.g.steps <;> simp [alloc, Impl.setSelf, M.modify, pure, M.pure]
  rw [key]
  refine (attempt_sim (P := fun c => ∀ e ∈ c.ents, keq e.key k = false) O).bind fun _ => ?_
  intro s m hr hk
  obtain ⟨sc, g⟩ := s
  obtain ⟨mc, g'⟩ := m
  obtain rfl : g = g' := hr.g
  have this := placeNode_sim hO (v := v) (t := t) hr hk g.next rfl
  have e1 : ∀ st, (Impl.insertNewKey O g.next >>= fun q => Impl.setOrder g.next q >>= fun _ =>
      (pure g.next : Impl.CM K V Ptr)) st =
      M.bind (Impl.insertNewKey O g.next >>= fun q => Impl.setOrder g.next q >>= fun _ => pure ())
        (fun _ => pure g.next) st := by
    intro st
    simp only [bind, M.bind]
    cases Impl.insertNewKey O g.next st <;> simp [Impl.setOrder, Impl.setSelf, M.modify, pure, M.pure]
  have e2 : (alloc >>= fun p => Mid.placeNode O k v t p >>= fun _ => (pure p : Mid.CM K V Ptr)) ⟨mc, g⟩ =
      M.bind (Mid.placeNode O k v t g.next) (fun _ => pure g.next)
        ⟨mc, { g with next := g.next + 1 }⟩ := rfl
  rw [e2]
  change OutRel Rel _ ((Impl.insertNewKey O g.next >>= fun q => Impl.setOrder g.next q >>= fun _ =>
      (pure g.next : Impl.CM K V Ptr)) ⟨{ sc with map := O.shuffle g.next (⟨g.next, k, ⟨v, none, t⟩⟩ :: sc.map) },
          { g with next := g.next + 1 }⟩) _
  rw [e1]
  unfold M.bind
  revert this
  dsimp only
  generalize (Impl.insertNewKey O g.next >>= fun q => Impl.setOrder g.next q >>= fun _ =>
      (pure () : Impl.CM K V Unit)) _ = x
  generalize Mid.placeNode O k v t g.next _ = y
  cases x <;> cases y <;>
    simp only [OutRel] <;> intro h <;> first | exact h.elim | exact h | skip
  exact ⟨rfl, h.2.1, h.2.2⟩

end LRU
