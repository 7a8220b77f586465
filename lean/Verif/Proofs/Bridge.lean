import Verif.Proofs.Own
/-!
# From statements about reachable caches to the list machine
-/

set_option linter.unusedSectionVars false

namespace LRU

variable {K V : Type} [KeyEqual K]

section inv

variable {σ α : Type}

theorem ret_ok_inv {m : M σ α} {f : α → Res K V} {s s' : σ} {r : Res K V} (h : Impl.ret m f s = .ok r s') :
    ∃ a, m s = .ok a s' ∧ r = f a := by
  have h' : M.bind m (fun a => M.pure (f a)) s = .ok r s' := h
  unfold M.bind at h'
  cases hm : m s with
  | ok a s1 =>
    rw [hm] at h'
    have h'' : Out.ok (f a) s1 = .ok r s' := h'
    injection h'' with h1 h2
    exact ⟨a, by rw [h2], h1.symm⟩
  | throw e s1 => rw [hm] at h'; cases h'
  | ub => rw [hm] at h'; cases h'
  | terminate => rw [hm] at h'; cases h'
  | diverge => rw [hm] at h'; cases h'

theorem ret_throw_inv {m : M σ α} {f : α → Res K V} {s s' : σ} {e : Err} (h : Impl.ret m f s = .throw e s') :
    m s = .throw e s' := by
  have h' : M.bind m (fun a => M.pure (f a)) s = .throw e s' := h
  unfold M.bind at h'
  cases hm : m s with
  | ok a s1 =>
    rw [hm] at h'
    have h'' : Out.ok (f a) s1 = .throw e s' := h'
    cases h''
  | throw e1 s1 =>
    rw [hm] at h'
    have h'' : Out.throw e1 s1 = (.throw e s' : Out σ (Res K V)) := h'
    injection h'' with h1 h2
    rw [h1, h2]
  | ub => rw [hm] at h'; cases h'
  | terminate => rw [hm] at h'; cases h'
  | diverge => rw [hm] at h'; cases h'

end inv

theorem Rel.elements {s : St (Cache K V) K V} {t : St (MCache K V) K V} (h : Rel s t) :
    elements s.c = t.c.ents.map Ent.node := by
  unfold LRU.elements
  rw [h.rep.order]
  have key : ∀ l : List (Ent K V), (∀ e ∈ l, e ∈ t.c.ents) →
      (l.map Ent.lnode).filterMap (fun l => s.c.map.find? (fun n => n.addr == l.ref)) = l.map Ent.node := by
    intro l
    induction l with
    | nil => intro _; rfl
    | cons e r ih =>
      intro hl
      have he := hl e (List.mem_cons_self ..)
      have : s.c.map.find? (fun n => n.addr == e.lnode.ref) = some e.node := by
        rw [h.rep.find_addr h.awf, show e.lnode.ref = e.id from rfl, find?_key h.awf.ids he]
        rfl
      rw [List.map_cons, List.filterMap_cons, this, List.map_cons, ih (fun x hx => hl x (List.mem_cons_of_mem _ hx))]
  exact key _ (fun _ h => h)

theorem Rel.entryFor {s : St (Cache K V) K V} {t : St (MCache K V) K V} (h : Rel s t) (k : K) :
    entryFor s.c k = (t.c.ents.find? (fun e => keq e.key k)).map Ent.node := by
  unfold LRU.entryFor
  rw [h.elements, find?_map_eq]
  rfl

theorem Rel.stored {s : St (Cache K V) K V} {t : St (MCache K V) K V} (h : Rel s t) {k : K} :
    Stored s.c k ↔ ∃ e, t.c.ents.find? (fun e => keq e.key k) = some e := by
  unfold Stored
  rw [h.elements]
  constructor
  · rintro ⟨n, hn, hk⟩
    obtain ⟨e, he, rfl⟩ := List.mem_map.1 hn
    cases hf : t.c.ents.find? (fun e => keq e.key k) with
    | some x => exact ⟨x, rfl⟩
    | none =>
      have := List.find?_eq_none.1 hf e he
      exact absurd hk this
  · rintro ⟨e, he⟩
    obtain ⟨h1, h2⟩ := find_mem he
    exact ⟨e.node, List.mem_map.2 ⟨e, h1, rfl⟩, h2⟩

theorem Rel.others {s : St (Cache K V) K V} {t : St (MCache K V) K V} (h : Rel s t) (k : K) :
    others s.c k = (t.c.ents.filter (fun e => !keq e.key k)).map Ent.node := by
  unfold LRU.others
  rw [h.elements, List.filter_map]
  rfl

theorem Ok.without_eq {t : St (MCache K V) K V} (h : Ok t) {e : Ent K V} {k : K}
    (he : t.c.ents.find? (fun e => keq e.key k) = some e) :
    without e t.c.ents = t.c.ents.filter (fun x => !keq x.key k) := by
  obtain ⟨hm, hk⟩ := find_mem he
  unfold without
  apply List.filter_congr
  intro x hx
  by_cases hxe : x = e
  · subst hxe; simp [hk]
  · have h1 : x.slot ≠ e.slot := fun hs => hxe (map_inj_of_nodup h.awf.slots x hx e hm hs)
    have h2 : keq x.key k = false := by
      cases hxk : keq x.key k with
      | false => rfl
      | true => exact absurd (key_inj_of_pairwise' h.awf.keys x hx e hm hxk hk) hxe
    simp [h1, h2]

theorem Rel.map_length {s : St (Cache K V) K V} {t : St (MCache K V) K V} (h : Rel s t) :
    s.c.map.length = t.c.ents.length := h.rep.length

section steps

variable [DecidableEq K] [DecidableEq V] {O : Oracle K V}

theorem Rel.returns (hO : NoListFault O) {s s' : St (Cache K V) K V} {t : St (MCache K V) K V} {op : Op K V}
    {r : Res K V} (hr : Rel s t) (ht : Ok t) (hd : Returns O op s r s') :
    ∃ t', Mid.step O op t = .ok r t' ∧ Rel s' t' ∧ Step t t' := by
  have h1 := step_sim hO op s t hr trivial
  have h2 := step_keeps hO op t ht
  rw [hd] at h1
  cases hm : Mid.step O op t <;> rw [hm] at h1 h2 <;> first | exact h1.elim | skip
  obtain ⟨rfl, h3, -⟩ := h1
  exact ⟨_, rfl, h3, h2⟩

theorem Rel.throws (hO : NoListFault O) {s s' : St (Cache K V) K V} {t : St (MCache K V) K V} {op : Op K V}
    {e : Err} (hr : Rel s t) (ht : Ok t) (hd : Throws O op s e s') :
    ∃ t', Mid.step O op t = .throw e t' ∧ Rel s' t' ∧ Step t t' := by
  have h1 := step_sim hO op s t hr trivial
  have h2 := step_keeps hO op t ht
  rw [hd] at h1
  cases hm : Mid.step O op t <;> rw [hm] at h1 h2 <;> first | exact h1.elim | skip
  obtain ⟨rfl, h3⟩ := h1
  exact ⟨_, rfl, h3, h2⟩

theorem Rel.back_ok (hO : NoListFault O) {s : St (Cache K V) K V} {t t' : St (MCache K V) K V} {op : Op K V}
    {r : Res K V} (hr : Rel s t) (hd : Mid.step O op t = .ok r t') :
    ∃ s', Returns O op s r s' ∧ Rel s' t' := by
  have h1 := step_sim hO op s t hr trivial
  rw [hd] at h1
  cases hm : Impl.step O op s <;> rw [hm] at h1 <;> first | exact h1.elim | skip
  obtain ⟨rfl, h3, -⟩ := h1
  exact ⟨_, hm, h3⟩

theorem Rel.back_throw (hO : NoListFault O) {s : St (Cache K V) K V} {t t' : St (MCache K V) K V} {op : Op K V}
    {e : Err} (hr : Rel s t) (hd : Mid.step O op t = .throw e t') :
    ∃ s', Throws O op s e s' ∧ Rel s' t' := by
  have h1 := step_sim hO op s t hr trivial
  rw [hd] at h1
  cases hm : Impl.step O op s <;> rw [hm] at h1 <;> first | exact h1.elim | skip
  obtain ⟨rfl, h3⟩ := h1
  exact ⟨_, hm, h3⟩

/-- A call on a reachable cache that returns, seen on the list machine. -/
theorem Reachable.returns (hO : NoListFault O) {s s' : St (Cache K V) K V} {op : Op K V} {r : Res K V}
    (h : Reachable O s) (hd : Returns O op s r s') :
    ∃ t t', Rel s t ∧ Ok t ∧ Mid.step O op t = .ok r t' ∧ Rel s' t' ∧ Step t t' := by
  obtain ⟨t, hr, ht⟩ := h.rel hO
  obtain ⟨t', h1, h2, h3⟩ := hr.returns hO ht hd
  exact ⟨t, t', hr, ht, h1, h2, h3⟩

theorem Reachable.throws (hO : NoListFault O) {s s' : St (Cache K V) K V} {op : Op K V} {e : Err}
    (h : Reachable O s) (hd : Throws O op s e s') :
    ∃ t t', Rel s t ∧ Ok t ∧ Mid.step O op t = .throw e t' ∧ Rel s' t' ∧ Step t t' := by
  obtain ⟨t, hr, ht⟩ := h.rel hO
  obtain ⟨t', h1, h2, h3⟩ := hr.throws hO ht hd
  exact ⟨t, t', hr, ht, h1, h2, h3⟩

theorem viewOf_set (w : World K V) (i : Nat) (s' : St (Cache K V) K V)
    (h : s'.g.ext = Impl.allNodes (w.caches.set i none)) :
    viewOf ⟨w.caches.set i (some s'.c), s'.g⟩ i s'.c = s' := by
  unfold viewOf
  simp only [List.set_set, ← h]

theorem ownAfter_call {w : World K V} {own : Nat → Bool} {i : Nat} {op : Op K V} (h : own i = true) :
    ownAfter w own (.op i op) i = true := by
  show (if op.discards then mark own i true else own) i = true
  split
  · exact mark_eq
  · exact h

/-- The state a call leaves behind is reachable again. -/
theorem Reachable.after (hO : NoListFault O) {s s' : St (Cache K V) K V} {op : Op K V} {r : Res K V}
    (h : Reachable O s) (hd : Returns O op s r s') : Reachable O s' := by
  obtain ⟨t, t', hr, ht, hm, hr', hst⟩ := h.returns hO hd
  obtain ⟨w, own, i, c, hw, hi, hc, rfl⟩ := h
  have hext : s'.g.ext = Impl.allNodes (w.caches.set i none) := by
    rw [hr'.g, hst.ext, ← hr.g]
    rfl
  refine ⟨⟨w.caches.set i (some s'.c), s'.g⟩, ownAfter w own (.op i op), i, s'.c, ?_, ownAfter_call hi, ?_, (viewOf_set w i s' hext).symm⟩
  · refine Prog.step (r := r) (.op i op) hw ?_
    show Impl.onCache i (Impl.step O op) w = _
    unfold Impl.onCache
    rw [hc]
    have hd' : Impl.step O op (viewOf w i c) = .ok r s' := hd
    unfold viewOf at hd'
    simp only [hd']
  · have hlt : i < w.caches.length := (List.getElem?_eq_some_iff.1 hc).1
    simp [List.getElem?_set, hlt]

theorem Reachable.afterThrow (hO : NoListFault O) {s s' : St (Cache K V) K V} {op : Op K V} {e : Err}
    (h : Reachable O s) (hd : Throws O op s e s') : Reachable O s' := by
  obtain ⟨t, t', hr, ht, hm, hr', hst⟩ := h.throws hO hd
  obtain ⟨w, own, i, c, hw, hi, hc, rfl⟩ := h
  have hext : s'.g.ext = Impl.allNodes (w.caches.set i none) := by
    rw [hr'.g, hst.ext, ← hr.g]
    rfl
  refine ⟨⟨w.caches.set i (some s'.c), s'.g⟩, ownAfter w own (.op i op), i, s'.c, ?_, ownAfter_call hi, ?_, (viewOf_set w i s' hext).symm⟩
  · refine Prog.throw (e := e) (.op i op) hw ?_
    show Impl.onCache i (Impl.step O op) w = _
    unfold Impl.onCache
    rw [hc]
    have hd' : Impl.step O op (viewOf w i c) = .throw e s' := hd
    unfold viewOf at hd'
    simp only [hd']
  · have hlt : i < w.caches.length := (List.getElem?_eq_some_iff.1 hc).1
    simp [List.getElem?_set, hlt]

end steps

end LRU
