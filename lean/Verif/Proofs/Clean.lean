import Verif.Proofs.Sim
/-!
# The list machine on well-linked caches

On caches whose list iterators and last-accessed pointer are in order (`Clean`), every operation of the list
machine is evaluated to an explicit outcome.
-/

set_option linter.unusedSectionVars false

namespace LRU

variable {K V : Type} [KeyEqual K]

/-- All stored list iterators are right and the last-accessed pointer is null or points to an entry. -/
structure Clean (a : MCache K V) : Prop where
  linked : ∀ e ∈ a.ents, e.ord = some e.slot
  last : ∀ p, a.last = some p → Own p a

/-- Both invariants of a list-machine state. -/
structure Ok (t : St (MCache K V) K V) : Prop where
  awf : AWF t.c t.g
  clean : Clean t.c

section basics

variable {t : St (MCache K V) K V}

theorem Ok.findId (h : Ok t) {e : Ent K V} (he : e ∈ t.c.ents) :
    t.c.ents.find? (fun x => x.id == e.id) = some e :=
  find?_key h.awf.ids he

theorem Ok.findSlot (h : Ok t) {e : Ent K V} (he : e ∈ t.c.ents) :
    t.c.ents.find? (fun x => x.slot == e.slot) = some e :=
  find?_key h.awf.slots he

theorem Ok.findKey (h : Ok t) {e : Ent K V} (he : e ∈ t.c.ents) {k : K} (hk : keq e.key k = true) :
    t.c.ents.find? (fun x => keq x.key k) = some e :=
  find?_of_unique he hk (fun y hy hy' => key_inj_of_pairwise' h.awf.keys y hy e he hy' hk)

theorem find_mem {l : List (Ent K V)} {k : K} {e : Ent K V}
    (h : l.find? (fun x => keq x.key k) = some e) : e ∈ l ∧ keq e.key k = true := by
  have h2 := List.find?_some h
  exact ⟨List.mem_of_find?_eq_some h, h2⟩

/-- The entry `_last_accessed` points to. -/
def MCache.lastEnt (a : MCache K V) : Option (Ent K V) :=
  a.last.bind fun p => a.ents.find? (fun x => x.id == p)

theorem Ok.lastEnt (h : Ok t) {p : Ptr} (hp : t.c.last = some p) :
    ∃ e ∈ t.c.ents, e.id = p ∧ t.c.lastEnt = some e := by
  obtain ⟨e, he, rfl⟩ := h.clean.last p hp
  exact ⟨e, he, rfl, by simp [MCache.lastEnt, hp, h.findId he]⟩

theorem lastEnt_mem {a : MCache K V} {e : Ent K V} (h : a.lastEnt = some e) :
    e ∈ a.ents ∧ a.last = some e.id := by
  unfold MCache.lastEnt at h
  cases hl : a.last with
  | none => simp [hl] at h
  | some p =>
    simp only [hl, Option.bind_some] at h
    have h1 := List.mem_of_find?_eq_some h
    have h2 := List.find?_some h
    simp only [beq_iff_eq] at h2
    exact ⟨h1, by rw [h2]⟩

theorem deref_own (h : Ok t) {e : Ent K V} (he : e ∈ t.c.ents) : Mid.deref e.id t = .ok e.node t := by
  unfold Mid.deref
  rw [h.findId he]

theorem derefIt_own (h : Ok t) {e : Ent K V} (he : e ∈ t.c.ents) :
    Mid.derefIt (some e.id) t = .ok e.node t := by
  unfold Mid.derefIt
  simp only [h.findId he]

theorem derefIt_not {p : Ptr} (hp : p ∉ t.c.ents.map (·.id)) : Mid.derefIt (some p) t = .ub := by
  unfold Mid.derefIt
  have : t.c.ents.find? (fun x => x.id == p) = none := by
    rw [List.find?_eq_none]
    intro x hx h
    simp only [beq_iff_eq] at h
    exact hp (List.mem_map.2 ⟨x, hx, h⟩)
  simp only [this]

/-- `key == _last_accessed`. -/
def MCache.lastMatches (a : MCache K V) (k : K) : Bool := a.lastEnt.any (fun e => keq k e.key)

theorem lastIs_eq (h : Ok t) (k : K) : Mid.lastIs k t = .ok (t.c.lastMatches k) t := by
  unfold Mid.lastIs MCache.lastMatches
  cases hl : t.c.last with
  | none => simp [Mid.getLast, bind, M.bind, hl, MCache.lastEnt, pure, M.pure]
  | some p =>
    obtain ⟨e, he, rfl, h3⟩ := h.lastEnt hl
    simp [Mid.getLast, bind, M.bind, hl, h3, pure, M.pure, deref_own h he, Ent.node]

theorem lastNode_eq (h : Ok t) {e : Ent K V} (he : t.c.lastEnt = some e) :
    Mid.lastNode t = .ok e.node t := by
  obtain ⟨h1, h2⟩ := lastEnt_mem he
  unfold Mid.lastNode
  simp [Mid.getLast, bind, M.bind, h2, deref_own h h1]

theorem lastMatches_iff {a : MCache K V} {k : K} :
    a.lastMatches k = true ↔ ∃ e, a.lastEnt = some e ∧ keq k e.key = true := by
  unfold MCache.lastMatches
  cases a.lastEnt <;> simp

/-- If the last-accessed key is `k`, its entry is the one the hash map finds. -/
theorem Ok.lastMatches_find (h : Ok t) {k : K} (hm : t.c.lastMatches k = true) :
    ∃ e, t.c.lastEnt = some e ∧ t.c.ents.find? (fun x => keq x.key k) = some e := by
  obtain ⟨e, he, hk⟩ := lastMatches_iff.1 hm
  exact ⟨e, he, h.findKey (lastEnt_mem he).1 (by rw [keq_comm]; exact hk)⟩

end basics

/-- Move an entry to the end of the list. -/
def toEnd (e : Ent K V) (l : List (Ent K V)) : List (Ent K V) := l.filter (fun x => x.slot != e.slot) ++ [e]

/-- Remove an entry from the list. -/
def without (e : Ent K V) (l : List (Ent K V)) : List (Ent K V) := l.filter (fun x => x.slot != e.slot)

/-- Keep only the entries `l`; the last-accessed pointer is dropped with its entry. -/
def MCache.prune (a : MCache K V) (l : List (Ent K V)) : MCache K V :=
  { a with ents := l, last := a.last.filter (fun p => l.any (fun x => x.id == p)) }

section structural

variable {t : St (MCache K V) K V}

theorem moveToFront_eq (h : Ok t) {e : Ent K V} (he : e ∈ t.c.ents) :
    Mid.moveToFront e.ord t = .ok () ⟨{ t.c with ents := toEnd e t.c.ents }, t.g⟩ := by
  rw [h.clean.linked e he]
  unfold Mid.moveToFront
  by_cases h1 : t.c.ents.length = 1
  · simp only [Mid.size, bind, M.bind, h1, if_true, pure, M.pure]
    obtain ⟨x, hx⟩ := List.length_eq_one_iff.1 h1
    have : x = e := by rw [hx] at he; exact (List.mem_singleton.1 he).symm
    subst this
    have : toEnd x t.c.ents = t.c.ents := by simp [toEnd, hx]
    rw [this]
  · rw [bind_ok (m := Mid.size) (s := t) rfl, if_neg h1]
    simp only [Mid.spliceToEnd, h.findSlot he]
    rfl

theorem eraseNode_eq (h : Ok t) {e : Ent K V} (he : e ∈ t.c.ents) :
    Mid.eraseNode e.node t = .ok () ⟨{ t.c with ents := without e t.c.ents }, t.g⟩ := by
  unfold Mid.eraseNode
  simp only [Ent.node, h.clean.linked e he, h.findSlot he]
  rfl

theorem mem_without (h : Ok t) {e x : Ent K V} (he : e ∈ t.c.ents) :
    x ∈ without e t.c.ents ↔ x ∈ t.c.ents ∧ x ≠ e := by
  unfold without
  rw [List.mem_filter, bne_iff_ne]
  constructor
  · rintro ⟨h1, h2⟩
    exact ⟨h1, fun h3 => h2 (by rw [h3])⟩
  · rintro ⟨h1, h2⟩
    exact ⟨h1, fun h3 => h2 (map_inj_of_nodup h.awf.slots x h1 e he h3)⟩

theorem invalidateIf_eq (h : Ok t) {e : Ent K V} (he : e ∈ t.c.ents) :
    Mid.invalidateIf e.key t = .ok () ⟨{ t.c with last := if t.c.last = some e.id then none else t.c.last }, t.g⟩ := by
  unfold Mid.invalidateIf
  rw [bind_ok (lastIs_eq h e.key)]
  by_cases hl : t.c.last = some e.id
  · obtain ⟨x, hx, hid, h3⟩ := h.lastEnt hl
    have : x = e := map_inj_of_nodup h.awf.ids x hx e he hid
    subst this
    have hm : t.c.lastMatches x.key = true := lastMatches_iff.2 ⟨x, h3, KeyEqual.refl _⟩
    simp [hm, hl, Mid.lastInvalidate, Mid.setSelf, M.modify]
  · have hm : t.c.lastMatches e.key = false := by
      cases hb : t.c.lastMatches e.key with
      | false => rfl
      | true =>
        obtain ⟨x, hx, hk⟩ := lastMatches_iff.1 hb
        obtain ⟨h1, h2⟩ := lastEnt_mem hx
        have : e = x := key_inj_of_pairwise h.awf.keys e he x h1 hk
        subst this
        exact absurd h2 hl
    simp [hm, hl, pure, M.pure]

theorem prune_last_eq (h : Ok t) {e : Ent K V} (he : e ∈ t.c.ents) :
    (if t.c.last = some e.id then none else t.c.last) = (t.c.prune (without e t.c.ents)).last := by
  unfold MCache.prune
  dsimp only
  cases hl : t.c.last with
  | none => simp
  | some p =>
    obtain ⟨x, hx, rfl⟩ := h.clean.last p hl
    by_cases hxe : x = e
    · subst hxe
      simp only [if_true]
      symm
      rw [Option.filter_eq_none_iff]
      intro a ha
      simp only [Option.some.injEq] at ha
      subst ha
      simp only [List.any_eq_true, beq_iff_eq, not_exists, not_and]
      intro y hy hid
      have := (mem_without h he).1 hy
      exact this.2 (map_inj_of_nodup h.awf.ids y this.1 x hx hid)
    · have h1 : x.id ≠ e.id := fun h' => hxe (map_inj_of_nodup h.awf.ids x hx e he h')
      have h2 : (without e t.c.ents).any (fun y => y.id == x.id) = true := by
        rw [List.any_eq_true]
        exact ⟨x, (mem_without h he).2 ⟨hx, hxe⟩, by simp⟩
      simp [h1, Option.filter, h2]

theorem eraseIt_eq (h : Ok t) {e : Ent K V} (he : e ∈ t.c.ents) :
    Mid.eraseIt (some e.id) t = .ok () ⟨t.c.prune (without e t.c.ents), t.g⟩ := by
  unfold Mid.eraseIt
  rw [bind_ok (derefIt_own h he)]
  have h1 := invalidateIf_eq h he
  rw [prune_last_eq h he] at h1
  rw [show e.node.key = e.key from rfl, bind_ok h1]
  unfold Mid.eraseNode
  simp only [Ent.node, h.clean.linked e he, h.findSlot he]
  rfl

theorem eraseKeyInfo_eq (h : Ok t) {e : Ent K V} (he : e ∈ t.c.ents) :
    Mid.eraseKeyInfo e.node t = .ok () ⟨t.c.prune (without e t.c.ents), t.g⟩ := by
  unfold Mid.eraseKeyInfo
  have h1 := invalidateIf_eq h he
  rw [prune_last_eq h he] at h1
  rw [show e.node.key = e.key from rfl, bind_ok h1]
  unfold Mid.eraseNode
  simp only [Ent.node, h.clean.linked e he, h.findSlot he]
  rfl

/-- Keeping some of the entries keeps the invariants. -/
theorem Ok.prune (h : Ok t) {l : List (Ent K V)} (hl : l.Sublist t.c.ents) : Ok ⟨t.c.prune l, t.g⟩ := by
  have hlast : ∀ p, (t.c.prune l).last = some p → t.c.last = some p ∧ ∃ e ∈ l, e.id = p := by
    intro p hp
    unfold MCache.prune at hp
    dsimp only at hp
    rw [Option.filter_eq_some_iff] at hp
    obtain ⟨h1, h2⟩ := hp
    rw [List.any_eq_true] at h2
    obtain ⟨x, hx, hxp⟩ := h2
    exact ⟨h1, x, hx, by simpa using hxp⟩
  have w := h.awf.sublist hl
  refine ⟨?_, ?_, ?_⟩
  · exact {
      ids := w.ids
      slots := w.slots
      keys := w.keys
      linked := w.linked
      bound := w.bound
      capNone := w.capNone
      lt := w.lt
      foreign := by
        intro p n q h1 h2
        obtain ⟨-, e, he, rfl⟩ := hlast p h1
        exact absurd (List.mem_map.2 ⟨e, he, rfl⟩) h2
      lastLt := fun p hp => w.lastLt p (hlast p hp).1
      extDisj := w.extDisj
      extLt := w.extLt }
  · intro e he
    exact h.clean.linked e (hl.subset he)
  · intro p hp
    obtain ⟨-, e, he, rfl⟩ := hlast p hp
    exact ⟨e, he, rfl⟩

theorem prune_prune (a : MCache K V) {l l' : List (Ent K V)} (h : ∀ e ∈ l', e ∈ l) :
    (a.prune l).prune l' = a.prune l' := by
  unfold MCache.prune
  simp only [MCache.mk.injEq, true_and, and_true]
  cases a.last with
  | none => rfl
  | some p =>
    by_cases h1 : l'.any (fun x => x.id == p) = true
    · have h2 : l.any (fun x => x.id == p) = true := by
        rw [List.any_eq_true] at h1 ⊢
        obtain ⟨x, hx, hp⟩ := h1
        exact ⟨x, h x hx, hp⟩
      simp [Option.filter, h1, h2]
    · simp only [Option.filter]
      by_cases h2 : l.any (fun x => x.id == p) = true <;> simp [h1, h2]

theorem prune_self (h : Ok t) : t.c.prune t.c.ents = t.c := by
  have : t.c.last.filter (fun p => t.c.ents.any (fun x => x.id == p)) = t.c.last := by
    cases hl : t.c.last with
    | none => rfl
    | some p =>
      obtain ⟨x, hx, rfl⟩ := h.clean.last p hl
      have : t.c.ents.any (fun y => y.id == x.id) = true := by
        rw [List.any_eq_true]; exact ⟨x, hx, by simp⟩
      simp [Option.filter, this]
  unfold MCache.prune
  rw [this]

theorem without_head {e : Ent K V} {r : List (Ent K V)} (h : ((e :: r).map (·.slot)).Nodup) :
    without e (e :: r) = r := by
  rw [List.map_cons, List.nodup_cons] at h
  unfold without
  rw [List.filter_cons]
  simp only [bne_self_eq_false, Bool.false_eq_true, if_false]
  rw [List.filter_eq_self]
  intro x hx
  rw [bne_iff_ne]
  exact fun h' => h.1 (List.mem_map.2 ⟨x, hx, h'⟩)

theorem mapFind_own (h : Ok t) {e : Ent K V} (he : e ∈ t.c.ents) {k : K} (hk : keq e.key k = true) :
    Mid.mapFind k t = .ok (some e.node) t := by
  unfold Mid.mapFind
  rw [h.findKey he hk]
  rfl

theorem keyOf_own (h : Ok t) {e : Ent K V} (he : e ∈ t.c.ents) : Mid.keyOf e.lnode t = .ok e.key t := by
  unfold Mid.keyOf
  rw [show e.lnode.ref = e.id from rfl, bind_ok (deref_own h he)]
  rfl

theorem eraseLru_eq (h : Ok t) {e : Ent K V} {r : List (Ent K V)} (he : t.c.ents = e :: r) :
    Mid.eraseLru t = .ok () ⟨t.c.prune r, t.g⟩ := by
  have hm : e ∈ t.c.ents := by rw [he]; simp
  have hw : without e t.c.ents = r := by
    have := h.awf.slots
    rw [he] at this ⊢
    exact without_head this
  unfold Mid.eraseLru
  rw [bind_ok (a := e.lnode) (s' := t)]
  · rw [bind_ok (keyOf_own h hm), bind_ok (mapFind_own h hm (KeyEqual.refl _))]
    rw [show (Option.map (·.addr) (some e.node)) = some e.id from rfl, eraseIt_eq h hm, hw]
  · simp [Mid.orderFront, Mid.orderFirst, bind, M.bind, he, pure, M.pure]

theorem eraseLruWhile_eq (h : Ok t) (n : Nat) : ∀ fuel, t.c.ents.length < fuel →
    Mid.eraseLruWhile n fuel t = .ok () ⟨t.c.prune (t.c.ents.drop (t.c.ents.length - n)), t.g⟩ := by
  intro fuel
  induction fuel generalizing t with
  | zero => intro hf; exact absurd hf (Nat.not_lt_zero _)
  | succ f ih =>
    intro hf
    unfold Mid.eraseLruWhile
    rw [bind_ok (m := Mid.size) (s := t) rfl]
    by_cases hn : t.c.ents.length > n
    · rw [if_pos hn]
      cases hl : t.c.ents with
      | nil => rw [hl] at hn; simp at hn
      | cons e r =>
        rw [bind_ok (eraseLru_eq h hl)]
        have h' := h.prune (l := r) (by rw [hl]; exact List.sublist_cons_self _ _)
        rw [hl, List.length_cons] at hf hn
        have := ih h' (by show r.length < f; omega)
        rw [this]
        simp only [List.length_cons]
        have e1 : r.length + 1 - n = (r.length - n) + 1 := by omega
        rw [e1, List.drop_succ_cons]
        rw [prune_prune]
        · rfl
        · intro x hx
          exact List.mem_of_mem_drop hx
    · rw [if_neg hn]
      have e1 : t.c.ents.length - n = 0 := by omega
      rw [e1, List.drop_zero, prune_self h]
      rfl

end structural

end LRU
