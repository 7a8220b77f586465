import Verif.Proofs.ReadOnly
/-!
# Every call keeps the invariants

`Step t t'` collects what every call guarantees about the state it leaves behind, normally or by an exception.
-/

set_option linter.unusedSectionVars false

namespace LRU

variable {K V : Type} [KeyEqual K] {α β : Type}

/-- The model state with the entries of a list-machine state. -/
def conc (t : St (MCache K V) K V) : St (Cache K V) K V :=
  ⟨⟨t.c.ents.map Ent.node, t.c.ents.map Ent.lnode, t.c.last, t.c.cap, t.c.kind, t.c.obs⟩, t.g⟩

theorem conc_rel {t : St (MCache K V) K V} (w : AWF t.c t.g) : Rel (conc t) t :=
  ⟨⟨rfl, List.Perm.refl _, rfl, rfl, rfl, rfl⟩, rfl, w⟩

/-- Whatever simulates keeps the invariant of the list machine. -/
theorem RSim.keepsAWF {P : St (MCache K V) K V → Prop} {m : M (St (Cache K V) K V) α} {m' : Mid.CM K V α}
    {Q : α → St (MCache K V) K V → Prop} (h : RSim P m m' Q) {t : St (MCache K V) K V}
    (w : AWF t.c t.g) (hp : P t) : (m' t).Post (fun t' => AWF t'.c t'.g) := by
  have := h _ t (conc_rel w) hp
  cases hm : m (conc t) <;> cases hm' : m' t <;> rw [hm, hm'] at this <;>
    first | exact this.elim | trivial | skip
  · exact this.2.1.awf
  · exact this.2.awf

/-- What every call guarantees. -/
structure Step (t t' : St (MCache K V) K V) : Prop where
  ok : Ok t'
  ext : t'.g.ext = t.g.ext
  next : t.g.next ≤ t'.g.next
  ids : ∀ x ∈ t'.c.ents, (∃ y ∈ t.c.ents, y.id = x.id) ∨ t.g.next ≤ x.id
  kind : t'.c.kind = t.c.kind
  cap : t.c.cap ≠ none → t'.c.cap ≠ none

theorem Step.refl {t : St (MCache K V) K V} (h : Ok t) : Step t t :=
  ⟨h, rfl, Nat.le_refl _, fun x hx => .inl ⟨x, hx, rfl⟩, rfl, fun h => h⟩

theorem Step.trans {t t' t'' : St (MCache K V) K V} (h : Step t t') (h' : Step t' t'') : Step t t'' where
  ok := h'.ok
  ext := h'.ext.trans h.ext
  next := Nat.le_trans h.next h'.next
  ids := by
    intro x hx
    rcases h'.ids x hx with ⟨y, hy, hxy⟩ | hn
    · rcases h.ids y hy with ⟨z, hz, hyz⟩ | hn
      · exact .inl ⟨z, hz, hyz.trans hxy⟩
      · right; rw [← hxy]; exact hn
    · exact .inr (Nat.le_trans h.next hn)
  kind := h'.kind.trans h.kind
  cap := fun hc => h'.cap (h.cap hc)

/-- A program all of whose outcomes satisfy `Step`. -/
def Keeps (m : Mid.CM K V α) : Prop := ∀ t, Ok t → (m t).Post (Step t)

theorem Out.Post.imp {σ : Type} {P Q : σ → Prop} {o : Out σ α} (h : o.Post P) (hi : ∀ s, P s → Q s) : o.Post Q := by
  cases o with
  | ok a s => exact hi s h
  | throw e s => exact hi s h
  | ub => trivial
  | terminate => trivial
  | diverge => trivial

section rules

theorem Keeps.bind {m : Mid.CM K V α} {f : α → Mid.CM K V β} (h : Keeps m) (h' : ∀ a, Keeps (f a)) :
    Keeps (m >>= f) := by
  intro t ht
  have h1 := h t ht
  show (M.bind m f t).Post _
  unfold M.bind
  cases hm : m t with
  | ok a t' =>
    rw [hm] at h1
    exact (h' a t' h1.ok).imp fun t'' h2 => Step.trans h1 h2
  | throw e t' => rw [hm] at h1; exact h1
  | ub => trivial
  | terminate => trivial
  | diverge => trivial

theorem ReadOnly.keeps {m : Mid.CM K V α} (h : ReadOnly m) : Keeps m := by
  intro t ht
  refine (h t).imp ?_
  rintro t' ⟨h1, h2⟩
  obtain ⟨c', g'⟩ := t'
  simp only at h1
  subst h1
  exact ⟨ht.mono' h2.ext h2.next, h2.ext, h2.next, fun x hx => .inl ⟨x, hx, rfl⟩, rfl, fun h => h⟩

theorem Keeps.pure {a : α} : Keeps (Pure.pure a : Mid.CM K V α) := ReadOnly.pure.keeps

theorem Keeps.ite {c : Prop} [Decidable c] {m m' : Mid.CM K V α} (h : Keeps m) (h' : Keeps m') :
    Keeps (if c then m else m') := by
  split
  · exact h
  · exact h'

theorem Keeps.ret {m : Mid.CM K V α} {f : α → Res K V} (h : Keeps m) : Keeps (Impl.ret m f) :=
  h.bind fun _ => .pure

end rules

section steps

variable {t : St (MCache K V) K V}

/-- A call that only affects the shared state. -/
theorem Step.shared (h : Ok t) {g' : Shared K V} (h1 : g'.ext = t.g.ext) (h2 : t.g.next ≤ g'.next) :
    Step t ⟨t.c, g'⟩ :=
  ⟨h.mono' h1 h2, h1, h2, fun x hx => .inl ⟨x, hx, rfl⟩, rfl, fun h => h⟩

theorem Step.prune (h : Ok t) {l : List (Ent K V)} (hl : l.Sublist t.c.ents) : Step t ⟨t.c.prune l, t.g⟩ :=
  ⟨h.prune hl, rfl, Nat.le_refl _, fun x hx => .inl ⟨x, hl.subset hx, rfl⟩, rfl, fun h => h⟩

theorem without_sublist (e : Ent K V) (l : List (Ent K V)) : (without e l).Sublist l := List.filter_sublist

theorem Step.touch (h : Ok t) {e : Ent K V} (he : e ∈ t.c.ents) {g' : Shared K V} (h1 : g'.ext = t.g.ext)
    (h2 : t.g.next ≤ g'.next) : Step t ⟨t.c.touch e, g'⟩ :=
  ⟨(h.touch he).mono h1 h2, h1, h2, fun x hx => .inl ⟨x, (toEnd_perm h he).mem_iff.1 hx, rfl⟩, rfl, fun h => h⟩

theorem Step.move (h : Ok t) {e : Ent K V} (he : e ∈ t.c.ents) {g' : Shared K V} (h1 : g'.ext = t.g.ext)
    (h2 : t.g.next ≤ g'.next) : Step t ⟨{ t.c with ents := toEnd e t.c.ents }, g'⟩ :=
  ⟨(h.move he).mono h1 h2, h1, h2, fun x hx => .inl ⟨x, (toEnd_perm h he).mem_iff.1 hx, rfl⟩, rfl, fun h => h⟩

/-- Changing the value of one entry. -/
theorem Ok.setVal (h : Ok t) (p : Ptr) (f : V → V) :
    Ok ⟨{ t.c with ents := t.c.ents.map (Ent.setVal p f) }, t.g⟩ := by
  refine ⟨h.awf.mapVals (Ent.setVal_id p f) (Ent.setVal_slot p f) (Ent.setVal_key p f) (Ent.setVal_ord p f), ?_, ?_⟩
  · intro x hx
    obtain ⟨y, hy, rfl⟩ := List.mem_map.1 hx
    rw [Ent.setVal_ord, Ent.setVal_slot]
    exact h.clean.linked y hy
  · intro q hq
    obtain ⟨x, hx, rfl⟩ := h.clean.last q hq
    exact ⟨_, List.mem_map.2 ⟨x, hx, rfl⟩, Ent.setVal_id p f x⟩

theorem assignValue_eq (p : Ptr) (v : V) :
    Mid.assignValue p v t = .ok () ⟨{ t.c with ents := t.c.ents.map (Ent.setVal p fun _ => v) }, t.g⟩ := rfl

theorem Step.setVal (h : Ok t) (p : Ptr) (f : V → V) :
    Step t ⟨{ t.c with ents := t.c.ents.map (Ent.setVal p f) }, t.g⟩ := by
  refine ⟨h.setVal p f, rfl, Nat.le_refl _, ?_, rfl, fun h => h⟩
  intro x hx
  obtain ⟨y, hy, rfl⟩ := List.mem_map.1 hx
  exact .inl ⟨y, hy, (Ent.setVal_id p f y).symm⟩

end steps

section closed

variable [DecidableEq K] {t : St (MCache K V) K V} {O : Oracle K V}

/-- `erase(key)` -/
theorem erase_eq (h : Ok t) (k : K) :
    Mid.erase k t = match t.c.ents.find? (fun x => keq x.key k) with
      | some e => .ok true ⟨t.c.prune (without e t.c.ents), t.g⟩
      | none => .ok false t := by
  unfold Mid.erase
  rw [bind_ok (lastIs_eq h k)]
  cases hm : t.c.lastMatches k with
  | true =>
    obtain ⟨e, he, hf⟩ := h.lastMatches_find hm
    rw [if_pos rfl, bind_ok (lastNode_eq h he), bind_ok (eraseKeyInfo_eq h (lastEnt_mem he).1), hf]
    rfl
  | false =>
    rw [if_neg (by simp), bind_ok (m := Mid.mapFind k) (s := t) rfl]
    cases hf : t.c.ents.find? (fun x => keq x.key k) with
    | none => rfl
    | some e =>
      simp only [Option.map_some]
      rw [show e.node.addr = e.id from rfl, bind_ok (eraseIt_eq h (find_mem hf).1)]
      rfl

theorem eraseU_own (h : Ok t) {e : Ent K V} (he : e ∈ t.c.ents) :
    Mid.eraseU (some e.id) t = .ok () ⟨t.c.prune (without e t.c.ents), t.g⟩ := eraseIt_eq h he

theorem eraseU_not {p : Ptr} (hp : p ∉ t.c.ents.map (·.id)) : Mid.eraseU (some p) t = .ub :=
  bind_ub (derefIt_not hp)

theorem eraseIt_not {p : Ptr} (hp : p ∉ t.c.ents.map (·.id)) : Mid.eraseIt (some p) t = .ub :=
  bind_ub (derefIt_not hp)

theorem clear_eq : Mid.clear t = .ok () ⟨t.c.prune [], t.g⟩ := by
  unfold Mid.clear Mid.setSelf M.modify MCache.prune
  have : t.c.last.filter (fun p => ([] : List (Ent K V)).any (fun x => x.id == p)) = none := by
    cases t.c.last <;> simp
  rw [this]

theorem shrink_eq (h : Ok t) (n : Nat) :
    Mid.shrink n t = .ok () ⟨t.c.prune (t.c.ents.drop (t.c.ents.length - n)), t.g⟩ := by
  unfold Mid.shrink
  rw [bind_ok (m := Mid.size) (s := t) rfl]
  by_cases h1 : n ≥ t.c.ents.length
  · rw [if_pos h1]
    have : t.c.ents.length - n = 0 := by omega
    rw [this, List.drop_zero, prune_self h]
    rfl
  · rw [if_neg h1]
    by_cases h2 : n = 0
    · rw [if_pos h2, clear_eq]
      subst h2
      simp
    · rw [if_neg h2, eraseLruWhile_eq h n _ (by omega)]

theorem setCapacity_eq (h : Ok t) (n : Nat) :
    Mid.setCapacity n t =
      .ok () ⟨{ t.c.prune (t.c.ents.drop (t.c.ents.length - n)) with cap := some n }, t.g⟩ := by
  unfold Mid.setCapacity
  rw [bind_ok (m := Mid.size) (s := t) rfl, bind_ok (eraseLruWhile_eq h n _ (by omega))]
  rfl

theorem isEmpty_eq : Mid.isEmpty t = .ok (t.c.ents.length == 0) t := rfl

theorem orderBack_eq {e : Ent K V} (he : t.c.ents.getLast? = some e) :
    Mid.orderBack t = .ok e.lnode t := by
  unfold Mid.orderBack
  rw [bind_ok (m := Mid.orderLast) (s := t) rfl, he]
  rfl

theorem orderFront_eq {e : Ent K V} (he : t.c.ents.head? = some e) :
    Mid.orderFront t = .ok e.lnode t := by
  unfold Mid.orderFront
  rw [bind_ok (m := Mid.orderFirst) (s := t) rfl, he]
  rfl

theorem front_eq (h : Ok t) :
    Mid.front t = match t.c.ents.getLast? with
      | some e => .ok e.key t
      | none => .terminate := by
  unfold Mid.front M.noexcept
  rw [bind_ok (isEmpty_eq (t := t))]
  cases he : t.c.ents.getLast? with
  | none =>
    have : t.c.ents = [] := List.getLast?_eq_none_iff.1 he
    simp [this, M.throw]
  | some e =>
    have hm : e ∈ t.c.ents := List.mem_of_getLast? he
    have hne : (t.c.ents.length == 0) = false := by
      cases hl : t.c.ents with
      | nil => rw [hl] at hm; simp at hm
      | cons a r => simp
    rw [hne, if_neg (by simp), bind_ok (orderBack_eq he), keyOf_own h hm]

theorem back_eq (h : Ok t) :
    Mid.back t = match t.c.ents.head? with
      | some e => .ok e.key t
      | none => .terminate := by
  unfold Mid.back M.noexcept
  rw [bind_ok (isEmpty_eq (t := t))]
  cases he : t.c.ents.head? with
  | none =>
    have : t.c.ents = [] := List.head?_eq_none_iff.1 he
    simp [this, M.throw]
  | some e =>
    have hm : e ∈ t.c.ents := List.mem_of_head? he
    have hne : (t.c.ents.length == 0) = false := by
      cases hl : t.c.ents with
      | nil => rw [hl] at hm; simp at hm
      | cons a r => simp
    rw [hne, if_neg (by simp), bind_ok (orderFront_eq he), keyOf_own h hm]

theorem allExpired_eq (h : Ok t) :
    Mid.allExpired O t = match t.c.ents.getLast? with
      | some e => .ok (expiredAt O t.c.kind t.g e.time) ⟨t.c, tickG t.c.kind t.g⟩
      | none => .ok true t := by
  unfold Mid.allExpired
  rw [bind_ok (isEmpty_eq (t := t))]
  cases he : t.c.ents.getLast? with
  | none =>
    have : t.c.ents = [] := List.getLast?_eq_none_iff.1 he
    simp [this]
    rfl
  | some e =>
    have hm : e ∈ t.c.ents := List.mem_of_getLast? he
    have hne : (t.c.ents.length == 0) = false := by
      cases hl : t.c.ents with
      | nil => rw [hl] at hm; simp at hm
      | cons a r => simp
    rw [hne, if_neg (by simp), bind_ok (orderBack_eq he), bind_ok (keyOf_own h hm),
      bind_ok (mapFind_own h hm (KeyEqual.refl _))]
    exact hasExpiredInfo_eq O _ t

theorem hasExpired_eq (k : K) :
    Mid.hasExpired O k t = match t.c.ents.find? (fun x => keq x.key k) with
      | some e => .ok (expiredAt O t.c.kind t.g e.time) ⟨t.c, tickG t.c.kind t.g⟩
      | none => .ok false t := by
  unfold Mid.hasExpired
  rw [bind_ok (m := Mid.mapFind k) (s := t) rfl]
  cases hf : t.c.ents.find? (fun x => keq x.key k) with
  | none => rfl
  | some e => exact hasExpiredInfo_eq O _ t

/-- Shared state after `n` expiry tests. -/
def ticksG (kind : Kind) (n : Nat) (g : Shared K V) : Shared K V := { g with ticks := g.ticks + n * kind.reads }

theorem clearExpiredLoop_eq (h : Ok t) : ∀ fuel count, t.c.ents.length < fuel →
    ∃ m, m ≤ t.c.ents.length ∧
      (∀ i e, i < m → t.c.ents[i]? = some e → expiredAt O t.c.kind (ticksG t.c.kind i t.g) e.time = true) ∧
      (∀ e, t.c.ents[m]? = some e → expiredAt O t.c.kind (ticksG t.c.kind m t.g) e.time = false) ∧
      Mid.clearExpiredLoop O count fuel t = .ok (count + m)
        ⟨t.c.prune (t.c.ents.drop m), ticksG t.c.kind (if m < t.c.ents.length then m + 1 else m) t.g⟩ := by
  intro fuel
  induction fuel generalizing t with
  | zero => intro count hf; exact absurd hf (Nat.not_lt_zero _)
  | succ f ih =>
    intro count hf
    unfold Mid.clearExpiredLoop
    rw [bind_ok (m := Mid.orderFirst) (s := t) rfl]
    cases hl : t.c.ents with
    | nil =>
      refine ⟨0, Nat.le_refl _, by simp, by simp, ?_⟩
      have e1 : t.c.prune [] = t.c := by rw [← hl]; exact prune_self h
      simp only [List.head?_nil, Option.map_none, List.drop_nil, List.length_nil, Nat.lt_irrefl, if_false]
      rw [e1]
      simp [ticksG]
      rfl
    | cons e r =>
      have he : e ∈ t.c.ents := by rw [hl]; simp
      simp only [List.head?_cons, Option.map_some]
      rw [bind_ok (keyOf_own h he), bind_ok (mapFind_own h he (KeyEqual.refl _))]
      simp only
      rw [bind_ok (hasExpiredInfo_eq O _ t), show e.node.info.time = e.time from rfl]
      have e0 : ticksG t.c.kind 0 t.g = t.g := by simp [ticksG]
      cases hx : expiredAt O t.c.kind t.g e.time with
      | false =>
        refine ⟨0, Nat.zero_le _, by simp, ?_, ?_⟩
        · intro e' he'
          simp only [List.getElem?_cons_zero, Option.some.injEq] at he'
          rw [← he', e0, hx]
        · rw [if_neg (by simp)]
          simp only [List.drop_zero, List.length_cons, Nat.zero_lt_succ, if_true]
          rw [← hl, prune_self h]
          simp [ticksG, tickG]
          rfl
      | true =>
        rw [if_pos rfl]
        have h' : Ok ⟨t.c, tickG t.c.kind t.g⟩ := h.mono' rfl (Nat.le_refl _)
        have hw : without e t.c.ents = r := by
          have := h.awf.slots
          rw [hl] at this ⊢
          exact without_head this
        have h1 := eraseIt_eq h' he
        simp only at h1
        rw [hw] at h1
        rw [show e.node.addr = e.id from rfl, bind_ok h1]
        have h'' : Ok ⟨t.c.prune r, tickG t.c.kind t.g⟩ :=
          h'.prune (l := r) (by show r.Sublist t.c.ents; rw [hl]; exact List.sublist_cons_self _ _)
        have hf' : r.length < f := by
          have := hf; rw [hl, List.length_cons] at this; omega
        obtain ⟨m, hm, k1, k2, k3⟩ := ih h'' (count + 1) hf'
        simp only at k1 k2 k3 hm
        have er : (t.c.prune r).ents = r := rfl
        have ek : (t.c.prune r).kind = t.c.kind := rfl
        rw [er] at k1 k2 k3 hm
        rw [ek] at k1 k2 k3
        have e2 : ∀ i, ticksG t.c.kind i (tickG t.c.kind t.g) = ticksG t.c.kind (i + 1) t.g := by
          intro i
          simp only [ticksG, tickG, Nat.add_mul, Nat.one_mul]
          congr 1
          omega
        refine ⟨m + 1, ?_, ?_, ?_, ?_⟩
        · rw [List.length_cons]; omega
        · intro i e' hi he'
          cases i with
          | zero =>
            simp only [List.getElem?_cons_zero, Option.some.injEq] at he'
            rw [← he', e0, hx]
          | succ j =>
            rw [List.getElem?_cons_succ] at he'
            rw [← e2]
            exact k1 j e' (by omega) he'
        · intro e' he'
          rw [List.getElem?_cons_succ] at he'
          rw [← e2]
          exact k2 e' he'
        · rw [k3, List.drop_succ_cons, e2, prune_prune _ (fun x hx => List.mem_of_mem_drop hx)]
          have e3 : count + 1 + m = count + (m + 1) := by omega
          rw [e3]
          congr 2
          simp only [List.length_cons]
          by_cases hlt : m < r.length
          · rw [if_pos hlt, if_pos (by omega)]
          · rw [if_neg hlt, if_neg (by omega)]

theorem clearExpired_eq (h : Ok t) :
    ∃ m, m ≤ t.c.ents.length ∧
      (∀ i e, i < m → t.c.ents[i]? = some e → expiredAt O t.c.kind (ticksG t.c.kind i t.g) e.time = true) ∧
      (∀ e, t.c.ents[m]? = some e → expiredAt O t.c.kind (ticksG t.c.kind m t.g) e.time = false) ∧
      Mid.clearExpired O t = .ok m
        ⟨t.c.prune (t.c.ents.drop m), ticksG t.c.kind (if m < t.c.ents.length then m + 1 else m) t.g⟩ := by
  unfold Mid.clearExpired
  rw [bind_ok (isEmpty_eq (t := t))]
  by_cases hl : t.c.ents = []
  · refine ⟨0, Nat.zero_le _, by simp, by simp [hl], ?_⟩
    have e1 : t.c.prune [] = t.c := by rw [← hl]; exact prune_self h
    simp only [hl, List.length_nil, beq_self_eq_true, if_true, List.drop_nil, Nat.lt_irrefl, if_false, e1]
    simp [ticksG]
    rfl
  · have hne : (t.c.ents.length == 0) = false := by simpa using hl
    rw [hne, if_neg (by simp), bind_ok (m := Mid.size) (s := t) rfl]
    obtain ⟨m, h1, h2, h3, h4⟩ := clearExpiredLoop_eq (O := O) h (t.c.ents.length + 1) 0 (by omega)
    exact ⟨m, h1, h2, h3, by rw [h4, Nat.zero_add]⟩

/-! ### Iterators -/

theorem derefOrder_own (h : Ok t) {e : Ent K V} (he : e ∈ t.c.ents) :
    Mid.derefOrder e.slot t = .ok e.lnode t := by
  unfold Mid.derefOrder
  rw [h.findSlot he]

theorem derefOrder_not {p : Ptr} (hp : p ∉ t.c.ents.map (·.slot)) : Mid.derefOrder p t = .ub := by
  unfold Mid.derefOrder
  have : t.c.ents.find? (fun x => x.slot == p) = none := by
    rw [List.find?_eq_none]
    intro x hx h
    simp only [beq_iff_eq] at h
    exact hp (List.mem_map.2 ⟨x, hx, h⟩)
  rw [this]

theorem keyAt_own (h : Ok t) {e : Ent K V} (he : e ∈ t.c.ents) :
    Mid.keyAt (some e.slot) t = .ok e.key t := by
  unfold Mid.keyAt
  simp only
  rw [bind_ok (derefOrder_own h he), keyOf_own h he]

theorem keyAt_not {p : Ptr} (hp : p ∉ t.c.ents.map (·.slot)) : Mid.keyAt (some p) t = .ub :=
  bind_ub (derefOrder_not hp)

theorem oLookup_own (h : Ok t) {e : Ent K V} (he : e ∈ t.c.ents) :
    Mid.oLookup (some e.slot) t = .ok e.id t := by
  unfold Mid.oLookup
  rw [bind_ok (keyAt_own h he), bind_ok (mapFind_own h he (KeyEqual.refl _))]
  rfl

theorem oLookup_not {p : Ptr} (hp : p ∉ t.c.ents.map (·.slot)) : Mid.oLookup (some p) t = .ub :=
  bind_ub (keyAt_not hp)

theorem hasExpiredO_own (h : Ok t) {e : Ent K V} (he : e ∈ t.c.ents) :
    Mid.hasExpiredO O (some e.slot) t = .ok (expiredAt O t.c.kind t.g e.time) ⟨t.c, tickG t.c.kind t.g⟩ := by
  unfold Mid.hasExpiredO
  simp only
  rw [bind_ok (oLookup_own h he), bind_ok (derefIt_own h he), show e.node.key = e.key from rfl,
    bind_ok (mapFind_own h he (KeyEqual.refl _))]
  exact hasExpiredInfo_eq O _ t

theorem hasExpiredU_own (h : Ok t) {e : Ent K V} (he : e ∈ t.c.ents) :
    Mid.hasExpiredU O (some e.id) t = .ok (expiredAt O t.c.kind t.g e.time) ⟨t.c, tickG t.c.kind t.g⟩ := by
  unfold Mid.hasExpiredU
  simp only
  rw [bind_ok (derefIt_own h he)]
  exact hasExpiredInfo_eq O _ t

theorem isValidU_own (h : Ok t) {e : Ent K V} (he : e ∈ t.c.ents) :
    Mid.isValidU O (some e.id) t = .ok (!expiredAt O t.c.kind t.g e.time) ⟨t.c, tickG t.c.kind t.g⟩ := by
  unfold Mid.isValidU
  simp only
  rw [bind_ok (m := Mid.getKind) (s := t) rfl]
  have := hasExpiredU_own (O := O) h he
  cases hk : t.c.kind with
  | basic => rfl
  | timed ttl res =>
    rw [hk] at this
    simp only
    rw [bind_ok this]
    rfl

theorem isValidO_own (h : Ok t) {e : Ent K V} (he : e ∈ t.c.ents) :
    Mid.isValidO O (some e.slot) t = .ok (!expiredAt O t.c.kind t.g e.time) ⟨t.c, tickG t.c.kind t.g⟩ := by
  unfold Mid.isValidO
  simp only
  rw [bind_ok (m := Mid.getKind) (s := t) rfl]
  have := hasExpiredO_own (O := O) h he
  cases hk : t.c.kind with
  | basic => rfl
  | timed ttl res =>
    rw [hk] at this
    simp only
    rw [bind_ok this]
    rfl

theorem throwIfInvalidO_own (h : Ok t) {e : Ent K V} (he : e ∈ t.c.ents) :
    Mid.throwIfInvalidO O (some e.slot) t =
      if expiredAt O t.c.kind t.g e.time then .throw .keyExpired ⟨t.c, tickG t.c.kind t.g⟩
      else .ok () ⟨t.c, tickG t.c.kind t.g⟩ := by
  unfold Mid.throwIfInvalidO
  simp only
  rw [bind_ok (m := Mid.getKind) (s := t) rfl]
  have := hasExpiredO_own (O := O) h he
  cases hk : t.c.kind with
  | basic => rfl
  | timed ttl res =>
    rw [hk] at this
    simp only
    rw [bind_ok this]
    cases expiredAt O (.timed ttl res) t.g e.time <;> rfl

theorem oKey_own (h : Ok t) {e : Ent K V} (he : e ∈ t.c.ents) :
    Mid.oKey O { pos := some e.slot } t =
      if expiredAt O t.c.kind t.g e.time then .throw .keyExpired ⟨t.c, tickG t.c.kind t.g⟩
      else .ok e.key ⟨t.c, tickG t.c.kind t.g⟩ := by
  unfold Mid.oKey
  have hv := throwIfInvalidO_own (O := O) h he
  cases hx : expiredAt O t.c.kind t.g e.time with
  | true => rw [hx, if_pos rfl] at hv; rw [bind_throw hv, if_pos rfl]
  | false =>
    rw [hx, if_neg (by simp)] at hv
    rw [bind_ok hv, if_neg (by simp)]
    exact keyAt_own (t := ⟨t.c, tickG t.c.kind t.g⟩) (h.mono' rfl (Nat.le_refl _)) he

theorem oValue_own (h : Ok t) {e : Ent K V} (he : e ∈ t.c.ents) :
    Mid.oValue O { pos := some e.slot } t =
      if expiredAt O t.c.kind t.g e.time then .throw .keyExpired ⟨t.c, tickG t.c.kind t.g⟩
      else .ok e.val ⟨t.c, tickG t.c.kind t.g⟩ := by
  unfold Mid.oValue Mid.oEntry
  have hv := throwIfInvalidO_own (O := O) h he
  cases hx : expiredAt O t.c.kind t.g e.time with
  | true =>
    rw [hx, if_pos rfl] at hv
    rw [bind_throw (bind_throw hv), if_pos rfl]
  | false =>
    rw [hx, if_neg (by simp)] at hv
    have h' : Ok ⟨t.c, tickG t.c.kind t.g⟩ := h.mono' rfl (Nat.le_refl _)
    have h2 : Mid.oDeref { pos := some e.slot } ⟨t.c, tickG t.c.kind t.g⟩
        = .ok { pos := some e.slot, entry := some e.id } ⟨t.c, tickG t.c.kind t.g⟩ := by
      unfold Mid.oDeref
      simp only
      rw [bind_ok (oLookup_own h' he)]
      rfl
    rw [bind_ok ((bind_ok hv).trans h2), if_neg (by simp), bind_ok (derefIt_own h' he)]
    rfl

theorem uEntry_own (h : Ok t) {e : Ent K V} (he : e ∈ t.c.ents) :
    Mid.uEntry O { pos := some e.id } t =
      if expiredAt O t.c.kind t.g e.time then .throw .keyExpired ⟨t.c, tickG t.c.kind t.g⟩
      else .ok { pos := some e.id, entry := some e.id } ⟨t.c, tickG t.c.kind t.g⟩ := by
  unfold Mid.uEntry
  have h2 : Mid.uDeref { pos := some e.id } t = .ok { pos := some e.id, entry := some e.id } t := by
    unfold Mid.uDeref
    simp only
    rw [bind_ok (derefIt_own h he)]
    rfl
  rw [bind_ok h2]
  have hv := throwIfInvalidU_eq (O := O) h he
  cases hx : expiredAt O t.c.kind t.g e.time with
  | true => rw [hx, if_pos rfl] at hv; rw [bind_throw hv, if_pos rfl]
  | false =>
    rw [hx, if_neg (by simp)] at hv
    rw [bind_ok hv, if_neg (by simp)]
    rfl

theorem uKey_own (h : Ok t) {e : Ent K V} (he : e ∈ t.c.ents) :
    Mid.uKey O { pos := some e.id } t =
      if expiredAt O t.c.kind t.g e.time then .throw .keyExpired ⟨t.c, tickG t.c.kind t.g⟩
      else .ok e.key ⟨t.c, tickG t.c.kind t.g⟩ := by
  unfold Mid.uKey
  have hv := uEntry_own (O := O) h he
  have h' : Ok ⟨t.c, tickG t.c.kind t.g⟩ := h.mono' rfl (Nat.le_refl _)
  cases hx : expiredAt O t.c.kind t.g e.time with
  | true => rw [hx, if_pos rfl] at hv; rw [bind_throw hv, if_pos rfl]
  | false =>
    rw [hx, if_neg (by simp)] at hv
    rw [bind_ok hv, if_neg (by simp)]
    simp only
    rw [bind_ok (derefIt_own h' he)]
    rfl

theorem uValue_own (h : Ok t) {e : Ent K V} (he : e ∈ t.c.ents) :
    Mid.uValue O { pos := some e.id } t =
      if expiredAt O t.c.kind t.g e.time then .throw .keyExpired ⟨t.c, tickG t.c.kind t.g⟩
      else .ok e.val ⟨t.c, tickG t.c.kind t.g⟩ := by
  unfold Mid.uValue
  have hv := uEntry_own (O := O) h he
  have h' : Ok ⟨t.c, tickG t.c.kind t.g⟩ := h.mono' rfl (Nat.le_refl _)
  cases hx : expiredAt O t.c.kind t.g e.time with
  | true => rw [hx, if_pos rfl] at hv; rw [bind_throw hv, if_pos rfl]
  | false =>
    rw [hx, if_neg (by simp)] at hv
    rw [bind_ok hv, if_neg (by simp)]
    simp only
    rw [bind_ok (derefIt_own h' he)]
    rfl

theorem toOrdered_own (h : Ok t) {e : Ent K V} (he : e ∈ t.c.ents) :
    Mid.toOrdered { pos := some e.id } t = .ok { pos := some e.slot } t := by
  unfold Mid.toOrdered
  simp only
  rw [bind_ok (derefIt_own h he), show e.node.info.order = e.ord from rfl, h.clean.linked e he]
  rfl

theorem eraseO_own (h : Ok t) {e : Ent K V} (he : e ∈ t.c.ents) :
    Mid.eraseO O { pos := some e.slot } t =
      if expiredAt O t.c.kind t.g e.time then .throw .keyExpired ⟨t.c, tickG t.c.kind t.g⟩
      else .ok () ⟨t.c.prune (without e t.c.ents), tickG t.c.kind t.g⟩ := by
  unfold Mid.eraseO
  simp only
  have hv := oKey_own (O := O) h he
  have h' : Ok ⟨t.c, tickG t.c.kind t.g⟩ := h.mono' rfl (Nat.le_refl _)
  cases hx : expiredAt O t.c.kind t.g e.time with
  | true => rw [hx, if_pos rfl] at hv; rw [bind_throw hv, if_pos rfl]
  | false =>
    rw [hx, if_neg (by simp)] at hv
    rw [bind_ok hv, if_neg (by simp), bind_ok (mapFind_own h' he (KeyEqual.refl _))]
    exact eraseIt_eq h' he

theorem throwIfInvalidO_basic {p : Ptr} (hk : t.c.kind = .basic) :
    Mid.throwIfInvalidO O (some p) t = .ok () t := by
  unfold Mid.throwIfInvalidO
  simp only
  rw [bind_ok (m := Mid.getKind) (s := t) rfl, hk]
  rfl

theorem eraseO_not {p : Ptr} (hp : p ∉ t.c.ents.map (·.slot)) :
    Mid.eraseO O { pos := some p } t = .ub := by
  unfold Mid.eraseO
  simp only
  apply bind_ub
  unfold Mid.oKey
  simp only
  cases hk : t.c.kind with
  | basic => rw [bind_ok (throwIfInvalidO_basic hk), keyAt_not hp]
  | timed ttl res =>
    apply bind_ub
    unfold Mid.throwIfInvalidO
    simp only
    rw [bind_ok (m := Mid.getKind) (s := t) rfl, hk]
    simp only
    apply bind_ub
    unfold Mid.hasExpiredO
    exact bind_ub (oLookup_not hp)

end closed

section keeps

variable [DecidableEq K] {O : Oracle K V}

theorem find_keeps {k : K} : Keeps (Mid.find O k) := by
  intro t h
  have ho := find_out (O := O) h k
  generalize Mid.find O k t = r at ho
  cases ho with
  | absent _ => exact Step.shared h rfl (Nat.le_refl _)
  | absentThrow _ _ _ => exact Step.shared h rfl (Nat.le_refl _)
  | expired _ _ => exact Step.shared h rfl (Nat.le_refl _)
  | expiredThrow _ _ _ => exact Step.shared h rfl (Nat.le_refl _)
  | hit e hf _ => exact Step.touch h (find_mem hf).1 rfl (Nat.le_refl _)
  | hitThrow _ _ _ => exact Step.shared h rfl (Nat.le_refl _)

theorem contains_keeps {k : K} : Keeps (Mid.contains O k) := by
  intro t h
  have ho := contains_out (O := O) h k
  have hf := find_keeps (O := O) (k := k) t h
  generalize Mid.contains O k t = r at ho
  cases ho with
  | lastHit _ _ _ => exact Step.shared h rfl (Nat.le_refl _)
  | lastThrow _ _ _ => exact Step.shared h rfl (Nat.le_refl _)
  | lastExpired _ _ => exact Step.shared h rfl (Nat.le_refl _)
  | found p t' _ ho =>
    cases ho with
    | absent _ => exact Step.shared h rfl (Nat.le_refl _)
    | expired _ _ => exact Step.shared h rfl (Nat.le_refl _)
    | hit e hf _ => exact Step.touch h (find_mem hf).1 rfl (Nat.le_refl _)
  | throws e t' _ ho =>
    cases ho <;> exact Step.shared h rfl (Nat.le_refl _)

theorem lookup_keeps {k : K} : Keeps (Mid.lookup O k) := by
  intro t h
  have ho := lookup_out (O := O) h k
  generalize Mid.lookup O k t = r at ho
  cases ho with
  | lastHit _ _ _ => exact Step.shared h rfl (Nat.le_refl _)
  | lastThrow _ _ _ => exact Step.shared h rfl (Nat.le_refl _)
  | lastExpired _ _ => exact Step.shared h rfl (Nat.le_refl _)
  | notFound t' _ ho =>
    cases ho <;> exact Step.shared h rfl (Nat.le_refl _)
  | throws e t' _ ho =>
    cases ho <;> exact Step.shared h rfl (Nat.le_refl _)
  | hit e _ hf _ _ => exact Step.touch h (find_mem hf).1 rfl (Nat.le_refl _)
  | lateExpired e _ hf _ _ => exact Step.touch h (find_mem hf).1 rfl (Nat.le_refl _)

theorem InsertOut.keeps {t : St (MCache K V) K V} {k : K} {v : V} {o} (h : Ok t) (w : o.Post (fun t' => AWF t'.c t'.g))
    (ho : InsertOut O k v t o) : o.Post (Step t) := by
  cases ho with
  | unset _ => trivial
  | zero _ => exact Step.refl h
  | fault g' _ _ _ _ q _ _ => exact Step.shared h q.ext q.next
  | full g' e r n hf hc hl hr q hlt =>
    refine ⟨⟨w, ?_, ?_⟩, q.ext, q.next, ?_, rfl, fun h => h⟩
    · intro x hx
      rcases List.mem_append.1 hx with hx | hx
      · exact h.clean.linked x (by rw [hl]; exact List.mem_cons_of_mem _ hx)
      · rw [List.mem_singleton.1 hx]
    · intro p hp
      simp only [Option.some.injEq] at hp
      exact ⟨_, List.mem_append.2 (.inr (List.mem_singleton.2 rfl)), hp⟩
    · intro x hx
      rcases List.mem_append.1 hx with hx | hx
      · exact .inl ⟨x, by rw [hl]; exact List.mem_cons_of_mem _ hx, rfl⟩
      · rw [List.mem_singleton.1 hx]; exact .inr (Nat.le_refl _)
  | room g' n qq hf hc hl q h1 h2 =>
    refine ⟨⟨w, ?_, ?_⟩, q.ext, q.next, ?_, rfl, fun h => h⟩
    · intro x hx
      rcases List.mem_append.1 hx with hx | hx
      · exact h.clean.linked x hx
      · rw [List.mem_singleton.1 hx]
    · intro p hp
      simp only [Option.some.injEq] at hp
      exact ⟨_, List.mem_append.2 (.inr (List.mem_singleton.2 rfl)), hp⟩
    · intro x hx
      rcases List.mem_append.1 hx with hx | hx
      · exact .inl ⟨x, hx, rfl⟩
      · rw [List.mem_singleton.1 hx]; exact .inr (Nat.le_refl _)
  | update g' e n hf hc q =>
    have he := (find_mem hf).1
    have hmem : ∀ x ∈ without e t.c.ents, x ∈ t.c.ents := fun x hx => (without_sublist e _).subset hx
    refine ⟨⟨w, ?_, ?_⟩, q.ext, q.next, ?_, rfl, fun h => h⟩
    · intro x hx
      rcases List.mem_append.1 hx with hx | hx
      · exact h.clean.linked x (hmem x hx)
      · rw [List.mem_singleton.1 hx]; exact h.clean.linked e he
    · intro p hp
      simp only [Option.some.injEq] at hp
      exact ⟨_, List.mem_append.2 (.inr (List.mem_singleton.2 rfl)), hp⟩
    · intro x hx
      rcases List.mem_append.1 hx with hx | hx
      · exact .inl ⟨x, hmem x hx, rfl⟩
      · rw [List.mem_singleton.1 hx]; exact .inl ⟨e, he, rfl⟩
  | updateFault g' e m n hf hc q _ =>
    have he := (find_mem hf).1
    have hmem : ∀ x ∈ without e t.c.ents, x ∈ t.c.ents := fun x hx => (without_sublist e _).subset hx
    refine ⟨⟨w, ?_, ?_⟩, q.ext, q.next, ?_, rfl, fun h => h⟩
    · intro x hx
      rcases List.mem_append.1 hx with hx | hx
      · exact h.clean.linked x (hmem x hx)
      · rw [List.mem_singleton.1 hx]; exact h.clean.linked e he
    · intro p hp
      obtain ⟨x, hx, rfl⟩ := h.clean.last p hp
      by_cases hxe : x = e
      · exact ⟨_, List.mem_append.2 (.inr (List.mem_singleton.2 rfl)), by rw [hxe]⟩
      · rcases List.mem_append.1 ((toEnd_perm h he).mem_iff.2 hx) with hx' | hx'
        · exact ⟨x, List.mem_append.2 (.inl hx'), rfl⟩
        · exact absurd (List.mem_singleton.1 hx') hxe
    · intro x hx
      rcases List.mem_append.1 hx with hx | hx
      · exact .inl ⟨x, hmem x hx, rfl⟩
      · rw [List.mem_singleton.1 hx]; exact .inl ⟨e, he, rfl⟩

theorem insert_keeps (hO : NoListFault O) {k : K} {v : V} : Keeps (Mid.insert O k v) := by
  intro t h
  exact (insert_out h hO k v).keeps h ((insert_sim hO).keepsAWF h.awf trivial)

theorem emplace_keeps (hO : NoListFault O) {k : K} {v : V} : Keeps (Mid.emplace O k v) := by
  intro t h
  exact (emplace_out h hO k v).keeps h ((emplace_sim hO).keepsAWF h.awf trivial)

theorem insertRange_keeps (hO : NoListFault O) {l : List (K × V)} : Keeps (Mid.insertRange O l) := by
  induction l with
  | nil => exact .pure
  | cons p l ih =>
    obtain ⟨k, v⟩ := p
    exact (insert_keeps hO).bind fun _ => ih.bind fun _ => .pure

theorem insertRangeMove_keeps (hO : NoListFault O) {l : List (K × V)} : Keeps (Mid.insertRangeMove O l) := by
  induction l with
  | nil => exact .pure
  | cons p l ih =>
    obtain ⟨k, v⟩ := p
    exact (emplace_keeps hO).bind fun _ => ih.bind fun _ => .pure

theorem erase_keeps {k : K} : Keeps (Mid.erase k : Mid.CM K V Bool) := by
  intro t h
  rw [erase_eq h]
  cases t.c.ents.find? (fun x => keq x.key k) with
  | none => exact Step.refl h
  | some e => exact Step.prune h (without_sublist e _)

theorem eraseU_keeps {it : Option Ptr} : Keeps (Mid.eraseU it : Mid.CM K V Unit) := by
  intro t h
  cases it with
  | none => exact Step.refl h
  | some p =>
    by_cases hp : p ∈ t.c.ents.map (·.id)
    · obtain ⟨e, he, rfl⟩ := List.mem_map.1 hp
      rw [eraseU_own h he]
      exact Step.prune h (without_sublist e _)
    · rw [eraseU_not hp]; trivial

theorem eraseO_keeps {it : Option Ptr} : Keeps (Mid.eraseO O { pos := it }) := by
  intro t h
  cases it with
  | none => exact Step.refl h
  | some p =>
    by_cases hp : p ∈ t.c.ents.map (·.slot)
    · obtain ⟨e, he, rfl⟩ := List.mem_map.1 hp
      rw [eraseO_own h he]
      split
      · exact Step.shared h rfl (Nat.le_refl _)
      · exact (Step.shared h (g' := tickG t.c.kind t.g) rfl (Nat.le_refl _)).trans
          (Step.prune (h.mono' (g' := tickG t.c.kind t.g) rfl (Nat.le_refl _)) (without_sublist e _))
    · rw [eraseO_not hp]; trivial

theorem clear_keeps : Keeps (Mid.clear : Mid.CM K V Unit) := by
  intro t h
  rw [clear_eq]
  exact Step.prune h (List.nil_sublist _)

theorem shrink_keeps {n : Nat} : Keeps (Mid.shrink n : Mid.CM K V Unit) := by
  intro t h
  rw [shrink_eq h]
  exact Step.prune h (List.drop_sublist _ _)

theorem Step.capacity {t : St (MCache K V) K V} (h : Ok t) {n : Nat} (hn : t.c.ents.length ≤ n) :
    Step t ⟨{ t.c with cap := some n }, t.g⟩ := by
  refine ⟨⟨?_, h.clean.linked, h.clean.last⟩, rfl, Nat.le_refl _, fun x hx => .inl ⟨x, hx, rfl⟩, rfl, fun _ => by simp⟩
  exact { h.awf with
    bound := by
      intro m hm
      simp only [Option.some.injEq] at hm
      subst hm
      exact hn
    capNone := by intro hc; cases hc }

theorem setCapacity_keeps {n : Nat} : Keeps (Mid.setCapacity n : Mid.CM K V Unit) := by
  intro t h
  rw [setCapacity_eq h]
  have h1 := Step.prune h (List.drop_sublist (t.c.ents.length - n) t.c.ents)
  exact h1.trans (Step.capacity h1.ok (by
    show (t.c.ents.drop (t.c.ents.length - n)).length ≤ n
    rw [List.length_drop]; omega))

theorem clearAndIncreaseCapacity_keeps {n : Nat} :
    Keeps (Mid.clearAndIncreaseCapacity n : Mid.CM K V Unit) := by
  intro t h
  unfold Mid.clearAndIncreaseCapacity
  rw [bind_ok clear_eq]
  have h1 := Step.prune h (List.nil_sublist _)
  cases hc : t.c.cap with
  | none => rw [bind_ub (by simp [Mid.readCapacity, MCache.prune, hc])]; trivial
  | some m =>
    rw [bind_ok (m := Mid.readCapacity) (a := m) (s' := ⟨t.c.prune [], t.g⟩)
      (by simp [Mid.readCapacity, MCache.prune, hc])]
    by_cases hn : n > m
    · rw [if_pos hn]
      exact h1.trans (Step.capacity h1.ok (by simp [MCache.prune]))
    · rw [if_neg hn]; exact h1

theorem clearExpired_keeps : Keeps (Mid.clearExpired O) := by
  intro t h
  obtain ⟨m, _, _, _, he⟩ := clearExpired_eq (O := O) h
  rw [he]
  exact (Step.shared h (g' := ticksG t.c.kind _ t.g) rfl (Nat.le_refl _)).trans
    (Step.prune (h.mono' (g' := ticksG t.c.kind _ t.g) rfl (Nat.le_refl _)) (List.drop_sublist _ _))

theorem setObs_keeps {f : Obs → Obs} :
    Keeps (Mid.setSelf fun c => { c with obs := f c.obs } : Mid.CM K V Unit) := by
  intro t h
  exact ⟨⟨{ h.awf with }, h.clean.linked, h.clean.last⟩, rfl, Nat.le_refl _, fun x hx => .inl ⟨x, hx, rfl⟩, rfl, fun h => h⟩

theorem monitorNew_keeps {ks : List K} : Keeps (Mid.monitorNew ks : Mid.CM K V Nat) := by
  intro t h
  have h1 : Step t ⟨t.c, { t.g with
      nextStat := t.g.nextStat + 1
      stats := fun j => if j = t.g.nextStat then Statistics.ofKeys ks else t.g.stats j }⟩ :=
    Step.shared h rfl (Nat.le_refl _)
  exact h1.trans ⟨⟨{ h1.ok.awf with }, h1.ok.clean.linked, h1.ok.clean.last⟩, rfl, Nat.le_refl _,
    fun x hx => .inl ⟨x, hx, rfl⟩, rfl, fun h => h⟩

theorem write_keeps {p : Ptr} {v : V} : Keeps (Mid.write p v : Mid.CM K V Unit) := by
  refine derefIt_ro.keeps.bind fun n => ?_
  intro t h
  exact Step.setVal h _ (fun _ => v)

/-- Every call keeps the invariants, whether it returns or throws. -/
theorem step_keeps (hO : NoListFault O) (op : Op K V) : Keeps (Mid.step O op) := by
  cases op with
  | contains k => exact contains_keeps.ret
  | find k => exact find_keeps.ret
  | lookup k => exact lookup_keeps.ret
  | insert k v => exact (insert_keeps hO).ret
  | emplace k v => exact (emplace_keeps hO).ret
  | insertRange l => exact (insertRange_keeps hO).ret
  | insertRangeMove l => exact (insertRangeMove_keeps hO).ret
  | assignRange l =>
    exact (clearAndIncreaseCapacity_keeps.bind fun _ => (insertRange_keeps hO).bind fun _ => .pure).ret
  | assignRangeMove l =>
    exact (clearAndIncreaseCapacity_keeps.bind fun _ => (insertRangeMove_keeps hO).bind fun _ => .pure).ret
  | erase k => exact erase_keeps.ret
  | eraseU pos => exact eraseU_keeps.ret
  | eraseO pos => exact eraseO_keeps.ret
  | clear => exact clear_keeps.ret
  | shrink n => exact shrink_keeps.ret
  | setCapacity n => exact setCapacity_keeps.ret
  | size => exact size_ro.ret.keeps
  | capacity => exact readCapacity_ro.ret.keeps
  | spaceLeft => exact spaceLeft_ro.ret.keeps
  | isEmpty => exact isEmpty_ro.ret.keeps
  | isFull => exact isFull_ro.ret.keeps
  | front => exact front_ro.ret.keeps
  | back => exact back_ro.ret.keeps
  | allExpired => exact allExpired_ro.ret.keeps
  | clearExpired => exact clearExpired_keeps.ret
  | hasExpired k => exact hasExpired_ro.ret.keeps
  | hasExpiredU pos => exact hasExpiredU_ro.ret.keeps
  | hasExpiredO pos => exact hasExpiredO_ro.ret.keeps
  | isValidU pos => exact isValidU_ro.ret.keeps
  | isValidO pos => exact isValidO_ro.ret.keeps
  | uKey pos => exact uKey_ro.ret.keeps
  | uValue pos => exact uValue_ro.ret.keeps
  | oBegin => exact oBegin_ro.ret.keeps
  | oNext pos => exact oNext_ro.ret.keeps
  | oPrev pos => exact oPrev_ro.ret.keeps
  | oKey pos => exact oKey_ro.ret.keeps
  | oValue pos => exact oValue_ro.ret.keeps
  | toOrdered pos => exact toOrdered_ro.ret.keeps
  | eqOU o u => exact eqOU_ro.ret.keeps
  | monitor i => exact (setObs_keeps (f := fun o => { o with stats := i })).ret
  | monitorNew ks => exact monitorNew_keeps.ret
  | stopMonitoring => exact (setObs_keeps (f := fun o => { o with stats := none })).ret
  | isMonitoring => exact isMonitoring_ro.ret.keeps
  | stats => exact stats_ro.ret.keeps
  | sharedStats => exact sharedStats_ro.ret.keeps
  | addHitCallback cb => exact (setObs_keeps (f := fun o => { o with hitCbs := o.hitCbs ++ [cb] })).ret
  | addMissCallback cb => exact (setObs_keeps (f := fun o => { o with missCbs := o.missCbs ++ [cb] })).ret
  | addAccessCallback cb => exact (setObs_keeps (f := fun o => { o with accCbs := o.accCbs ++ [cb] })).ret
  | clearHitCallbacks => exact (setObs_keeps (f := fun o => { o with hitCbs := [] })).ret
  | clearMissCallbacks => exact (setObs_keeps (f := fun o => { o with missCbs := [] })).ret
  | clearAccessCallbacks => exact (setObs_keeps (f := fun o => { o with accCbs := [] })).ret
  | clearAllCallbacks => exact (setObs_keeps (f := fun o => { o with hitCbs := [], missCbs := [], accCbs := [] })).ret
  | write p v => exact write_keeps.ret
  | read p => exact read_ro.ret.keeps

end keeps

end LRU
