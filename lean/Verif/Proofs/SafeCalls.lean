import Verif.Spec.Safe
import Verif.Proofs.Walk
import Verif.Proofs.HistoryInv
/-!
# Which calls complete
-/

set_option linter.unusedSectionVars false
set_option autoImplicit false

namespace LRU

section generic

variable {σ α β K V : Type}

theorem Completes.ok {o : Out σ α} {a : α} {s : σ} (h : o = .ok a s) : Completes o := .inl ⟨a, s, h⟩

theorem Completes.throw {o : Out σ α} {e : Err} {s : σ} (h : o = .throw e s) : Completes o := .inr ⟨e, s, h⟩

theorem Completes.bind {m : M σ α} {f : α → M σ β} {s : σ} (h : Completes (m s))
    (h' : ∀ a s', m s = .ok a s' → Completes (f a s')) : Completes ((m >>= f) s) := by
  rcases h with ⟨a, s', h⟩ | ⟨e, s', h⟩
  · rw [bind_ok h]; exact h' a s' h
  · rw [bind_throw h]; exact .throw rfl

theorem Completes.ret {m : M σ α} {f : α → Res K V} {s : σ} (h : Completes (m s)) : Completes (Impl.ret m f s) :=
  h.bind fun _ _ _ => .ok rfl

theorem Completes.ite {b : Bool} {x y : Out σ α} (hx : Completes x) (hy : Completes y) :
    Completes (if b then x else y) := by
  cases b
  · exact hy
  · exact hx

theorem Completes.not_ub {o : Out σ α} (h : Completes o) : o ≠ .ub := by
  rintro rfl
  rcases h with ⟨_, _, h⟩ | ⟨_, _, h⟩ <;> cases h

theorem Completes.not_diverge {o : Out σ α} (h : Completes o) : o ≠ .diverge := by
  rintro rfl
  rcases h with ⟨_, _, h⟩ | ⟨_, _, h⟩ <;> cases h

theorem Completes.not_terminate {o : Out σ α} (h : Completes o) : o ≠ .terminate := by
  rintro rfl
  rcases h with ⟨_, _, h⟩ | ⟨_, _, h⟩ <;> cases h

end generic

variable {K V : Type} [KeyEqual K] [DecidableEq K] [DecidableEq V] {O : Oracle K V}
  {s : St (Cache K V) K V} {t : St (MCache K V) K V} {op : Op K V} {k : K} {v : V} {l : List (K × V)}

theorem Rel.completes (hO : NoListFault O) (hr : Rel s t) (h : Completes (Mid.step O op t)) :
    Completes (Impl.step O op s) := by
  rcases h with ⟨r, t', h⟩ | ⟨e, t', h⟩
  · obtain ⟨s', h', _⟩ := hr.back_ok hO h
    exact .ok h'
  · obtain ⟨s', h', _⟩ := hr.back_throw hO h
    exact .throw h'

theorem RSim.completes {α : Type} {m : Impl.CM K V α} {m' : Mid.CM K V α} (hs : Sim m m') (hr : Rel s t)
    (h : Completes (m' t)) : Completes (m s) := by
  have h1 := hs s t hr trivial
  rcases h with ⟨a, t', h⟩ | ⟨e, t', h⟩ <;> rw [h] at h1 <;> cases hm : m s <;> rw [hm] at h1 <;>
    first | exact h1.elim | exact .ok rfl | exact .throw rfl

theorem Rel.orderKeys (hr : Rel s t) : Impl.orderKeys s.c = some (t.c.ents.map (·.key)) := by
  unfold Impl.orderKeys
  rw [hr.rep.order]
  have key : ∀ l : List (Ent K V), (∀ e ∈ l, e ∈ t.c.ents) →
      (l.map Ent.lnode).mapM (fun l => (s.c.map.find? (fun n => n.addr == l.ref)).map (·.key)) = some (l.map (·.key)) := by
    intro l
    induction l with
    | nil => intro _; rfl
    | cons e r ih =>
      intro hl
      have he := hl e (List.mem_cons_self ..)
      have : s.c.map.find? (fun n => n.addr == e.lnode.ref) = some e.node := by
        rw [hr.rep.find_addr hr.awf, show e.lnode.ref = e.id from rfl, find?_key hr.awf.ids he]
        rfl
      rw [List.map_cons, List.mapM_cons, this, ih (fun x hx => hl x (List.mem_cons_of_mem _ hx))]
      rfl
  exact key _ (fun _ h => h)

theorem Rel.back_ub (hO : NoListFault O) (hr : Rel s t) (h : Mid.step O op t = .ub) : Impl.step O op s = .ub := by
  have h1 := step_sim hO op s t hr trivial
  rw [h] at h1
  cases hm : Impl.step O op s <;> rw [hm] at h1 <;> first | exact h1.elim | rfl

theorem Rel.back_terminate (hO : NoListFault O) (hr : Rel s t) (h : Mid.step O op t = .terminate) :
    Impl.step O op s = .terminate := by
  have h1 := step_sim hO op s t hr trivial
  rw [h] at h1
  cases hm : Impl.step O op s <;> rw [hm] at h1 <;> first | exact h1.elim | rfl

theorem Rel.validU_some (hr : Rel s t) {p : Ptr} : ValidU s.c (some p) ↔ p ∈ t.c.ents.map (·.id) := by
  unfold ValidU
  rw [hr.elements]
  constructor
  · rintro (h | ⟨x, hx, h⟩)
    · cases h
    · obtain ⟨e, he, rfl⟩ := List.mem_map.1 hx
      injection h with h
      exact List.mem_map.2 ⟨e, he, h.symm⟩
  · intro h
    obtain ⟨e, he, rfl⟩ := List.mem_map.1 h
    exact .inr ⟨e.node, List.mem_map.2 ⟨e, he, rfl⟩, rfl⟩

theorem Rel.validO_some (hr : Rel s t) (ht : Ok t) {p : Ptr} : ValidO s.c (some p) ↔ p ∈ t.c.ents.map (·.slot) := by
  unfold ValidO
  constructor
  · rintro (h | ⟨q, x, h, hx⟩)
    · cases h
    · obtain ⟨e, he, _, hq⟩ := (hr.at_iff ht).1 hx
      injection h with h
      exact List.mem_map.2 ⟨e, he, by rw [hq, h]⟩
  · intro h
    obtain ⟨e, he, rfl⟩ := List.mem_map.1 h
    exact .inr ⟨e.slot, e.node, rfl, (hr.at_iff ht).2 ⟨e, he, rfl, rfl⟩⟩

theorem validU_none (c : Cache K V) : ValidU c none := .inl rfl

theorem validO_none (c : Cache K V) : ValidO c none := .inl rfl

theorem Rel.cap_none (hr : Rel s t) : s.c.capacity = none ↔ t.c.cap = none := by rw [hr.rep.cap]

/-! ### Completion on the list machine -/

theorem InsertOut.completes {o} (h : InsertOut O k v t o) (hc : t.c.cap ≠ none) : Completes o := by
  cases h with
  | unset h => exact absurd h hc
  | zero _ => exact .ok rfl
  | fault _ _ _ _ _ _ _ _ => exact .throw rfl
  | full => exact .ok rfl
  | room => exact .ok rfl
  | update => exact .ok rfl
  | updateFault => exact .throw rfl

theorem InsertOut.ub {o} (h : InsertOut O k v t o) (hc : t.c.cap = none) : o = .ub := by
  cases h with
  | unset h => rfl
  | zero h => rw [hc] at h; cases h
  | fault _ _ _ _ h _ _ _ => exact absurd hc h
  | full _ _ _ _ _ h => rw [hc] at h; cases h
  | room _ _ _ _ h => rw [hc] at h; cases h
  | update _ _ _ _ h => rw [hc] at h; cases h
  | updateFault _ _ _ _ _ h => rw [hc] at h; cases h

theorem insertRange_completes (hO : NoListFault O) (ht : Ok t) (hc : t.c.cap ≠ none) :
    Completes (Mid.insertRange O l t) := by
  induction l generalizing t with
  | nil => exact .ok rfl
  | cons p l ih =>
    obtain ⟨k, v⟩ := p
    refine Completes.bind ((insert_out ht hO k v).completes hc) fun a t' h => ?_
    have hst : Step t t' := by
      have := insert_keeps hO (k := k) (v := v) t ht
      rw [h] at this
      exact this
    exact (ih hst.ok (hst.cap hc)).bind fun _ _ _ => .ok rfl

theorem insertRangeMove_completes (hO : NoListFault O) (ht : Ok t) (hc : t.c.cap ≠ none) :
    Completes (Mid.insertRangeMove O l t) := by
  induction l generalizing t with
  | nil => exact .ok rfl
  | cons p l ih =>
    obtain ⟨k, v⟩ := p
    refine Completes.bind ((emplace_out ht hO k v).completes hc) fun a t' h => ?_
    have hst : Step t t' := by
      have := emplace_keeps hO (k := k) (v := v) t ht
      rw [h] at this
      exact this
    exact (ih hst.ok (hst.cap hc)).bind fun _ _ _ => .ok rfl

theorem clearAndIncreaseCapacity_completes {n : Nat} (ht : Ok t) (hc : t.c.cap ≠ none) :
    ∃ t', Mid.clearAndIncreaseCapacity n t = .ok () t' ∧ Ok t' ∧ t'.c.cap ≠ none := by
  have hk := clearAndIncreaseCapacity_keeps (n := n) t ht
  unfold Mid.clearAndIncreaseCapacity at hk ⊢
  rw [bind_ok clear_eq] at hk ⊢
  cases hm : t.c.cap with
  | none => exact absurd hm hc
  | some m =>
    rw [bind_ok (m := Mid.readCapacity) (a := m) (s' := ⟨t.c.prune [], t.g⟩)
      (by simp [Mid.readCapacity, MCache.prune, hm])] at hk ⊢
    by_cases hn : n > m
    · rw [if_pos hn] at hk ⊢
      exact ⟨_, rfl, hk.ok, hk.cap hc⟩
    · rw [if_neg hn] at hk ⊢
      exact ⟨_, rfl, hk.ok, hk.cap hc⟩

theorem readCapacity_set {t : St (MCache K V) K V} (hc : t.c.cap ≠ none) : ∃ n, t.c.cap = some n ∧ Mid.readCapacity t = .ok n t := by
  cases hm : t.c.cap with
  | none => exact absurd hm hc
  | some m => exact ⟨m, rfl, by simp [Mid.readCapacity, hm]⟩

theorem readCapacity_unset {t : St (MCache K V) K V} (hc : t.c.cap = none) : Mid.readCapacity t = .ub := by
  simp [Mid.readCapacity, hc]

theorem access_completes (ht : Ok t) (ha : op.Accesses k) : Completes (Mid.step O op t) := by
  rcases mid_access (O := O) ht ha with ⟨_, _, h, _⟩ | ⟨_, _, h, _⟩
  · exact .ok h
  · exact .throw h

/-- Every call whose preconditions hold completes, except `front()` and `back()` on an empty cache. -/
theorem step_completes (hO : NoListFault O) (hr : Rel s t) (ht : Ok t) (hs : Safe s.c op)
    (hn : ¬ Terminates s.c op) : Completes (Impl.step O op s) := by
  have hcap : s.c.capacity ≠ none → t.c.cap ≠ none := by rw [hr.rep.cap]; exact id
  have U : ∀ {u : Option Ptr}, ValidU s.c u → u = none ∨ ∃ e ∈ t.c.ents, u = some e.id := by
    intro u hu
    cases u with
    | none => exact .inl rfl
    | some p =>
      obtain ⟨e, he, h⟩ := List.mem_map.1 (hr.validU_some.1 hu)
      exact .inr ⟨e, he, by rw [h]⟩
  have W : ∀ {u : Option Ptr}, ValidO s.c u → u = none ∨ ∃ e ∈ t.c.ents, u = some e.slot := by
    intro u hu
    cases u with
    | none => exact .inl rfl
    | some p =>
      obtain ⟨e, he, h⟩ := List.mem_map.1 ((hr.validO_some ht).1 hu)
      exact .inr ⟨e, he, by rw [h]⟩
  cases op with
  | contains k => exact hr.completes hO (access_completes ht (.inl rfl))
  | find k => exact hr.completes hO (access_completes ht (.inr (.inl rfl)))
  | lookup k => exact hr.completes hO (access_completes ht (.inr (.inr rfl)))
  | insert k v => exact hr.completes hO ((insert_out ht hO k v).completes (hcap hs)).ret
  | emplace k v => exact hr.completes hO ((emplace_out ht hO k v).completes (hcap hs)).ret
  | insertRange l =>
    refine hr.completes hO (Completes.ret ?_)
    rcases hs with rfl | hs
    · exact .ok rfl
    · exact insertRange_completes hO ht (hcap hs)
  | insertRangeMove l =>
    refine hr.completes hO (Completes.ret ?_)
    rcases hs with rfl | hs
    · exact .ok rfl
    · exact insertRangeMove_completes hO ht (hcap hs)
  | assignRange l =>
    refine hr.completes hO (Completes.ret ?_)
    obtain ⟨t', h1, h2, h3⟩ := clearAndIncreaseCapacity_completes (n := l.length) ht (hcap hs)
    unfold Mid.assignRange
    rw [bind_ok h1]
    exact (insertRange_completes hO h2 h3).bind fun _ _ _ => .ok rfl
  | assignRangeMove l =>
    refine hr.completes hO (Completes.ret ?_)
    obtain ⟨t', h1, h2, h3⟩ := clearAndIncreaseCapacity_completes (n := l.length) ht (hcap hs)
    unfold Mid.assignRangeMove
    rw [bind_ok h1]
    exact (insertRangeMove_completes hO h2 h3).bind fun _ _ _ => .ok rfl
  | erase k =>
    refine hr.completes hO (Completes.ret ?_)
    rw [erase_eq ht]
    cases t.c.ents.find? (fun x => keq x.key k) <;> exact .ok rfl
  | eraseU u =>
    refine hr.completes hO (Completes.ret ?_)
    rcases U hs with rfl | ⟨e, he, rfl⟩
    · exact .throw rfl
    · exact .ok (eraseU_own ht he)
  | eraseO u =>
    refine hr.completes hO (Completes.ret ?_)
    rcases W hs with rfl | ⟨e, he, rfl⟩
    · exact .throw rfl
    · rw [eraseO_own ht he]; exact .ite (.throw rfl) (.ok rfl)
  | clear => exact hr.completes hO (Completes.ret (.ok clear_eq))
  | shrink n => exact hr.completes hO (Completes.ret (.ok (shrink_eq ht n)))
  | setCapacity n => exact hr.completes hO (Completes.ret (.ok (setCapacity_eq ht n)))
  | size => exact .ok rfl
  | capacity =>
    obtain ⟨n, _, h⟩ := readCapacity_set (hcap hs)
    exact hr.completes hO (Completes.ret (.ok h))
  | spaceLeft =>
    obtain ⟨n, _, h⟩ := readCapacity_set (hcap hs)
    refine hr.completes hO (Completes.ret ?_)
    unfold Mid.spaceLeft
    rw [bind_ok h]
    exact .ok rfl
  | isEmpty => exact .ok rfl
  | isFull =>
    obtain ⟨n, _, h⟩ := readCapacity_set (hcap hs)
    refine hr.completes hO (Completes.ret ?_)
    unfold Mid.isFull
    rw [bind_ok (m := Mid.size) (s := t) rfl, bind_ok h]
    exact .ok rfl
  | front =>
    refine hr.completes hO (Completes.ret ?_)
    rw [front_eq ht]
    cases hl : t.c.ents.getLast? with
    | some e => exact .ok rfl
    | none =>
      rw [List.getLast?_eq_none_iff] at hl
      exact absurd ⟨.inl rfl, by rw [hr.elements, hl]; rfl⟩ hn
  | back =>
    refine hr.completes hO (Completes.ret ?_)
    rw [back_eq ht]
    cases hl : t.c.ents.head? with
    | some e => exact .ok rfl
    | none =>
      rw [List.head?_eq_none_iff] at hl
      exact absurd ⟨.inr rfl, by rw [hr.elements, hl]; rfl⟩ hn
  | allExpired =>
    refine hr.completes hO (Completes.ret ?_)
    rw [allExpired_eq ht]
    cases t.c.ents.getLast? <;> exact .ok rfl
  | clearExpired =>
    obtain ⟨m, _, _, _, h⟩ := clearExpired_eq (O := O) ht
    exact hr.completes hO (Completes.ret (.ok h))
  | hasExpired k =>
    refine hr.completes hO (Completes.ret ?_)
    rw [hasExpired_eq]
    cases t.c.ents.find? (fun x => keq x.key k) <;> exact .ok rfl
  | hasExpiredU u =>
    refine hr.completes hO (Completes.ret ?_)
    rcases U hs with rfl | ⟨e, he, rfl⟩
    · exact .ok rfl
    · exact .ok (hasExpiredU_own ht he)
  | hasExpiredO u =>
    refine hr.completes hO (Completes.ret ?_)
    rcases W hs with rfl | ⟨e, he, rfl⟩
    · exact .ok rfl
    · exact .ok (hasExpiredO_own ht he)
  | isValidU u =>
    refine hr.completes hO (Completes.ret ?_)
    rcases hs with hb | hs
    · cases u with
      | none => exact .ok rfl
      | some p =>
        unfold Mid.isValidU
        simp only
        rw [bind_ok (m := Mid.getKind) (s := t) rfl, ← hr.rep.kind, hb]
        exact .ok rfl
    · rcases U hs with rfl | ⟨e, he, rfl⟩
      · exact .ok rfl
      · exact .ok (isValidU_own ht he)
  | isValidO u =>
    refine hr.completes hO (Completes.ret ?_)
    rcases hs with hb | hs
    · cases u with
      | none => exact .ok rfl
      | some p =>
        unfold Mid.isValidO
        simp only
        rw [bind_ok (m := Mid.getKind) (s := t) rfl, ← hr.rep.kind, hb]
        exact .ok rfl
    · rcases W hs with rfl | ⟨e, he, rfl⟩
      · exact .ok rfl
      · exact .ok (isValidO_own ht he)
  | uKey u =>
    refine hr.completes hO (Completes.ret ?_)
    rcases U hs.2 with rfl | ⟨e, he, rfl⟩
    · exact absurd rfl hs.1
    · rw [uKey_own ht he]; exact .ite (.throw rfl) (.ok rfl)
  | uValue u =>
    refine hr.completes hO (Completes.ret ?_)
    rcases U hs.2 with rfl | ⟨e, he, rfl⟩
    · exact absurd rfl hs.1
    · rw [uValue_own ht he]; exact .ite (.throw rfl) (.ok rfl)
  | oBegin => exact .ok rfl
  | oNext u =>
    rcases W hs.2 with rfl | ⟨e, he, rfl⟩
    · exact absurd rfl hs.1
    · obtain ⟨i, hi⟩ := List.mem_iff_getElem?.1 he
      exact .ok (oNext_returns (i := i) hr.order_nodup (by rw [hr.position_eq, hi]; rfl))
  | oPrev u =>
    obtain ⟨h1, h2⟩ := hs
    have hlen : s.c.order.length = t.c.ents.length := by rw [hr.rep.order, List.length_map]
    rcases W h2 with rfl | ⟨e, he, rfl⟩
    · have hpos : 0 < s.c.order.length := by
        cases ho : s.c.order with
        | nil => exact absurd (by unfold position; rw [ho]; rfl) h1
        | cons _ _ => simp
      have := oPrev_returns (O := O) hr.order_nodup (i := s.c.order.length - 1) (by omega)
      have e1 : position s.c (s.c.order.length - 1 + 1) = none := by
        unfold position
        rw [List.getElem?_eq_none (by omega)]; rfl
      rw [e1] at this
      exact .ok this
    · obtain ⟨i, hi⟩ := List.mem_iff_getElem?.1 he
      have hp : position s.c i = some e.slot := by rw [hr.position_eq, hi]; rfl
      have hlt := (List.getElem?_eq_some_iff.1 hi).1
      cases i with
      | zero => exact absurd hp.symm h1
      | succ i =>
        have := oPrev_returns (O := O) hr.order_nodup (i := i) (by omega)
        rw [hp] at this
        exact .ok this
  | oKey u =>
    refine hr.completes hO (Completes.ret ?_)
    rcases W hs with rfl | ⟨e, he, rfl⟩
    · exact .throw rfl
    · rw [oKey_own ht he]; exact .ite (.throw rfl) (.ok rfl)
  | oValue u =>
    refine hr.completes hO (Completes.ret ?_)
    rcases W hs with rfl | ⟨e, he, rfl⟩
    · exact .throw rfl
    · rw [oValue_own ht he]; exact .ite (.throw rfl) (.ok rfl)
  | toOrdered u =>
    refine hr.completes hO (Completes.ret ?_)
    rcases U hs with rfl | ⟨e, he, rfl⟩
    · exact .throw rfl
    · exact .ok (toOrdered_own ht he)
  | eqOU o u =>
    refine hr.completes hO (Completes.ret ?_)
    rcases U hs with rfl | ⟨e, he, rfl⟩
    · exact .ok rfl
    · unfold Mid.eqOU M.noexcept
      simp only
      rw [bind_ok (toOrdered_own ht he)]
      exact .ok rfl
  | monitor i => exact .ok rfl
  | monitorNew ks => exact .ok rfl
  | stopMonitoring => exact .ok rfl
  | isMonitoring => exact .ok rfl
  | stats =>
    refine hr.completes hO (Completes.ret ?_)
    unfold Mid.stats
    rw [bind_ok (m := Mid.getObs) (s := t) rfl]
    cases t.c.obs.stats with
    | none => exact .throw rfl
    | some i => exact .ok rfl
  | sharedStats => exact .ok rfl
  | addHitCallback cb => exact .ok rfl
  | addMissCallback cb => exact .ok rfl
  | addAccessCallback cb => exact .ok rfl
  | clearHitCallbacks => exact .ok rfl
  | clearMissCallbacks => exact .ok rfl
  | clearAccessCallbacks => exact .ok rfl
  | clearAllCallbacks => exact .ok rfl
  | write p v =>
    refine hr.completes hO (Completes.ret ?_)
    obtain ⟨e, he, rfl⟩ := List.mem_map.1 (hr.validU_some.1 hs)
    exact .ok (write_own ht he v)
  | read p =>
    refine hr.completes hO (Completes.ret ?_)
    obtain ⟨e, he, rfl⟩ := List.mem_map.1 (hr.validU_some.1 hs)
    exact .ok (read_own ht he)

/-- Calls whose preconditions do not hold have undefined behaviour. -/
theorem step_unsafe (hO : NoListFault O) (hr : Rel s t) (ht : Ok t) (hs : ¬ Safe s.c op) :
    Impl.step O op s = .ub := by
  have hcap : ¬ s.c.capacity ≠ none → t.c.cap = none := by
    intro h
    rw [hr.rep.cap] at h
    exact Classical.not_not.1 h
  have U : ∀ {u : Option Ptr}, ¬ ValidU s.c u → ∃ p, u = some p ∧ p ∉ t.c.ents.map (·.id) := by
    intro u hu
    cases u with
    | none => exact absurd (validU_none _) hu
    | some p => exact ⟨p, rfl, fun h => hu (hr.validU_some.2 h)⟩
  have W : ∀ {u : Option Ptr}, ¬ ValidO s.c u → ∃ p, u = some p ∧ p ∉ t.c.ents.map (·.slot) := by
    intro u hu
    cases u with
    | none => exact absurd (validO_none _) hu
    | some p => exact ⟨p, rfl, fun h => hu ((hr.validO_some ht).2 h)⟩
  have hHO : ∀ {p : Ptr}, p ∉ t.c.ents.map (·.slot) → Mid.hasExpiredO O (some p) t = .ub :=
    fun hp => bind_ub (oLookup_not hp)
  have hTO : ∀ {p : Ptr}, p ∉ t.c.ents.map (·.slot) → ∀ {β : Type} (f : Unit → Mid.CM K V β),
      (∀ u, f u t = .ub) → (Mid.throwIfInvalidO O (some p) >>= f) t = .ub := by
    intro p hp β f hf
    cases hk : t.c.kind with
    | basic => rw [bind_ok (throwIfInvalidO_basic hk)]; exact hf _
    | timed ttl res =>
      apply bind_ub
      unfold Mid.throwIfInvalidO
      simp only
      rw [bind_ok (m := Mid.getKind) (s := t) rfl, hk]
      exact bind_ub (hHO hp)
  cases op with
  | insert k v => exact hr.back_ub hO (bind_ub ((insert_out ht hO k v).ub (hcap hs)))
  | emplace k v => exact hr.back_ub hO (bind_ub ((emplace_out ht hO k v).ub (hcap hs)))
  | insertRange l =>
    obtain ⟨h1, h2⟩ := not_or.1 hs
    cases l with
    | nil => exact absurd rfl h1
    | cons p l => exact hr.back_ub hO (bind_ub (bind_ub ((insert_out ht hO p.1 p.2).ub (hcap h2))))
  | insertRangeMove l =>
    obtain ⟨h1, h2⟩ := not_or.1 hs
    cases l with
    | nil => exact absurd rfl h1
    | cons p l => exact hr.back_ub hO (bind_ub (bind_ub ((emplace_out ht hO p.1 p.2).ub (hcap h2))))
  | assignRange l =>
    refine hr.back_ub hO (bind_ub (bind_ub ?_))
    unfold Mid.clearAndIncreaseCapacity
    rw [bind_ok clear_eq]
    exact bind_ub (readCapacity_unset (hcap hs))
  | assignRangeMove l =>
    refine hr.back_ub hO (bind_ub (bind_ub ?_))
    unfold Mid.clearAndIncreaseCapacity
    rw [bind_ok clear_eq]
    exact bind_ub (readCapacity_unset (hcap hs))
  | capacity => exact hr.back_ub hO (bind_ub (readCapacity_unset (hcap hs)))
  | spaceLeft => exact hr.back_ub hO (bind_ub (bind_ub (readCapacity_unset (hcap hs))))
  | isFull =>
    refine hr.back_ub hO (bind_ub ?_)
    unfold Mid.isFull
    rw [bind_ok (m := Mid.size) (s := t) rfl]
    exact bind_ub (readCapacity_unset (hcap hs))
  | eraseU u =>
    obtain ⟨p, rfl, hp⟩ := U hs
    exact hr.back_ub hO (bind_ub (eraseU_not hp))
  | hasExpiredU u =>
    obtain ⟨p, rfl, hp⟩ := U hs
    exact hr.back_ub hO (bind_ub (bind_ub (derefIt_not hp)))
  | toOrdered u =>
    obtain ⟨p, rfl, hp⟩ := U hs
    exact hr.back_ub hO (bind_ub (bind_ub (derefIt_not hp)))
  | eqOU o u =>
    obtain ⟨p, rfl, hp⟩ := U hs
    refine hr.back_ub hO (bind_ub ?_)
    unfold Mid.eqOU M.noexcept
    simp only
    rw [bind_ub (m := Mid.toOrdered { pos := some p }) (bind_ub (derefIt_not hp))]
  | isValidU u =>
    obtain ⟨h1, h2⟩ := not_or.1 hs
    obtain ⟨p, rfl, hp⟩ := U h2
    refine hr.back_ub hO (bind_ub ?_)
    unfold Mid.isValidU
    simp only
    rw [bind_ok (m := Mid.getKind) (s := t) rfl, ← hr.rep.kind]
    cases hk : s.c.kind with
    | basic => exact absurd hk h1
    | timed ttl res => exact bind_ub (bind_ub (derefIt_not hp))
  | uKey u =>
    cases u with
    | none => rfl
    | some p =>
      obtain ⟨q, h, hp⟩ := U (fun h => hs ⟨by simp, h⟩)
      injection h with h; subst h
      exact hr.back_ub hO (bind_ub (bind_ub (bind_ub (bind_ub (derefIt_not hp)))))
  | uValue u =>
    cases u with
    | none => rfl
    | some p =>
      obtain ⟨q, h, hp⟩ := U (fun h => hs ⟨by simp, h⟩)
      injection h with h; subst h
      exact hr.back_ub hO (bind_ub (bind_ub (bind_ub (bind_ub (derefIt_not hp)))))
  | eraseO u =>
    obtain ⟨p, rfl, hp⟩ := W hs
    exact hr.back_ub hO (bind_ub (eraseO_not hp))
  | hasExpiredO u =>
    obtain ⟨p, rfl, hp⟩ := W hs
    exact hr.back_ub hO (bind_ub (hHO hp))
  | oKey u =>
    obtain ⟨p, rfl, hp⟩ := W hs
    exact hr.back_ub hO (bind_ub (hTO hp _ fun _ => keyAt_not hp))
  | oValue u =>
    obtain ⟨p, rfl, hp⟩ := W hs
    exact hr.back_ub hO (bind_ub (bind_ub (hTO hp _ fun _ => bind_ub (oLookup_not hp))))
  | isValidO u =>
    obtain ⟨h1, h2⟩ := not_or.1 hs
    obtain ⟨p, rfl, hp⟩ := W h2
    refine hr.back_ub hO (bind_ub ?_)
    unfold Mid.isValidO
    simp only
    rw [bind_ok (m := Mid.getKind) (s := t) rfl, ← hr.rep.kind]
    cases hk : s.c.kind with
    | basic => exact absurd hk h1
    | timed ttl res => exact bind_ub (hHO hp)
  | oNext u =>
    cases u with
    | none => rfl
    | some p =>
      obtain ⟨q, h, hp⟩ := W (fun h => hs ⟨by simp, h⟩)
      injection h with h; subst h
      refine hr.back_ub hO (bind_ub ?_)
      unfold Mid.oNext
      rw [bind_ok (m := Mid.orderAddrs) (s := t) rfl]
      simp only
      rw [after_not hp]
      rfl
  | oPrev u =>
    by_cases h0 : u = position s.c 0
    · rw [h0]; exact oPrev_first hr.order_nodup
    · obtain ⟨p, rfl, hp⟩ := W (fun h => hs ⟨h0, h⟩)
      refine hr.back_ub hO (bind_ub ?_)
      unfold Mid.oPrev
      rw [bind_ok (m := Mid.orderAddrs) (s := t) rfl]
      simp only
      rw [after_not (fun h => hp (List.mem_reverse.1 h))]
      rfl
  | write p v =>
    obtain ⟨q, h, hp⟩ := U hs
    injection h with h; subst h
    exact hr.back_ub hO (bind_ub (bind_ub (derefIt_not hp)))
  | read p =>
    obtain ⟨q, h, hp⟩ := U hs
    injection h with h; subst h
    exact hr.back_ub hO (bind_ub (bind_ub (derefIt_not hp)))
  | _ => exact absurd trivial hs

/-- `front()` and `back()` on an empty cache terminate the program. -/
theorem step_terminates (hO : NoListFault O) (hr : Rel s t) (ht : Ok t) (hn : Terminates s.c op) :
    Impl.step O op s = .terminate := by
  obtain ⟨h, he⟩ := hn
  have hnil : t.c.ents = [] := by
    rw [hr.elements] at he
    exact List.map_eq_nil_iff.1 he
  rcases h with rfl | rfl
  · refine hr.back_terminate hO (bind_terminate ?_)
    rw [front_eq ht, hnil]; rfl
  · refine hr.back_terminate hO (bind_terminate ?_)
    rw [back_eq ht, hnil]; rfl

end LRU
