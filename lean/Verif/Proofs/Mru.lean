import Verif.Proofs.Bridge
/-!
# The last accessed entry is the most recently used one

Holds as long as no assignment of a value throws.
-/

set_option linter.unusedSectionVars false

namespace LRU

variable {K V : Type} [KeyEqual K] {α β : Type}

/-- `_last_accessed` denotes the last entry of the order list. -/
def Mru (a : MCache K V) : Prop := ∀ p, a.last = some p → a.ents.getLast?.map (·.id) = some p

/-- Both invariants. -/
structure OkM (t : St (MCache K V) K V) : Prop where
  ok : Ok t
  mru : Mru t.c

def KeepsM (m : Mid.CM K V α) : Prop := ∀ t, OkM t → (m t).Post OkM

section rules

theorem KeepsM.bind {m : Mid.CM K V α} {f : α → Mid.CM K V β} (h : KeepsM m) (h' : ∀ a, KeepsM (f a)) :
    KeepsM (m >>= f) := by
  intro t ht
  have h1 := h t ht
  show Out.Post _ (M.bind m f t)
  unfold M.bind
  cases hm : m t <;> rw [hm] at h1 <;> first | exact h' _ _ h1 | exact h1 | trivial

theorem KeepsM.pure {a : α} : KeepsM (Pure.pure a : Mid.CM K V α) := fun _ h => h

theorem KeepsM.ret {m : Mid.CM K V α} {f : α → Res K V} (h : KeepsM m) : KeepsM (Impl.ret m f) :=
  h.bind fun _ => .pure

theorem ReadOnly.keepsM {m : Mid.CM K V α} (h : ReadOnly m) : KeepsM m := by
  intro t ht
  have h1 := h t
  have h2 := h.keeps t ht.ok
  cases hm : m t <;> rw [hm] at h1 h2 <;> first | trivial | skip
  · exact ⟨h2.ok, by rw [h1.1]; exact ht.mru⟩
  · exact ⟨h2.ok, by rw [h1.1]; exact ht.mru⟩

/-- The invariants are kept when `Keeps` is known and the most recent entry is checked. -/
theorem Keeps.keepsM {m : Mid.CM K V α} (h : Keeps m)
    (h' : ∀ t, OkM t → (m t).Post (fun t' => Mru t'.c)) : KeepsM m := by
  intro t ht
  have h1 := h t ht.ok
  have h2 := h' t ht
  cases hm : m t <;> rw [hm] at h1 h2 <;> first | trivial | exact ⟨h1.ok, h2⟩

end rules

theorem Mru.touch {a : MCache K V} (e : Ent K V) : Mru (a.touch e) := by
  intro p hp
  simp only [MCache.touch, Option.some.injEq] at hp
  simp [MCache.touch, toEnd, hp]

theorem getLast_sublist {ids : List Nat} {l : List Nat} (h : l.Sublist ids) (hn : ids.Nodup) {p : Nat}
    (hp : ids.getLast? = some p) (hm : p ∈ l) : l.getLast? = some p := by
  induction h with
  | slnil => cases hp
  | @cons l' ids' x hs ih =>
    cases hids : ids' with
    | nil =>
      subst hids
      cases hs
      cases hm
    | cons y r =>
      rw [hids, List.getLast?_cons_cons, ← hids] at hp
      exact ih (List.nodup_cons.1 hn).2 hp hm
  | @cons_cons l' ids' x hs ih =>
    cases hids : ids' with
    | nil =>
      subst hids
      cases hs
      exact hp
    | cons y r =>
      have hp' := hp
      rw [hids, List.getLast?_cons_cons, ← hids] at hp'
      have hpm : p ∈ ids' := List.mem_of_getLast? hp'
      have hx : p ≠ x := fun h => (List.nodup_cons.1 hn).1 (h ▸ hpm)
      have hm' : p ∈ l' := by
        rcases List.mem_cons.1 hm with h | h
        · exact absurd h hx
        · exact h
      have := ih (List.nodup_cons.1 hn).2 hp' hm'
      cases hl : l' with
      | nil => rw [hl] at hm'; cases hm'
      | cons z r' => rw [List.getLast?_cons_cons, ← hl]; exact this

theorem Mru.prune {a : MCache K V} (h : Mru a) (hn : (a.ents.map (·.id)).Nodup) {l : List (Ent K V)}
    (hl : l.Sublist a.ents) : Mru (a.prune l) := by
  intro p hp
  simp only [MCache.prune, Option.filter_eq_some_iff] at hp
  obtain ⟨h1, h2⟩ := hp
  have hlast := h p h1
  rw [← List.getLast?_map] at hlast ⊢
  refine getLast_sublist (hl.map _) hn hlast ?_
  obtain ⟨x, hx, hxp⟩ := List.any_eq_true.1 h2
  exact List.mem_map.2 ⟨x, hx, by simpa using hxp⟩

section ops

variable [DecidableEq K] {O : Oracle K V}

theorem find_mru {t : St (MCache K V) K V} (h : OkM t) {k : K} {o} (ho : FindOut O k t o) :
    o.Post (fun t' => Mru t'.c) := by
  cases ho with
  | hit e _ _ => exact Mru.touch e
  | _ => exact h.mru

theorem find_keepsM {k : K} : KeepsM (Mid.find O k) :=
  find_keeps.keepsM fun _ h => find_mru h (find_out h.ok k)

theorem contains_keepsM {k : K} : KeepsM (Mid.contains O k) := by
  refine contains_keeps.keepsM fun t h => ?_
  have ho := contains_out (O := O) h.ok k
  generalize Mid.contains O k t = r at ho
  cases ho with
  | found p t' _ hf => exact find_mru h hf
  | throws e t' _ hf => exact find_mru h hf
  | _ => exact h.mru

theorem lookup_keepsM {k : K} : KeepsM (Mid.lookup O k) := by
  refine lookup_keeps.keepsM fun t h => ?_
  have ho := lookup_out (O := O) h.ok k
  generalize Mid.lookup O k t = r at ho
  cases ho with
  | notFound t' _ hf => exact find_mru h hf
  | throws e t' _ hf => exact find_mru h hf
  | hit e _ _ _ _ => exact Mru.touch e
  | lateExpired e _ _ _ _ => exact Mru.touch e
  | _ => exact h.mru

theorem InsertOut.mru (hA : NoAssignFault O) {t : St (MCache K V) K V} (h : OkM t) {k : K} {v : V} {o}
    (ho : InsertOut O k v t o) : o.Post (fun t' => Mru t'.c) := by
  cases ho with
  | unset _ => trivial
  | zero _ => exact h.mru
  | fault => exact h.mru
  | full => intro p hp; simp only [Option.some.injEq] at hp; simp [hp]
  | room => intro p hp; simp only [Option.some.injEq] at hp; simp [hp]
  | update => intro p hp; simp only [Option.some.injEq] at hp; simp [hp]
  | updateFault g' e m n _ _ _ hf => rw [hA m] at hf; cases hf

theorem insert_keepsM (hO : NoListFault O) (hA : NoAssignFault O) {k : K} {v : V} : KeepsM (Mid.insert O k v) :=
  (insert_keeps hO).keepsM fun _ h => (insert_out h.ok hO k v).mru hA h

theorem emplace_keepsM (hO : NoListFault O) (hA : NoAssignFault O) {k : K} {v : V} : KeepsM (Mid.emplace O k v) :=
  (emplace_keeps hO).keepsM fun _ h => (emplace_out h.ok hO k v).mru hA h

theorem insertRange_keepsM (hO : NoListFault O) (hA : NoAssignFault O) {l : List (K × V)} :
    KeepsM (Mid.insertRange O l) := by
  induction l with
  | nil => exact .pure
  | cons p l ih =>
    obtain ⟨k, v⟩ := p
    exact (insert_keepsM hO hA).bind fun _ => ih.bind fun _ => .pure

theorem insertRangeMove_keepsM (hO : NoListFault O) (hA : NoAssignFault O) {l : List (K × V)} :
    KeepsM (Mid.insertRangeMove O l) := by
  induction l with
  | nil => exact .pure
  | cons p l ih =>
    obtain ⟨k, v⟩ := p
    exact (emplace_keepsM hO hA).bind fun _ => ih.bind fun _ => .pure

theorem erase_keepsM {k : K} : KeepsM (Mid.erase k : Mid.CM K V Bool) := by
  refine erase_keeps.keepsM fun t h => ?_
  rw [erase_eq h.ok]
  cases t.c.ents.find? (fun x => keq x.key k) with
  | none => exact h.mru
  | some e => exact h.mru.prune h.ok.awf.ids (without_sublist e _)

theorem eraseU_keepsM {it : Option Ptr} : KeepsM (Mid.eraseU it : Mid.CM K V Unit) := by
  refine eraseU_keeps.keepsM fun t h => ?_
  cases it with
  | none => exact h.mru
  | some p =>
    by_cases hp : p ∈ t.c.ents.map (·.id)
    · obtain ⟨e, he, rfl⟩ := List.mem_map.1 hp
      rw [eraseU_own h.ok he]
      exact h.mru.prune h.ok.awf.ids (without_sublist e _)
    · rw [eraseU_not hp]; trivial

theorem eraseO_keepsM {it : Option Ptr} : KeepsM (Mid.eraseO O { pos := it }) := by
  refine eraseO_keeps.keepsM fun t h => ?_
  cases it with
  | none => exact h.mru
  | some p =>
    by_cases hp : p ∈ t.c.ents.map (·.slot)
    · obtain ⟨e, he, rfl⟩ := List.mem_map.1 hp
      rw [eraseO_own h.ok he]
      split
      · exact h.mru
      · exact h.mru.prune h.ok.awf.ids (without_sublist e _)
    · rw [eraseO_not hp]; trivial

theorem clear_keepsM : KeepsM (Mid.clear : Mid.CM K V Unit) := by
  refine clear_keeps.keepsM fun t h => ?_
  rw [clear_eq]
  exact h.mru.prune h.ok.awf.ids (List.nil_sublist _)

theorem shrink_keepsM {n : Nat} : KeepsM (Mid.shrink n : Mid.CM K V Unit) := by
  refine shrink_keeps.keepsM fun t h => ?_
  rw [shrink_eq h.ok]
  exact h.mru.prune h.ok.awf.ids (List.drop_sublist _ _)

theorem setCapacity_keepsM {n : Nat} : KeepsM (Mid.setCapacity n : Mid.CM K V Unit) := by
  refine setCapacity_keeps.keepsM fun t h => ?_
  rw [setCapacity_eq h.ok]
  exact h.mru.prune h.ok.awf.ids (List.drop_sublist _ _)

theorem clearAndIncreaseCapacity_keepsM {n : Nat} :
    KeepsM (Mid.clearAndIncreaseCapacity n : Mid.CM K V Unit) := by
  refine clearAndIncreaseCapacity_keeps.keepsM fun t h => ?_
  have h1 := h.mru.prune h.ok.awf.ids (List.nil_sublist _)
  unfold Mid.clearAndIncreaseCapacity
  rw [bind_ok clear_eq]
  cases hc : t.c.cap with
  | none => rw [bind_ub (by simp [Mid.readCapacity, MCache.prune, hc])]; trivial
  | some m =>
    rw [bind_ok (m := Mid.readCapacity) (a := m) (s' := ⟨t.c.prune [], t.g⟩)
      (by simp [Mid.readCapacity, MCache.prune, hc])]
    by_cases hn : n > m
    · rw [if_pos hn]; exact h1
    · rw [if_neg hn]; exact h1

theorem clearExpired_keepsM : KeepsM (Mid.clearExpired O) := by
  refine clearExpired_keeps.keepsM fun t h => ?_
  obtain ⟨m, _, _, _, he⟩ := clearExpired_eq (O := O) h.ok
  rw [he]
  exact h.mru.prune h.ok.awf.ids (List.drop_sublist _ _)

theorem setObs_keepsM {f : Obs → Obs} :
    KeepsM (Mid.setSelf fun c => { c with obs := f c.obs } : Mid.CM K V Unit) :=
  setObs_keeps.keepsM fun _ h => h.mru

theorem monitorNew_keepsM {ks : List K} : KeepsM (Mid.monitorNew ks : Mid.CM K V Nat) :=
  monitorNew_keeps.keepsM fun _ h => h.mru

theorem write_keepsM {p : Ptr} {v : V} : KeepsM (Mid.write p v : Mid.CM K V Unit) := by
  refine derefIt_ro.keepsM.bind fun n => ?_
  intro t h
  refine ⟨(Step.setVal h.ok n.addr (fun _ => v)).ok, ?_⟩
  intro p hp
  have := h.mru p hp
  show (t.c.ents.map (Ent.setVal n.addr (fun _ => v))).getLast?.map (·.id) = some p
  rw [← List.getLast?_map] at this ⊢
  rw [List.map_map, show ((fun x => x.id) ∘ Ent.setVal n.addr (fun _ => v) : Ent K V → Ptr) = (·.id) from
    funext (Ent.setVal_id _ _)]
  exact this

/-- Every call keeps the most recent entry in `_last_accessed`, if no assignment of a value throws. -/
theorem step_keepsM (hO : NoListFault O) (hA : NoAssignFault O) (op : Op K V) : KeepsM (Mid.step O op) := by
  cases op with
  | contains k => exact contains_keepsM.ret
  | find k => exact find_keepsM.ret
  | lookup k => exact lookup_keepsM.ret
  | insert k v => exact (insert_keepsM hO hA).ret
  | emplace k v => exact (emplace_keepsM hO hA).ret
  | insertRange l => exact (insertRange_keepsM hO hA).ret
  | insertRangeMove l => exact (insertRangeMove_keepsM hO hA).ret
  | assignRange l =>
    exact (clearAndIncreaseCapacity_keepsM.bind fun _ => (insertRange_keepsM hO hA).bind fun _ => .pure).ret
  | assignRangeMove l =>
    exact (clearAndIncreaseCapacity_keepsM.bind fun _ => (insertRangeMove_keepsM hO hA).bind fun _ => .pure).ret
  | erase k => exact erase_keepsM.ret
  | eraseU pos => exact eraseU_keepsM.ret
  | eraseO pos => exact eraseO_keepsM.ret
  | clear => exact clear_keepsM.ret
  | shrink n => exact shrink_keepsM.ret
  | setCapacity n => exact setCapacity_keepsM.ret
  | size => exact size_ro.ret.keepsM
  | capacity => exact readCapacity_ro.ret.keepsM
  | spaceLeft => exact spaceLeft_ro.ret.keepsM
  | isEmpty => exact isEmpty_ro.ret.keepsM
  | isFull => exact isFull_ro.ret.keepsM
  | front => exact front_ro.ret.keepsM
  | back => exact back_ro.ret.keepsM
  | allExpired => exact allExpired_ro.ret.keepsM
  | clearExpired => exact clearExpired_keepsM.ret
  | hasExpired k => exact hasExpired_ro.ret.keepsM
  | hasExpiredU pos => exact hasExpiredU_ro.ret.keepsM
  | hasExpiredO pos => exact hasExpiredO_ro.ret.keepsM
  | isValidU pos => exact isValidU_ro.ret.keepsM
  | isValidO pos => exact isValidO_ro.ret.keepsM
  | uKey pos => exact uKey_ro.ret.keepsM
  | uValue pos => exact uValue_ro.ret.keepsM
  | oBegin => exact oBegin_ro.ret.keepsM
  | oNext pos => exact oNext_ro.ret.keepsM
  | oPrev pos => exact oPrev_ro.ret.keepsM
  | oKey pos => exact oKey_ro.ret.keepsM
  | oValue pos => exact oValue_ro.ret.keepsM
  | toOrdered pos => exact toOrdered_ro.ret.keepsM
  | eqOU o u => exact eqOU_ro.ret.keepsM
  | monitor i => exact (setObs_keepsM (f := fun o => { o with stats := i })).ret
  | monitorNew ks => exact monitorNew_keepsM.ret
  | stopMonitoring => exact (setObs_keepsM (f := fun o => { o with stats := none })).ret
  | isMonitoring => exact isMonitoring_ro.ret.keepsM
  | stats => exact stats_ro.ret.keepsM
  | sharedStats => exact sharedStats_ro.ret.keepsM
  | addHitCallback cb => exact (setObs_keepsM (f := fun o => { o with hitCbs := o.hitCbs ++ [cb] })).ret
  | addMissCallback cb => exact (setObs_keepsM (f := fun o => { o with missCbs := o.missCbs ++ [cb] })).ret
  | addAccessCallback cb => exact (setObs_keepsM (f := fun o => { o with accCbs := o.accCbs ++ [cb] })).ret
  | clearHitCallbacks => exact (setObs_keepsM (f := fun o => { o with hitCbs := [] })).ret
  | clearMissCallbacks => exact (setObs_keepsM (f := fun o => { o with missCbs := [] })).ret
  | clearAccessCallbacks => exact (setObs_keepsM (f := fun o => { o with accCbs := [] })).ret
  | clearAllCallbacks => exact (setObs_keepsM (f := fun o => { o with hitCbs := [], missCbs := [], accCbs := [] })).ret
  | write p v => exact write_keepsM.ret
  | read p => exact read_ro.ret.keepsM

end ops

/-! ### Worlds -/

/-- The invariant, on the members of a cache. -/
def MruC (c : Cache K V) : Prop := ∀ p, c.last = some p → c.order.getLast?.map (·.ref) = some p

theorem Rep.mru {c : Cache K V} {a : MCache K V} (h : Rep c a) : MruC c ↔ Mru a := by
  unfold MruC Mru
  rw [h.last, h.order, List.getLast?_map]
  rw [Option.map_map]
  exact Iff.rfl

section world

variable [DecidableEq K] [DecidableEq V] {O : Oracle K V}

theorem member_mru {m : Impl.CM K V α} {m' : Mid.CM K V α} (hs : Sim m m') (hk : KeepsM m')
    {s : St (Cache K V) K V} {t : St (MCache K V) K V} (hr : Rel s t) (ht : Ok t) (hm : MruC s.c) :
    (m s).Post (fun s' => MruC s'.c) := by
  have h1 := hs s t hr trivial
  have h2 := hk t ⟨ht, hr.rep.mru.1 hm⟩
  cases hm : m s <;> cases hm' : m' t <;> rw [hm, hm'] at h1 <;> rw [hm'] at h2 <;>
    first | exact h1.elim | trivial | skip
  · exact h1.2.1.rep.mru.2 h2.mru
  · exact h1.2.rep.mru.2 h2.mru

theorem MruC.congr {c d : Cache K V} (h : MruC c) (h1 : d.last = c.last) (h2 : d.order = c.order) : MruC d := by
  intro p hp
  rw [h2]
  exact h p (h1 ▸ hp)

theorem ctorBody_mru (hO : NoListFault O) (hA : NoAssignFault O) (ctor : Ctor K V) :
    ∃ m', Sim (Impl.ctorBody O ctor) m' ∧ KeepsM m' := by
  cases ctor with
  | default => exact ⟨_, RSim.pure (fun _ _ => trivial), .pure⟩
  | sized n => exact ⟨_, RSim.pure (fun _ _ => trivial), .pure⟩
  | sizedItems n l => exact ⟨_, insertRange_sim hO, insertRange_keepsM hO hA⟩
  | items l => exact ⟨_, insertRange_sim hO, insertRange_keepsM hO hA⟩
  | initList l => exact ⟨_, insertRange_sim hO, insertRange_keepsM hO hA⟩
  | sizedRangeMove n l => exact ⟨_, insertRangeMove_sim hO, insertRangeMove_keepsM hO hA⟩
  | rangeMove l => exact ⟨_, insertRangeMove_sim hO, insertRangeMove_keepsM hO hA⟩

theorem mru_own (hO : NoListFault O) (hA : NoAssignFault O) : OwnOK O (fun (c : Cache K V) _ => MruC c) where
  empty := by
    intro c n _ _ h p hp
    rw [h] at hp
    cases hp
  mono h _ := h
  congr h _ h1 h2 _ := h.congr h2 h1
  call := by
    intro s s' t op res hr ht h hp
    have := member_mru (step_sim hO op) (step_keepsM hO hA op) hr ht h
    cases res <;> (unfold Performs at hp; simp only at hp; rw [hp] at this; exact this)
  create := by
    intro s s' t ctor n hr ht h hb
    obtain ⟨m', hs, hk⟩ := ctorBody_mru hO hA ctor
    have := member_mru hs hk hr ht h
    rw [hb] at this
    exact this

/-- Every reachable cache has a counterpart in which the last accessed entry is the most recent one. -/
theorem Reachable.relM (hO : NoListFault O) (hA : NoAssignFault O) {s : St (Cache K V) K V} (h : Reachable O s) :
    ∃ t, Rel s t ∧ OkM t := by
  obtain ⟨t, hr, ht⟩ := h.rel hO
  refine ⟨t, hr, ht, ?_⟩
  exact hr.rep.mru.1 ((mru_own hO hA).reachable hO h)

end world

end LRU
