import Verif.Spec.Textbook
import Verif.Proofs.Mru
import Verif.Proofs.Outcomes
import Verif.Proofs.Walk
import Verif.Proofs.HistoryInv
import Verif.Props.Lookup
import Verif.Props.Iterators
/-!
# Calls follow the textbook LRU map

Call by call, for `Props.History`.
-/

set_option linter.unusedSectionVars false
set_option autoImplicit false

namespace LRU

variable {K V : Type} [KeyEqual K] {α β : Type}

/-- A list cache as an LRU map. -/
def MCache.lru (a : MCache K V) : Lru K V := ⟨a.cap, a.ents.map fun e => (e.key, e.val)⟩

theorem Rel.lru {s : St (Cache K V) K V} {t : St (MCache K V) K V} (hr : Rel s t) : asLru s.c = t.c.lru := by
  unfold asLru MCache.lru
  rw [hr.rep.cap]
  congr 1
  unfold entries
  rw [hr.elements, List.map_map]
  rfl

theorem Lru.run_append (l : Lru K V) (a b : List (Act K V)) : l.run (a ++ b) = (l.run a).run b := by
  unfold Lru.run; rw [List.foldl_append]

theorem Lru.run_one {l l' : Lru K V} {a : Act K V} (h : l' = l.act a) : l' = l.run [a] := h

theorem Lru.put_zero {l : Lru K V} {k : K} {v : V} (hc : l.capacity = some 0) : l.act (.put k v) = l := by
  simp only [Lru.act, hc]

theorem Lru.put_old {l : Lru K V} {k : K} {v : V} {n : Nat} {x : K × V} (hc : l.capacity = some (n + 1))
    (hx : l.item k = some x) : l.act (.put k v) = { l with items := l.others k ++ [(x.1, v)] } := by
  simp only [Lru.act, hc, hx]

theorem Lru.put_new {l : Lru K V} {k : K} {v : V} {n : Nat} (hc : l.capacity = some (n + 1))
    (hx : l.item k = none) : l.act (.put k v) =
      { l with items := (if l.items.length ≤ n then l.items else l.items.tail) ++ [(k, v)] } := by
  simp only [Lru.act, hc, hx]

theorem Lru.use_old {l : Lru K V} {k : K} {x : K × V} (hx : l.item k = some x) :
    l.act (.use k) = { l with items := l.others k ++ [x] } := by
  simp only [Lru.act, hx]

theorem Lru.use_new {l : Lru K V} {k : K} (hx : l.item k = none) : l.act (.use k) = l := by
  simp only [Lru.act, hx]

/-- What is left behind is what the acts `a` lead to; after an exception, an initial part of `b`. -/
def FollowsOut (l : Lru K V) (a b : List (Act K V)) : Out (St (MCache K V) K V) α → Prop
  | .ok _ t' => t'.c.lru = l.run a
  | .throw _ t' => ∃ n, t'.c.lru = l.run (b.take n)
  | _ => True

theorem FollowsOut.mono {l : Lru K V} {a b : List (Act K V)} {o : Out (St (MCache K V) K V) α}
    (h : FollowsOut l a [] o) : FollowsOut l a b o := by
  cases o with
  | throw e t' => obtain ⟨n, h⟩ := h; exact ⟨0, by rw [h]; simp⟩
  | _ => exact h

theorem follows_one {l : Lru K V} {a : Act K V} {b : List (Act K V)} {x : α} {t' : St (MCache K V) K V}
    (h : t'.c.lru = l.act a) : FollowsOut l [a] b (.ok x t') := h

/-- The body does what the acts do. -/
def Follows (m : Mid.CM K V α) (a b : List (Act K V)) : Prop := ∀ t, OkM t → FollowsOut t.c.lru a b (m t)

theorem Follows.mono {m : Mid.CM K V α} {a b : List (Act K V)} (h : Follows m a []) : Follows m a b :=
  fun t ht => (h t ht).mono

theorem Follows.bind {m : Mid.CM K V α} {f : α → Mid.CM K V β} {a b : List (Act K V)} (hk : KeepsM m)
    (h : Follows m a a) (h' : ∀ x, Follows (f x) b b) : Follows (m >>= f) (a ++ b) (a ++ b) := by
  intro t ht
  have h1 := h t ht
  have h2 := hk t ht
  show FollowsOut _ _ _ (M.bind m f t)
  unfold M.bind
  cases hm : m t with
  | ok x t1 =>
    rw [hm] at h1 h2
    have h3 := h' x t1 h2
    simp only
    have h1 : t1.c.lru = _ := h1
    cases hf : f x t1 with
    | ok y t2 =>
      rw [hf] at h3
      show t2.c.lru = _
      rw [show t2.c.lru = _ from h3, h1, Lru.run_append]
    | throw e t2 =>
      rw [hf] at h3
      obtain ⟨n, h3⟩ := h3
      refine ⟨a.length + n, ?_⟩
      rw [h3, h1, ← Lru.run_append, List.take_length_add_append]
    | _ => trivial
  | throw e t1 =>
    rw [hm] at h1
    obtain ⟨n, h1⟩ := h1
    refine ⟨min n a.length, ?_⟩
    rw [h1, List.take_append_of_le_length (Nat.min_le_right ..)]
    congr 1
    rw [List.take_eq_take_iff]
    omega
  | _ => trivial

theorem Follows.pure {x : α} {b : List (Act K V)} : Follows (Pure.pure x : Mid.CM K V α) [] b := fun _ _ => rfl

theorem Follows.bind_pure {m : Mid.CM K V α} {f : α → β} {a b : List (Act K V)} (h : Follows m a b) :
    Follows (m >>= fun x => Pure.pure (f x)) a b := by
  intro t ht
  have h := h t ht
  show FollowsOut _ _ _ (M.bind m _ t)
  unfold M.bind
  cases hm : m t <;> rw [hm] at h <;> exact h

section puts

variable [DecidableEq K] {O : Oracle K V}

theorem lru_item (a : MCache K V) (k : K) :
    a.lru.item k = (a.ents.find? (fun x => keq x.key k)).map (fun e => (e.key, e.val)) := by
  unfold Lru.item MCache.lru
  rw [List.find?_map]
  rfl

theorem lru_others (a : MCache K V) (k : K) :
    a.lru.others k = (a.ents.filter (fun x => !keq x.key k)).map (fun e => (e.key, e.val)) := by
  unfold Lru.others MCache.lru
  rw [List.filter_map]
  rfl

/-- Returned: stored. Threw: unchanged. -/
def PutOut (l : Lru K V) (k : K) (v : V) : Out (St (MCache K V) K V) α → Prop
  | .ok _ t' => t'.c.lru = l.act (.put k v)
  | .throw _ t' => t'.c.lru = l
  | _ => True

theorem InsertOut.lru (hA : NoAssignFault O) {t : St (MCache K V) K V} (ht : Ok t) {k : K} {v : V} {o}
    (ho : InsertOut O k v t o) : PutOut t.c.lru k v o := by
  cases ho with
  | unset _ => trivial
  | zero hc => exact (Lru.put_zero hc).symm
  | fault => rfl
  | full g' e r n hf hc hl hn =>
    refine Eq.trans ?_ (Lru.put_new (n := n) hc (by rw [lru_item, hf]; rfl)).symm
    unfold MCache.lru
    simp [hl, hn, hc]
  | room g' n q hf hc hl =>
    obtain ⟨m, rfl⟩ : ∃ m, n = m + 1 := ⟨n - 1, by omega⟩
    refine Eq.trans ?_ (Lru.put_new (n := m) hc (by rw [lru_item, hf]; rfl)).symm
    unfold MCache.lru
    simp [hc, Nat.le_of_lt_succ hl]
  | update g' e n hf hc =>
    refine Eq.trans ?_ (Lru.put_old (n := n) (x := (e.key, e.val)) hc (by rw [lru_item, hf]; rfl)).symm
    rw [lru_others, ← ht.without_eq hf]
    unfold MCache.lru
    simp
  | updateFault g' e m n _ _ _ hf => rw [hA m] at hf; cases hf

theorem InsertOut.follows (hA : NoAssignFault O) {k : K} {v : V} {m : Mid.CM K V (Bool × Option Ptr)}
    (h : ∀ t, Ok t → InsertOut O k v t (m t)) : Follows m [.put k v] [] := by
  intro t ht
  have h1 := (h t ht.ok).lru hA ht.ok
  generalize m t = o at h1
  cases o <;> first | trivial | exact h1 | exact ⟨0, h1⟩

theorem insert_follows (hO : NoListFault O) (hA : NoAssignFault O) (k : K) (v : V) :
    Follows (Mid.insert O k v) [.put k v] [] := InsertOut.follows hA fun _ ht => insert_out ht hO k v

theorem emplace_follows (hO : NoListFault O) (hA : NoAssignFault O) (k : K) (v : V) :
    Follows (Mid.emplace O k v) [.put k v] [] := InsertOut.follows hA fun _ ht => emplace_out ht hO k v

theorem insertRange_follows (hO : NoListFault O) (hA : NoAssignFault O) (l : List (K × V)) :
    Follows (Mid.insertRange O l) (l.map fun p => .put p.1 p.2) (l.map fun p => .put p.1 p.2) := by
  induction l with
  | nil => exact .pure
  | cons p l ih =>
    obtain ⟨k, v⟩ := p
    exact Follows.bind (insert_keepsM hO hA) (insert_follows hO hA k v).mono fun _ =>
      ih.bind_pure

theorem insertRangeMove_follows (hO : NoListFault O) (hA : NoAssignFault O) (l : List (K × V)) :
    Follows (Mid.insertRangeMove O l) (l.map fun p => .put p.1 p.2) (l.map fun p => .put p.1 p.2) := by
  induction l with
  | nil => exact .pure
  | cons p l ih =>
    obtain ⟨k, v⟩ := p
    exact Follows.bind (emplace_keepsM hO hA) (emplace_follows hO hA k v).mono fun _ =>
      ih.bind_pure

theorem clearAndIncreaseCapacity_eq (t : St (MCache K V) K V) (n : Nat) :
    Mid.clearAndIncreaseCapacity n t = match t.c.cap with
      | none => .ub
      | some m => .ok () ⟨{ t.c.prune [] with cap := some (max m n) }, t.g⟩ := by
  unfold Mid.clearAndIncreaseCapacity
  rw [bind_ok (clear_eq (t := t))]
  cases hc : t.c.cap with
  | none => exact bind_ub (by simp [Mid.readCapacity, MCache.prune, hc])
  | some m =>
    rw [bind_ok (m := Mid.readCapacity) (a := m) (s' := ⟨t.c.prune [], t.g⟩)
      (by simp [Mid.readCapacity, MCache.prune, hc])]
    split
    · show Out.ok () _ = Out.ok () _
      rw [Nat.max_eq_right (by omega)]
    · show Out.ok () _ = Out.ok () _
      rw [Nat.max_eq_left (by omega), ← hc]
      rfl

theorem clearAndIncreaseCapacity_follows (n : Nat) :
    Follows (Mid.clearAndIncreaseCapacity n : Mid.CM K V Unit) [.empty, .raise n] [.empty, .raise n] := by
  intro t ht
  rw [clearAndIncreaseCapacity_eq]
  cases hc : t.c.cap with
  | none => trivial
  | some m =>
    show MCache.lru _ = _
    simp only [Lru.run, List.foldl_cons, List.foldl_nil, Lru.act, MCache.lru, MCache.prune, hc]
    rfl

theorem assignRange_follows (hO : NoListFault O) (hA : NoAssignFault O) (l : List (K × V)) :
    Follows (Mid.assignRange O l) (.empty :: .raise l.length :: l.map fun p => .put p.1 p.2)
      (.empty :: .raise l.length :: l.map fun p => .put p.1 p.2) :=
  Follows.bind clearAndIncreaseCapacity_keepsM (clearAndIncreaseCapacity_follows l.length) fun _ =>
    (insertRange_follows hO hA l).bind_pure

theorem assignRangeMove_follows (hO : NoListFault O) (hA : NoAssignFault O) (l : List (K × V)) :
    Follows (Mid.assignRangeMove O l) (.empty :: .raise l.length :: l.map fun p => .put p.1 p.2)
      (.empty :: .raise l.length :: l.map fun p => .put p.1 p.2) :=
  Follows.bind clearAndIncreaseCapacity_keepsM (clearAndIncreaseCapacity_follows l.length) fun _ =>
    (insertRangeMove_follows hO hA l).bind_pure

theorem ReadOnly.follows {m : Mid.CM K V α} {b : List (Act K V)} (h : ReadOnly m) : Follows m [] b := by
  intro t ht
  have h1 := h t
  generalize m t = o at h1
  cases o with
  | ok a t' => show MCache.lru _ = _; rw [h1.1]; rfl
  | throw e t' => exact ⟨0, by rw [h1.1]; rfl⟩
  | _ => trivial

theorem prune_follows {t : St (MCache K V) K V} {g : Shared K V} {e : Ent K V} {k : K} (ht : Ok t) (x : α)
    (hf : t.c.ents.find? (fun x => keq x.key k) = some e) :
    FollowsOut t.c.lru [.remove k] [] (.ok x ⟨t.c.prune (without e t.c.ents), g⟩) := by
  refine follows_one ?_
  simp only [Lru.act]
  rw [lru_others, ← ht.without_eq hf]
  rfl

theorem erase_follows (k : K) : Follows (Mid.erase k : Mid.CM K V Bool) [.remove k] [] := by
  intro t ht
  rw [erase_eq ht.ok]
  cases hf : t.c.ents.find? (fun x => keq x.key k) with
  | some e => exact prune_follows ht.ok true hf
  | none =>
    refine follows_one ?_
    simp only [Lru.act]
    rw [lru_others, List.filter_eq_self.2]
    · rfl
    · intro x hx
      have := List.find?_eq_none.1 hf x hx
      simpa using this

theorem clear_follows : Follows (Mid.clear : Mid.CM K V Unit) [.empty] [] := by
  intro t _
  rw [clear_eq]
  rfl

theorem shrink_follows (n : Nat) : Follows (Mid.shrink n : Mid.CM K V Unit) [.keep n] [] := by
  intro t ht
  rw [shrink_eq ht.ok]
  refine follows_one ?_
  simp only [Lru.act, MCache.lru, MCache.prune, List.map_drop, List.length_map]

theorem setCapacity_follows (n : Nat) : Follows (Mid.setCapacity n : Mid.CM K V Unit) [.limit n] [] := by
  intro t ht
  rw [setCapacity_eq ht.ok]
  refine follows_one ?_
  simp only [Lru.act, MCache.lru, MCache.prune, List.map_drop, List.length_map]

theorem setObs_follows {f : Obs → Obs} :
    Follows (Mid.setSelf fun c => { c with obs := f c.obs } : Mid.CM K V Unit) [] [] := fun _ _ => rfl

variable {s : St (Cache K V) K V} {t : St (MCache K V) K V}

theorem Rel.keyOfNode (hr : Rel s t) {e : Ent K V} (he : e ∈ t.c.ents) : LRU.keyOfNode s.c e.id = some e.key := by
  unfold LRU.keyOfNode
  rw [hr.elements, find?_map_eq]
  have : t.c.ents.find? (fun x => x.node.addr == e.id) = some e := find?_key hr.awf.ids he
  rw [this]
  rfl

theorem Rel.keyAtPos (hr : Rel s t) {e : Ent K V} (he : e ∈ t.c.ents) :
    LRU.keyAtPos s.c e.slot = some e.key := by
  unfold LRU.keyAtPos
  rw [hr.rep.order, find?_map_eq]
  have : t.c.ents.find? (fun x => x.lnode.addr == e.slot) = some e := find?_key hr.awf.slots he
  rw [this]
  exact hr.keyOfNode he

theorem find_self (ht : Ok t) {e : Ent K V} (he : e ∈ t.c.ents) :
    t.c.ents.find? (fun x => keq x.key e.key) = some e :=
  find?_of_unique he (KeyEqual.refl _) fun y hy hyk => key_inj_of_pairwise ht.awf.keys y hy e he hyk

theorem eraseU_follows (hr : Rel s t) (ht : OkM t) (p : Ptr) :
    FollowsOut t.c.lru ((keyOfNode s.c p).toList.map .remove) [] (Mid.eraseU (some p) t) := by
  by_cases hp : p ∈ t.c.ents.map (·.id)
  · obtain ⟨e, he, rfl⟩ := List.mem_map.1 hp
    rw [eraseU_own ht.ok he, hr.keyOfNode he]
    exact prune_follows ht.ok () (find_self ht.ok he)
  · rw [eraseU_not hp]; trivial

theorem eraseO_follows (hr : Rel s t) (ht : OkM t) (q : Ptr) :
    FollowsOut t.c.lru ((keyAtPos s.c q).toList.map .remove) [] (Mid.eraseO O { pos := some q } t) := by
  by_cases hp : q ∈ t.c.ents.map (·.slot)
  · obtain ⟨e, he, rfl⟩ := List.mem_map.1 hp
    rw [eraseO_own ht.ok he, hr.keyAtPos he]
    split
    · exact ⟨0, rfl⟩
    · exact prune_follows ht.ok () (find_self ht.ok he)
  · rw [eraseO_not hp]; trivial

theorem write_follows (hr : Rel s t) (ht : OkM t) (p : Ptr) (v : V) :
    FollowsOut t.c.lru ((keyOfNode s.c p).toList.map fun k => .set k v) [] (Mid.write p v t) := by
  by_cases hp : p ∈ t.c.ents.map (·.id)
  · obtain ⟨e, he, rfl⟩ := List.mem_map.1 hp
    rw [write_own ht.ok he, hr.keyOfNode he]
    refine follows_one ?_
    simp only [Lru.act, MCache.lru, List.map_map]
    congr 1
    apply List.map_congr_left
    intro x hx
    simp only [Function.comp]
    by_cases hxe : x.id = e.id
    · have := map_inj_of_nodup ht.ok.awf.ids x hx e he hxe
      subst this
      rw [if_pos rfl, if_pos (KeyEqual.refl _)]
    · have : ¬ keq x.key e.key = true := fun h => hxe (by rw [key_inj_of_pairwise ht.ok.awf.keys x hx e he h])
      rw [if_neg hxe, if_neg this]
  · rw [show Mid.write p v t = .ub from bind_ub (derefIt_not hp)]; trivial

theorem FollowsOut.ret {l : Lru K V} {a b : List (Act K V)} {m : Mid.CM K V α} {f : α → Res K V}
    (h : FollowsOut l a b (m t)) : FollowsOut l a b (Impl.ret m f t) := by
  show FollowsOut _ _ _ (M.bind m _ t)
  unfold M.bind
  cases hm : m t <;> rw [hm] at h <;> exact h

/-- All calls but accesses and `clear_expired`. -/
theorem step_follows (hO : NoListFault O) (hA : NoAssignFault O) (hr : Rel s t) (ht : OkM t) {op : Op K V}
    (ha : op.isAccess = false) (hc : op ≠ .clearExpired) {r : Res K V} {s' : St (Cache K V) K V} :
    FollowsOut t.c.lru (op.acts r s.c s'.c) (op.undone s.c) (Mid.step O op t) := by
  cases op with
  | contains k => cases ha
  | find k => cases ha
  | lookup k => cases ha
  | clearExpired => exact absurd rfl hc
  | insert k v => exact (insert_follows hO hA k v t ht).ret
  | emplace k v => exact (emplace_follows hO hA k v t ht).ret
  | insertRange l => exact (insertRange_follows hO hA l t ht).ret
  | insertRangeMove l => exact (insertRangeMove_follows hO hA l t ht).ret
  | assignRange l => exact (assignRange_follows hO hA l t ht).ret
  | assignRangeMove l => exact (assignRangeMove_follows hO hA l t ht).ret
  | erase k => exact (erase_follows k t ht).ret
  | eraseU pos =>
    cases pos with
    | none => exact ⟨0, rfl⟩
    | some p => exact (eraseU_follows hr ht p).ret
  | eraseO pos =>
    cases pos with
    | none => exact ⟨0, rfl⟩
    | some p => exact (eraseO_follows hr ht p).ret
  | clear => exact (clear_follows t ht).ret
  | shrink n => exact (shrink_follows n t ht).ret
  | setCapacity n => exact (setCapacity_follows n t ht).ret
  | size => exact size_ro.ret.follows t ht
  | capacity => exact readCapacity_ro.ret.follows t ht
  | spaceLeft => exact spaceLeft_ro.ret.follows t ht
  | isEmpty => exact isEmpty_ro.ret.follows t ht
  | isFull => exact isFull_ro.ret.follows t ht
  | front => exact front_ro.ret.follows t ht
  | back => exact back_ro.ret.follows t ht
  | allExpired => exact allExpired_ro.ret.follows t ht
  | hasExpired k => exact hasExpired_ro.ret.follows t ht
  | hasExpiredU pos => exact hasExpiredU_ro.ret.follows t ht
  | hasExpiredO pos => exact hasExpiredO_ro.ret.follows t ht
  | isValidU pos => exact isValidU_ro.ret.follows t ht
  | isValidO pos => exact isValidO_ro.ret.follows t ht
  | uKey pos => exact uKey_ro.ret.follows t ht
  | uValue pos => exact uValue_ro.ret.follows t ht
  | oBegin => exact oBegin_ro.ret.follows t ht
  | oNext pos => exact oNext_ro.ret.follows t ht
  | oPrev pos => exact oPrev_ro.ret.follows t ht
  | oKey pos => exact oKey_ro.ret.follows t ht
  | oValue pos => exact oValue_ro.ret.follows t ht
  | toOrdered pos => exact toOrdered_ro.ret.follows t ht
  | eqOU o u => exact eqOU_ro.ret.follows t ht
  | monitor i => exact (setObs_follows (f := fun o => { o with stats := i }) t ht).ret
  | monitorNew ks => exact FollowsOut.ret (m := Mid.monitorNew ks) (a := []) rfl
  | stopMonitoring => exact (setObs_follows (f := fun o => { o with stats := none }) t ht).ret
  | isMonitoring => exact isMonitoring_ro.ret.follows t ht
  | stats => exact stats_ro.ret.follows t ht
  | sharedStats => exact sharedStats_ro.ret.follows t ht
  | addHitCallback cb => exact (setObs_follows (f := fun o => { o with hitCbs := o.hitCbs ++ [cb] }) t ht).ret
  | addMissCallback cb => exact (setObs_follows (f := fun o => { o with missCbs := o.missCbs ++ [cb] }) t ht).ret
  | addAccessCallback cb => exact (setObs_follows (f := fun o => { o with accCbs := o.accCbs ++ [cb] }) t ht).ret
  | clearHitCallbacks => exact (setObs_follows (f := fun o => { o with hitCbs := [] }) t ht).ret
  | clearMissCallbacks => exact (setObs_follows (f := fun o => { o with missCbs := [] }) t ht).ret
  | clearAccessCallbacks => exact (setObs_follows (f := fun o => { o with accCbs := [] }) t ht).ret
  | clearAllCallbacks =>
    exact (setObs_follows (f := fun o => { o with hitCbs := [], missCbs := [], accCbs := [] }) t ht).ret
  | write p v => exact (write_follows hr ht p v).ret
  | read p => exact read_ro.ret.follows t ht

end puts

/-! ### The call as seen from outside -/

variable [DecidableEq K] [DecidableEq V] {O : Oracle K V} {s s' : St (Cache K V) K V} {op : Op K V} {r : Res K V}
  {e : Err} {k : K}

theorem asLru_eq {c d : Cache K V} (h1 : elements d = elements c) (h2 : d.capacity = c.capacity) : asLru d = asLru c := by
  unfold asLru entries; rw [h1, h2]

theorem asLru_item (c : Cache K V) (k : K) : (asLru c).item k = (entryFor c k).map MapNode.pair := by
  unfold asLru Lru.item entries entryFor
  rw [List.find?_map]
  rfl

theorem asLru_others (c : Cache K V) (k : K) : (asLru c).others k = (others c k).map MapNode.pair := by
  unfold asLru Lru.others entries LRU.others
  rw [List.filter_map]
  rfl

theorem asLru_use {c d : Cache K V} {x : MapNode K V} (hx : entryFor c k = some x)
    (h1 : elements d = others c k ++ [x]) (h2 : d.capacity = c.capacity) : asLru d = (asLru c).act (.use k) := by
  rw [Lru.use_old (x := x.pair) (by rw [asLru_item, hx]; rfl), asLru_others]
  unfold asLru entries
  rw [h1, h2]
  simp

theorem isAccess_accesses (ha : op.isAccess = true) : ∃ k, op.Accesses k := by
  cases op <;> first | cases ha | skip
  · exact ⟨_, .inl rfl⟩
  · exact ⟨_, .inr (.inl rfl)⟩
  · exact ⟨_, .inr (.inr rfl)⟩

theorem access_refines (hO : NoListFault O) (hA : NoAssignFault O) (h : Reachable O s) (ha : op.Accesses k)
    (hd : Returns O op s r s') : asLru s'.c = (asLru s.c).run (op.acts r s.c s'.c) := by
  by_cases hm : Miss r
  · have h1 := C07_miss_changes_nothing hO h ha hd hm
    rw [asLru_eq h1.elements h1.capacity]
    rcases hm with rfl | rfl <;> rcases ha with rfl | rfl | rfl <;> rfl
  · obtain ⟨x, hx, h1, h2, h3, _⟩ := C07_hit_moves_entry_to_most_recent hO hA h ha hd hm
    rw [asLru_use hx h2 h3]
    rcases ha with rfl | rfl | rfl <;> simp only [Hit] at h1 <;> subst h1 <;> rfl

theorem access_throw_refines (hO : NoListFault O) (h : Reachable O s) (ha : op.Accesses k) (hd : Throws O op s e s') :
    ∃ m, asLru s'.c = (asLru s.c).run ((op.undone s.c).take m) := by
  obtain ⟨t, t', hr, ht, ho, hr'⟩ := h.access_throw hO ha hd
  rw [hr.lru, hr'.lru]
  cases ho with
  | lateExpired x ho _ hf _ hx =>
    refine ⟨1, ?_⟩
    have hk : s.c.kind ≠ .basic := by
      intro hk
      rw [hr.rep.kind] at hk
      rw [hk] at hx
      cases hx
    rw [ho, show Op.undone (.lookup k) s.c = [.use k] from if_neg hk]
    refine Lru.run_one ?_
    rw [Lru.use_old (x := (x.key, x.val)) (by rw [lru_item, hf]; rfl), lru_others, ← ht.without_eq hf]
    simp [MCache.lru, MCache.touch, toEnd, without]
  | _ => exact ⟨0, rfl⟩

theorem clearExpired_refines (hO : NoListFault O) (h : Reachable O s) {res : Except Err (Res K V)}
    (hd : Performs O .clearExpired s res s') :
    ∃ r, res = .ok r ∧ asLru s'.c = (asLru s.c).run [.keep (count s'.c)] := by
  obtain ⟨t, hr, ht⟩ := h.rel hO
  obtain ⟨m, hm, _, _, he⟩ := clearExpired_eq (O := O) ht
  obtain ⟨s2, h2, hr'⟩ := hr.back_ok (op := .clearExpired) hO (bind_ok he)
  cases res with
  | error e => exact absurd (h2.symm.trans hd) (by simp)
  | ok r =>
    have h3 := h2.symm.trans hd
    injection h3 with h3 h4
    subst h4
    refine ⟨r, rfl, ?_⟩
    refine Lru.run_one ?_
    simp only [Lru.act]
    rw [hr.lru, hr'.lru]
    unfold MCache.lru
    simp only [MCache.prune, List.length_map, hr'.count, List.map_drop, List.length_drop]
    congr 2
    omega

/-- A call that returns does to the cache what it amounts to. -/
theorem call_returns_refines (hO : NoListFault O) (hA : NoAssignFault O) (h : Reachable O s)
    (hd : Returns O op s r s') : asLru s'.c = (asLru s.c).run (op.acts r s.c s'.c) := by
  by_cases hc : op = .clearExpired
  · subst hc
    obtain ⟨_, _, h1⟩ := clearExpired_refines hO h (res := .ok r) hd
    exact h1
  cases ha : op.isAccess with
  | true =>
    obtain ⟨k, hk⟩ := isAccess_accesses ha
    exact access_refines hO hA h hk hd
  | false =>
    obtain ⟨t, hr, ht⟩ := h.relM hO hA
    have h1 := step_follows hO hA hr ht ha hc (r := r) (s' := s')
    obtain ⟨t', h2, hr', _⟩ := hr.returns hO ht.ok hd
    rw [h2] at h1
    have h1 : t'.c.lru = _ := h1
    rwa [← hr.lru, ← hr'.lru] at h1

/-- A call that throws does an initial part of what it was going to do. -/
theorem call_throws_refines (hO : NoListFault O) (hA : NoAssignFault O) (h : Reachable O s)
    (hd : Throws O op s e s') : ∃ m, asLru s'.c = (asLru s.c).run ((op.undone s.c).take m) := by
  by_cases hc : op = .clearExpired
  · subst hc
    obtain ⟨_, h1, _⟩ := clearExpired_refines hO h (res := .error e) hd
    cases h1
  cases ha : op.isAccess with
  | true =>
    obtain ⟨k, hk⟩ := isAccess_accesses ha
    exact access_throw_refines hO h hk hd
  | false =>
    obtain ⟨t, hr, ht⟩ := h.relM hO hA
    have h1 := step_follows hO hA hr ht ha hc (r := .unit) (s' := s')
    obtain ⟨t', h2, hr', _⟩ := hr.throws hO ht.ok hd
    rw [h2] at h1
    obtain ⟨m, h1⟩ := h1
    rw [← hr.lru, ← hr'.lru] at h1
    exact ⟨m, h1⟩

end LRU
