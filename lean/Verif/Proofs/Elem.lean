import Verif.Proofs.Outcomes
/-!
# Elementary transitions

Every call is a sequence of elementary transitions of the list machine. A relation between states that is reflexive,
transitive and contains the elementary transitions therefore relates the states before and after every call.
-/

set_option linter.unusedSectionVars false
set_option autoImplicit false

namespace LRU

variable {K V : Type} [KeyEqual K] {α β : Type}

/-- The shared state changed, but no other cache did, and addresses and clock readings are only used up. -/
structure Tame (g g' : Shared K V) : Prop where
  ext : g'.ext = g.ext
  next : g.next ≤ g'.next
  ticks : g.ticks ≤ g'.ticks

theorem Quiet.tame {g g' : Shared K V} (h : Quiet g g') : Tame g g' := ⟨h.ext, h.next, h.ticks⟩

/-- A relation containing all elementary transitions. -/
structure Elem (O : Oracle K V) (R : St (MCache K V) K V → St (MCache K V) K V → Prop) : Prop where
  trans : ∀ {t t' t''}, R t t' → R t' t'' → R t t''
  shared : ∀ {t g'}, Ok t → Tame t.g g' → R t ⟨t.c, g'⟩
  touch : ∀ {t g'} {e : Ent K V}, Ok t → e ∈ t.c.ents → Tame t.g g' → R t ⟨t.c.touch e, g'⟩
  prune : ∀ {t} {l : List (Ent K V)}, Ok t → l.Sublist t.c.ents → R t ⟨t.c.prune l, t.g⟩
  insert : ∀ {t k v o}, Ok t → InsertOut O k v t o → o.Post (R t)
  cap : ∀ {t} {n : Nat}, Ok t → t.c.ents.length ≤ n → R t ⟨{ t.c with cap := some n }, t.g⟩
  obs : ∀ {t} {f : Obs → Obs} {g'}, Ok t → Tame t.g g' → R t ⟨{ t.c with obs := f t.c.obs }, g'⟩
  setVal : ∀ {t} {p : Ptr} {f : V → V}, Ok t → R t ⟨{ t.c with ents := t.c.ents.map (Ent.setVal p f) }, t.g⟩

/-- `m` keeps the invariant and makes only transitions in `R`. -/
def Within (R : St (MCache K V) K V → St (MCache K V) K V → Prop) (m : Mid.CM K V α) : Prop :=
  ∀ t, Ok t → (m t).Post (fun t' => Ok t' ∧ R t t')

section

variable [DecidableEq K] {O : Oracle K V} {R : St (MCache K V) K V → St (MCache K V) K V → Prop}

theorem Tame.refl (g : Shared K V) : Tame g g := ⟨rfl, Nat.le_refl _, Nat.le_refl _⟩

theorem Tame.trans {g g' g'' : Shared K V} (h : Tame g g') (h' : Tame g' g'') : Tame g g'' :=
  ⟨h'.ext.trans h.ext, Nat.le_trans h.next h'.next, Nat.le_trans h.ticks h'.ticks⟩

theorem Within.bind (hR : Elem O R) {m : Mid.CM K V α} {f : α → Mid.CM K V β} (h : Within R m)
    (h' : ∀ a, Within R (f a)) : Within R (m >>= f) := by
  intro t ht
  have h1 := h t ht
  show Out.Post _ (M.bind m f t)
  unfold M.bind
  cases hm : m t with
  | ok a t' =>
    rw [hm] at h1
    simp only
    exact (h' a t' h1.1).imp fun _ h2 => ⟨h2.1, hR.trans h1.2 h2.2⟩
  | throw e t' => rw [hm] at h1; exact h1
  | ub => trivial
  | terminate => trivial
  | diverge => trivial

theorem Within.pure (hR : Elem O R) {a : α} : Within R (Pure.pure a : Mid.CM K V α) :=
  fun t h => ⟨h, hR.shared h (Tame.refl _)⟩

theorem Within.ret (hR : Elem O R) {m : Mid.CM K V α} {f : α → Res K V} (h : Within R m) :
    Within R (Impl.ret m f) := h.bind hR fun _ => .pure hR

theorem ReadOnly.within (hR : Elem O R) {m : Mid.CM K V α} (h : ReadOnly m) : Within R m := by
  intro t ht
  have h2 := h.keeps t ht
  have h1 := h t
  cases hm : m t <;> rw [hm] at h1 h2 <;> first | trivial | skip
  all_goals
    rename_i t'
    obtain ⟨c', g'⟩ := t'
    have e : c' = t.c := h1.1
    subst e
    exact ⟨h2.ok, hR.shared ht h1.2.tame⟩

/-- Transitions are within `R` when `Keeps` is known and the transitions are checked. -/
theorem Keeps.within {m : Mid.CM K V α} (h : Keeps m) (h' : ∀ t, Ok t → (m t).Post (R t)) : Within R m := by
  intro t ht
  have h1 := h t ht
  have h2 := h' t ht
  cases hm : m t <;> rw [hm] at h1 h2 <;> first | trivial | exact ⟨h1.ok, h2⟩

theorem Elem.refl (hR : Elem O R) {t : St (MCache K V) K V} (h : Ok t) : R t t := hR.shared h (Tame.refl _)

theorem tame_hit (kind : Kind) (o : Obs) (k : K) (v : V) (g : Shared K V) : Tame g (hitG o k v (tickG kind g)) :=
  ⟨rfl, Nat.le_refl _, Nat.le_add_right _ _⟩

theorem tame_miss (kind : Kind) (o : Obs) (k : K) (g : Shared K V) : Tame g (missG o k (tickG kind g)) :=
  ⟨rfl, Nat.le_refl _, Nat.le_add_right _ _⟩

theorem tame_tick (kind : Kind) (g : Shared K V) : Tame g (tickG kind g) :=
  ⟨rfl, Nat.le_refl _, Nat.le_add_right _ _⟩

theorem find_within (hR : Elem O R) {t : St (MCache K V) K V} (h : Ok t) {k : K} {o} (ho : FindOut O k t o) :
    o.Post (R t) := by
  cases ho with
  | absent => exact hR.shared h ⟨rfl, Nat.le_refl _, Nat.le_refl _⟩
  | absentThrow => exact hR.shared h ⟨rfl, Nat.le_refl _, Nat.le_refl _⟩
  | expired => exact hR.shared h (tame_miss _ _ _ _)
  | expiredThrow => exact hR.shared h ⟨rfl, Nat.le_refl _, Nat.le_add_right _ _⟩
  | hit e hf => exact hR.touch h (find_mem hf).1 (tame_hit _ _ _ _ _)
  | hitThrow => exact hR.shared h ⟨rfl, Nat.le_refl _, Nat.le_add_right _ _⟩

theorem contains_within (hR : Elem O R) {k : K} : Within R (Mid.contains O k) := by
  refine contains_keeps.within fun t h => ?_
  have ho := contains_out (O := O) h k
  generalize Mid.contains O k t = r at ho
  cases ho with
  | lastHit => exact hR.shared h (tame_hit _ _ _ _ _)
  | lastThrow => exact hR.shared h ⟨rfl, Nat.le_refl _, Nat.le_add_right _ _⟩
  | lastExpired => exact hR.shared h (tame_tick _ _)
  | found p t' _ hf => exact find_within hR h hf
  | throws e t' _ hf => exact find_within hR h hf

theorem lookup_within (hR : Elem O R) {k : K} : Within R (Mid.lookup O k) := by
  refine lookup_keeps.within fun t h => ?_
  have ho := lookup_out (O := O) h k
  generalize Mid.lookup O k t = r at ho
  cases ho with
  | lastHit => exact hR.shared h (tame_hit _ _ _ _ _)
  | lastThrow => exact hR.shared h ⟨rfl, Nat.le_refl _, Nat.le_add_right _ _⟩
  | lastExpired => exact hR.shared h (tame_tick _ _)
  | notFound t' _ hf => exact find_within hR h hf
  | throws e t' _ hf => exact find_within hR h hf
  | hit e _ hf => exact hR.touch h (find_mem hf).1 ((tame_hit _ _ _ _ _).trans (tame_tick _ _))
  | lateExpired e _ hf => exact hR.touch h (find_mem hf).1 ((tame_hit _ _ _ _ _).trans (tame_tick _ _))

theorem insert_within (hR : Elem O R) (hO : NoListFault O) {k : K} {v : V} : Within R (Mid.insert O k v) :=
  (insert_keeps hO).within fun _ h => hR.insert h (insert_out h hO k v)

theorem emplace_within (hR : Elem O R) (hO : NoListFault O) {k : K} {v : V} : Within R (Mid.emplace O k v) :=
  (emplace_keeps hO).within fun _ h => hR.insert h (emplace_out h hO k v)

theorem insertRange_within (hR : Elem O R) (hO : NoListFault O) {l : List (K × V)} :
    Within R (Mid.insertRange O l) := by
  induction l with
  | nil => exact .pure hR
  | cons p l ih =>
    obtain ⟨k, v⟩ := p
    exact (insert_within hR hO).bind hR fun _ => ih.bind hR fun _ => .pure hR

theorem insertRangeMove_within (hR : Elem O R) (hO : NoListFault O) {l : List (K × V)} :
    Within R (Mid.insertRangeMove O l) := by
  induction l with
  | nil => exact .pure hR
  | cons p l ih =>
    obtain ⟨k, v⟩ := p
    exact (emplace_within hR hO).bind hR fun _ => ih.bind hR fun _ => .pure hR

theorem erase_within (hR : Elem O R) {k : K} : Within R (Mid.erase k : Mid.CM K V Bool) := by
  refine erase_keeps.within fun t h => ?_
  rw [erase_eq h]
  cases t.c.ents.find? (fun x => keq x.key k) with
  | none => exact hR.refl h
  | some e => exact hR.prune h (without_sublist e _)

theorem eraseU_within (hR : Elem O R) {it : Option Ptr} : Within R (Mid.eraseU it : Mid.CM K V Unit) := by
  refine eraseU_keeps.within fun t h => ?_
  cases it with
  | none => exact hR.refl h
  | some p =>
    by_cases hp : p ∈ t.c.ents.map (·.id)
    · obtain ⟨e, he, rfl⟩ := List.mem_map.1 hp
      rw [eraseU_own h he]
      exact hR.prune h (without_sublist e _)
    · rw [eraseU_not hp]; trivial

theorem Elem.prune' (hR : Elem O R) {t : St (MCache K V) K V} (h : Ok t) {l : List (Ent K V)}
    (hl : l.Sublist t.c.ents) {g' : Shared K V} (hg : Tame t.g g') : R t ⟨t.c.prune l, g'⟩ :=
  hR.trans (hR.prune h hl) (hR.shared (t := ⟨t.c.prune l, t.g⟩) (h.prune hl) hg)

theorem eraseO_within (hR : Elem O R) {it : Option Ptr} : Within R (Mid.eraseO O { pos := it }) := by
  refine eraseO_keeps.within fun t h => ?_
  cases it with
  | none => exact hR.refl h
  | some p =>
    by_cases hp : p ∈ t.c.ents.map (·.slot)
    · obtain ⟨e, he, rfl⟩ := List.mem_map.1 hp
      rw [eraseO_own h he]
      split
      · exact hR.shared h (tame_tick _ _)
      · exact hR.prune' h (without_sublist e _) (tame_tick _ _)
    · rw [eraseO_not hp]; trivial

theorem clear_within (hR : Elem O R) : Within R (Mid.clear : Mid.CM K V Unit) := by
  refine clear_keeps.within fun t h => ?_
  rw [clear_eq]
  exact hR.prune h (List.nil_sublist _)

theorem shrink_within (hR : Elem O R) {n : Nat} : Within R (Mid.shrink n : Mid.CM K V Unit) := by
  refine shrink_keeps.within fun t h => ?_
  rw [shrink_eq h]
  exact hR.prune h (List.drop_sublist _ _)

theorem setCapacity_within (hR : Elem O R) {n : Nat} : Within R (Mid.setCapacity n : Mid.CM K V Unit) := by
  refine setCapacity_keeps.within fun t h => ?_
  rw [setCapacity_eq h]
  have hl := List.drop_sublist (t.c.ents.length - n) t.c.ents
  refine hR.trans (hR.prune h hl) (hR.cap (h.prune hl) ?_)
  show (t.c.ents.drop (t.c.ents.length - n)).length ≤ n
  rw [List.length_drop]; omega

theorem clearAndIncreaseCapacity_within (hR : Elem O R) {n : Nat} :
    Within R (Mid.clearAndIncreaseCapacity n : Mid.CM K V Unit) := by
  refine clearAndIncreaseCapacity_keeps.within fun t h => ?_
  have h1 := hR.prune h (List.nil_sublist _)
  unfold Mid.clearAndIncreaseCapacity
  rw [bind_ok clear_eq]
  cases hc : t.c.cap with
  | none => rw [bind_ub (by simp [Mid.readCapacity, MCache.prune, hc])]; trivial
  | some m =>
    rw [bind_ok (m := Mid.readCapacity) (a := m) (s' := ⟨t.c.prune [], t.g⟩)
      (by simp [Mid.readCapacity, MCache.prune, hc])]
    by_cases hn : n > m
    · rw [if_pos hn]
      exact hR.trans h1 (hR.cap (h.prune (List.nil_sublist _)) (by simp [MCache.prune]))
    · rw [if_neg hn]; exact h1

theorem clearExpired_within (hR : Elem O R) : Within R (Mid.clearExpired O) := by
  refine clearExpired_keeps.within fun t h => ?_
  obtain ⟨m, _, _, _, he⟩ := clearExpired_eq (O := O) h
  rw [he]
  exact hR.prune' h (List.drop_sublist _ _) ⟨rfl, Nat.le_refl _, Nat.le_add_right _ _⟩

theorem setObs_within (hR : Elem O R) {f : Obs → Obs} :
    Within R (Mid.setSelf fun c => { c with obs := f c.obs } : Mid.CM K V Unit) :=
  setObs_keeps.within fun _ h => hR.obs (f := f) h (Tame.refl _)

theorem monitorNew_within (hR : Elem O R) {ks : List K} : Within R (Mid.monitorNew ks : Mid.CM K V Nat) :=
  monitorNew_keeps.within fun t h =>
    hR.obs (f := fun o => { o with stats := some t.g.nextStat }) h ⟨rfl, Nat.le_refl _, Nat.le_refl _⟩

theorem write_within (hR : Elem O R) {p : Ptr} {v : V} : Within R (Mid.write p v : Mid.CM K V Unit) := by
  refine (derefIt_ro.within hR).bind hR fun n => ?_
  intro t h
  exact ⟨(Step.setVal h n.addr (fun _ => v)).ok, hR.setVal (f := fun _ => v) h⟩

/-- Every call makes only transitions in `R`. -/
theorem step_within (hR : Elem O R) (hO : NoListFault O) (op : Op K V) : Within R (Mid.step O op) := by
  cases op with
  | contains k => exact (contains_within hR).ret hR
  | find k => exact (find_keeps.within fun _ h => find_within hR h (find_out h k)).ret hR
  | lookup k => exact (lookup_within hR).ret hR
  | insert k v => exact (insert_within hR hO).ret hR
  | emplace k v => exact (emplace_within hR hO).ret hR
  | insertRange l => exact (insertRange_within hR hO).ret hR
  | insertRangeMove l => exact (insertRangeMove_within hR hO).ret hR
  | assignRange l =>
    exact ((clearAndIncreaseCapacity_within hR).bind hR fun _ =>
      (insertRange_within hR hO).bind hR fun _ => .pure hR).ret hR
  | assignRangeMove l =>
    exact ((clearAndIncreaseCapacity_within hR).bind hR fun _ =>
      (insertRangeMove_within hR hO).bind hR fun _ => .pure hR).ret hR
  | erase k => exact (erase_within hR).ret hR
  | eraseU pos => exact (eraseU_within hR).ret hR
  | eraseO pos => exact (eraseO_within hR).ret hR
  | clear => exact (clear_within hR).ret hR
  | shrink n => exact (shrink_within hR).ret hR
  | setCapacity n => exact (setCapacity_within hR).ret hR
  | size => exact size_ro.ret.within hR
  | capacity => exact readCapacity_ro.ret.within hR
  | spaceLeft => exact spaceLeft_ro.ret.within hR
  | isEmpty => exact isEmpty_ro.ret.within hR
  | isFull => exact isFull_ro.ret.within hR
  | front => exact front_ro.ret.within hR
  | back => exact back_ro.ret.within hR
  | allExpired => exact allExpired_ro.ret.within hR
  | clearExpired => exact (clearExpired_within hR).ret hR
  | hasExpired k => exact hasExpired_ro.ret.within hR
  | hasExpiredU pos => exact hasExpiredU_ro.ret.within hR
  | hasExpiredO pos => exact hasExpiredO_ro.ret.within hR
  | isValidU pos => exact isValidU_ro.ret.within hR
  | isValidO pos => exact isValidO_ro.ret.within hR
  | uKey pos => exact uKey_ro.ret.within hR
  | uValue pos => exact uValue_ro.ret.within hR
  | oBegin => exact oBegin_ro.ret.within hR
  | oNext pos => exact oNext_ro.ret.within hR
  | oPrev pos => exact oPrev_ro.ret.within hR
  | oKey pos => exact oKey_ro.ret.within hR
  | oValue pos => exact oValue_ro.ret.within hR
  | toOrdered pos => exact toOrdered_ro.ret.within hR
  | eqOU o u => exact eqOU_ro.ret.within hR
  | monitor i => exact (setObs_within hR (f := fun o => { o with stats := i })).ret hR
  | monitorNew ks => exact (monitorNew_within hR).ret hR
  | stopMonitoring => exact (setObs_within hR (f := fun o => { o with stats := none })).ret hR
  | isMonitoring => exact isMonitoring_ro.ret.within hR
  | stats => exact stats_ro.ret.within hR
  | sharedStats => exact sharedStats_ro.ret.within hR
  | addHitCallback cb => exact (setObs_within hR (f := fun o => { o with hitCbs := o.hitCbs ++ [cb] })).ret hR
  | addMissCallback cb => exact (setObs_within hR (f := fun o => { o with missCbs := o.missCbs ++ [cb] })).ret hR
  | addAccessCallback cb => exact (setObs_within hR (f := fun o => { o with accCbs := o.accCbs ++ [cb] })).ret hR
  | clearHitCallbacks => exact (setObs_within hR (f := fun o => { o with hitCbs := [] })).ret hR
  | clearMissCallbacks => exact (setObs_within hR (f := fun o => { o with missCbs := [] })).ret hR
  | clearAccessCallbacks => exact (setObs_within hR (f := fun o => { o with accCbs := [] })).ret hR
  | clearAllCallbacks =>
    exact (setObs_within hR (f := fun o => { o with hitCbs := [], missCbs := [], accCbs := [] })).ret hR
  | write p v => exact (write_within hR).ret hR
  | read p => exact read_ro.ret.within hR

end

/-! ### Invariants of all caches of a world -/

section world

variable [DecidableEq K] [DecidableEq V] {O : Oracle K V}

/-- A property of a cache, given the number of clock readings so far, that every call keeps. -/
structure CacheInv (O : Oracle K V) (P : Cache K V → Nat → Prop) (Pm : St (MCache K V) K V → Prop) : Prop where
  rel : ∀ {s t}, Rel s t → (P s.c s.g.ticks ↔ Pm t)
  elem : Elem O (fun t t' => Pm t → Pm t')
  empty : ∀ {c : Cache K V} {n}, c.map = [] → c.order = [] → c.last = none → P c n
  mono : ∀ {c n m}, P c n → n ≤ m → P c m
  congr : ∀ {c d : Cache K V} {n}, P c n → d.map = c.map → d.order = c.order → d.last = c.last →
    Impl.sameBase d.kind c.kind = true → P d n

variable {P : Cache K V → Nat → Prop} {Pm : St (MCache K V) K V → Prop}

theorem CacheInv.member (hP : CacheInv O P Pm) {m : Impl.CM K V α} {m' : Mid.CM K V α} (hs : Sim m m')
    (hk : Within (fun t t' => (Pm t → Pm t') ∧ t.g.ticks ≤ t'.g.ticks) m')
    {s : St (Cache K V) K V} {t : St (MCache K V) K V} (hr : Rel s t) (ht : Ok t) (hp : P s.c s.g.ticks) :
    (m s).Post (fun s' => P s'.c s'.g.ticks ∧ s.g.ticks ≤ s'.g.ticks) := by
  have h1 := hs s t hr trivial
  have h2 := hk t ht
  have hp' := (hP.rel hr).1 hp
  cases hm : m s <;> cases hm' : m' t <;> rw [hm, hm'] at h1 <;> rw [hm'] at h2 <;>
    first | exact h1.elim | trivial | skip
  · exact ⟨(hP.rel h1.2.1).2 (h2.2.1 hp'), by rw [hr.g, h1.2.1.g]; exact h2.2.2⟩
  · exact ⟨(hP.rel h1.2).2 (h2.2.1 hp'), by rw [hr.g, h1.2.g]; exact h2.2.2⟩

theorem CacheInv.elem' (hP : CacheInv O P Pm) :
    Elem O (fun t t' => (Pm t → Pm t') ∧ t.g.ticks ≤ t'.g.ticks) where
  trans h h' := ⟨fun x => h'.1 (h.1 x), Nat.le_trans h.2 h'.2⟩
  shared h hg := ⟨hP.elem.shared h hg, hg.ticks⟩
  touch h he hg := ⟨hP.elem.touch h he hg, hg.ticks⟩
  prune h hl := ⟨hP.elem.prune h hl, Nat.le_refl _⟩
  insert := by
    intro t k v o h ho
    have h1 := hP.elem.insert h ho
    cases ho with
    | unset _ => trivial
    | zero _ => exact ⟨h1, Nat.le_refl _⟩
    | fault g' _ _ _ _ q => exact ⟨h1, q.ticks⟩
    | full g' e r n hf hc hl hr q => exact ⟨h1, q.ticks⟩
    | room g' n q hf hc hl qu => exact ⟨h1, qu.ticks⟩
    | update g' e n hf hc q => exact ⟨h1, q.ticks⟩
    | updateFault g' e m n hf hc q => exact ⟨h1, q.ticks⟩
  cap h hn := ⟨hP.elem.cap h hn, Nat.le_refl _⟩
  obs h hg := ⟨hP.elem.obs h hg, hg.ticks⟩
  setVal h := ⟨hP.elem.setVal h, Nat.le_refl _⟩

theorem CacheInv.own (hP : CacheInv O P Pm) (hO : NoListFault O) : OwnOK O P where
  empty := hP.empty
  mono := hP.mono
  congr := hP.congr
  call := by
    intro s s' t op res hr ht h hp
    have := hP.member (step_sim hO op) (step_within hP.elem' hO op) hr ht h
    cases res <;> (unfold Performs at hp; simp only at hp; rw [hp] at this; exact this.1)
  create := by
    intro s s' t ctor n hr ht h hb
    have hs : ∃ m', Sim (Impl.ctorBody O ctor) m' ∧
        Within (fun t t' => (Pm t → Pm t') ∧ t.g.ticks ≤ t'.g.ticks) m' := by
      cases ctor with
      | default => exact ⟨_, RSim.pure (fun _ _ => trivial), .pure hP.elem'⟩
      | sized n => exact ⟨_, RSim.pure (fun _ _ => trivial), .pure hP.elem'⟩
      | sizedItems n l => exact ⟨_, insertRange_sim hO, insertRange_within hP.elem' hO⟩
      | items l => exact ⟨_, insertRange_sim hO, insertRange_within hP.elem' hO⟩
      | initList l => exact ⟨_, insertRange_sim hO, insertRange_within hP.elem' hO⟩
      | sizedRangeMove n l => exact ⟨_, insertRangeMove_sim hO, insertRangeMove_within hP.elem' hO⟩
      | rangeMove l => exact ⟨_, insertRangeMove_sim hO, insertRangeMove_within hP.elem' hO⟩
    obtain ⟨m', hs, hk⟩ := hs
    have := hP.member hs hk hr ht h
    rw [hb] at this
    exact this.1

/-- Every reachable cache satisfies the invariant. -/
theorem CacheInv.reachable (hP : CacheInv O P Pm) (hO : NoListFault O) {s : St (Cache K V) K V}
    (h : Reachable O s) : P s.c s.g.ticks := by
  exact (hP.own hO).reachable hO h

/-- Calls on reachable caches make only transitions in `R`. -/
theorem Reachable.within {R : St (MCache K V) K V → St (MCache K V) K V → Prop} (hR : Elem O R)
    (hO : NoListFault O) {s s' : St (Cache K V) K V} (h : Reachable O s) {op : Op K V} {r : Res K V}
    (hd : Returns O op s r s') : ∃ t t', Rel s t ∧ Ok t ∧ Rel s' t' ∧ R t t' := by
  obtain ⟨t, t', h1, h2, h3, h4, _⟩ := h.returns hO hd
  have := step_within hR hO op t h2
  rw [h3] at this
  exact ⟨t, t', h1, h2, h4, this.2⟩

theorem Reachable.withinThrow {R : St (MCache K V) K V → St (MCache K V) K V → Prop} (hR : Elem O R)
    (hO : NoListFault O) {s s' : St (Cache K V) K V} (h : Reachable O s) {op : Op K V} {e : Err}
    (hd : Throws O op s e s') : ∃ t t', Rel s t ∧ Ok t ∧ Rel s' t' ∧ R t t' := by
  obtain ⟨t, t', h1, h2, h3, h4, _⟩ := h.throws hO hd
  have := step_within hR hO op t h2
  rw [h3] at this
  exact ⟨t, t', h1, h2, h4, this.2⟩

end world

end LRU
