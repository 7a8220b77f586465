import Verif.Proofs.HistoryInv
import Verif.Spec.Time
/-!
# Entries in the order of their time stamps

Calls that bring no entry forward keep the entries in the order of their time stamps.
-/

set_option linter.unusedSectionVars false
set_option autoImplicit false

namespace LRU

variable {K V : Type} [KeyEqual K] [DecidableEq K] {α β : Type} {O : Oracle K V} {t : St (MCache K V) K V}

/-- The time stamps of `t'` are some of those of `t`, in the same order. -/
def TimesKept (t t' : St (MCache K V) K V) : Prop := (t'.c.ents.map (·.time)).Sublist (t.c.ents.map (·.time))

theorem TimesKept.same {t t' : St (MCache K V) K V} (h : t'.c = t.c) : TimesKept t t' := by
  unfold TimesKept; rw [h]; exact List.Sublist.refl _

theorem TimesKept.trans {t t' t'' : St (MCache K V) K V} (h : TimesKept t t') (h' : TimesKept t' t'') : TimesKept t t'' :=
  List.Sublist.trans h' h

theorem TimesKept.sub {t t' : St (MCache K V) K V} (h : t'.c.ents.Sublist t.c.ents) : TimesKept t t' := h.map _

/-- What is known after a body and its wrapper. -/
theorem post_ret {P : St (MCache K V) K V → Prop} {m : Mid.CM K V α} {f : α → Res K V} (h : (m t).Post P) :
    (Impl.ret m f t).Post P := by
  show Out.Post P (M.bind m _ t)
  unfold M.bind
  cases hm : m t <;> rw [hm] at h <;> exact h

theorem ReadOnly.times {m : Mid.CM K V α} (h : ReadOnly m) : (m t).Post (TimesKept t) :=
  (h t).imp fun _ h1 => .same h1.1

theorem setObs_times {f : Obs → Obs} : ((Mid.setSelf fun c => { c with obs := f c.obs } : Mid.CM K V Unit) t).Post (TimesKept t) :=
  List.Sublist.refl _

theorem write_times {p : Ptr} {v : V} : ((Mid.write p v : Mid.CM K V Unit) t).Post (TimesKept t) := by
  show Out.Post _ (M.bind (Mid.derefIt _) _ t)
  have h := derefIt_ro (K := K) (V := V) (it := some p) t
  unfold M.bind
  cases hm : (Mid.derefIt (some p) : Mid.CM K V _) t with
  | ok n t' =>
    rw [hm] at h
    show TimesKept t ⟨{ t'.c with ents := t'.c.ents.map (Ent.setVal n.addr (fun _ => v)) }, t'.g⟩
    unfold TimesKept
    show ((t'.c.ents.map (Ent.setVal n.addr (fun _ => v))).map (·.time)).Sublist _
    rw [h.1, List.map_map]
    have : ((·.time) ∘ Ent.setVal n.addr (fun _ => v) : Ent K V → Int) = (·.time) := by
      funext x; simp only [Function.comp_def, Ent.setVal]; split <;> rfl
    rw [this]
    exact List.Sublist.refl _
  | throw e t' => rw [hm] at h; exact .same h.1
  | ub => trivial
  | terminate => trivial
  | diverge => trivial

/-- The calls that neither ask for keys nor insert. -/
def Op.usesNoKey : Op K V → Bool
  | .contains _ | .find _ | .lookup _ | .insert .. | .emplace .. | .insertRange _ | .insertRangeMove _ | .assignRange _
  | .assignRangeMove _ => false
  | _ => true

theorem clearAndIncreaseCapacity_empty {n : Nat} :
    ((Mid.clearAndIncreaseCapacity n : Mid.CM K V Unit) t).Post (fun t' => t'.c.ents = [] ∧ t'.c.kind = t.c.kind ∧ t'.g = t.g) := by
  unfold Mid.clearAndIncreaseCapacity
  rw [bind_ok clear_eq]
  cases hc : t.c.cap with
  | none => rw [bind_ub (by simp [Mid.readCapacity, MCache.prune, hc])]; trivial
  | some m =>
    rw [bind_ok (m := Mid.readCapacity) (a := m) (s' := ⟨t.c.prune [], t.g⟩)
      (by simp [Mid.readCapacity, MCache.prune, hc])]
    by_cases hn : n > m
    · rw [if_pos hn]; exact ⟨rfl, rfl, rfl⟩
    · rw [if_neg hn]; exact ⟨rfl, rfl, rfl⟩

theorem other_times (h : Ok t) {op : Op K V} (ho : op.usesNoKey = true) : (Mid.step O op t).Post (TimesKept t) := by
  cases op with
  | contains k => cases ho
  | find k => cases ho
  | lookup k => cases ho
  | insert k v => cases ho
  | emplace k v => cases ho
  | insertRange l => cases ho
  | insertRangeMove l => cases ho
  | assignRange l => cases ho
  | assignRangeMove l => cases ho
  | erase k =>
    refine post_ret ?_
    rw [erase_eq h]
    cases t.c.ents.find? (fun x => keq x.key k) with
    | none => exact .same rfl
    | some e => exact .sub (without_sublist e _)
  | eraseU pos =>
    refine post_ret ?_
    cases pos with
    | none => exact .same rfl
    | some p =>
      by_cases hp : p ∈ t.c.ents.map (·.id)
      · obtain ⟨e, he, rfl⟩ := List.mem_map.1 hp
        rw [eraseU_own h he]
        exact .sub (without_sublist e _)
      · rw [eraseU_not hp]; trivial
  | eraseO pos =>
    refine post_ret ?_
    cases pos with
    | none => exact .same rfl
    | some p =>
      by_cases hp : p ∈ t.c.ents.map (·.slot)
      · obtain ⟨e, he, rfl⟩ := List.mem_map.1 hp
        rw [eraseO_own h he]
        split
        · exact .same rfl
        · exact .sub (without_sublist e _)
      · rw [eraseO_not hp]; trivial
  | clear => refine post_ret ?_; rw [clear_eq]; exact .sub (List.nil_sublist _)
  | shrink n => refine post_ret ?_; rw [shrink_eq h]; exact .sub (List.drop_sublist _ _)
  | setCapacity n => refine post_ret ?_; rw [setCapacity_eq h]; exact .sub (List.drop_sublist _ _)
  | clearExpired =>
    refine post_ret ?_
    obtain ⟨m, _, _, _, he⟩ := clearExpired_eq (O := O) h
    rw [he]
    exact .sub (List.drop_sublist _ _)
  | size => exact size_ro.ret.times
  | capacity => exact readCapacity_ro.ret.times
  | spaceLeft => exact spaceLeft_ro.ret.times
  | isEmpty => exact isEmpty_ro.ret.times
  | isFull => exact isFull_ro.ret.times
  | front => exact front_ro.ret.times
  | back => exact back_ro.ret.times
  | allExpired => exact allExpired_ro.ret.times
  | hasExpired k => exact hasExpired_ro.ret.times
  | hasExpiredU pos => exact hasExpiredU_ro.ret.times
  | hasExpiredO pos => exact hasExpiredO_ro.ret.times
  | isValidU pos => exact isValidU_ro.ret.times
  | isValidO pos => exact isValidO_ro.ret.times
  | uKey pos => exact uKey_ro.ret.times
  | uValue pos => exact uValue_ro.ret.times
  | oBegin => exact oBegin_ro.ret.times
  | oNext pos => exact oNext_ro.ret.times
  | oPrev pos => exact oPrev_ro.ret.times
  | oKey pos => exact oKey_ro.ret.times
  | oValue pos => exact oValue_ro.ret.times
  | toOrdered pos => exact toOrdered_ro.ret.times
  | eqOU o u => exact eqOU_ro.ret.times
  | monitor i => exact post_ret (setObs_times (f := fun o => { o with stats := i }))
  | monitorNew ks => exact post_ret (List.Sublist.refl _)
  | stopMonitoring => exact post_ret (setObs_times (f := fun o => { o with stats := none }))
  | isMonitoring => exact isMonitoring_ro.ret.times
  | stats => exact stats_ro.ret.times
  | sharedStats => exact sharedStats_ro.ret.times
  | addHitCallback cb => exact post_ret (setObs_times (f := fun o => { o with hitCbs := o.hitCbs ++ [cb] }))
  | addMissCallback cb => exact post_ret (setObs_times (f := fun o => { o with missCbs := o.missCbs ++ [cb] }))
  | addAccessCallback cb => exact post_ret (setObs_times (f := fun o => { o with accCbs := o.accCbs ++ [cb] }))
  | clearHitCallbacks => exact post_ret (setObs_times (f := fun o => { o with hitCbs := [] }))
  | clearMissCallbacks => exact post_ret (setObs_times (f := fun o => { o with missCbs := [] }))
  | clearAccessCallbacks => exact post_ret (setObs_times (f := fun o => { o with accCbs := [] }))
  | clearAllCallbacks => exact post_ret (setObs_times (f := fun o => { o with hitCbs := [], missCbs := [], accCbs := [] }))
  | write p v => exact post_ret write_times
  | read p => exact read_ro.ret.times

/-! ### Accesses and insertions -/

variable [DecidableEq V]

/-- The entries are in the order of their time stamps, which are readings of the clock in the past. -/
structure Filed (O : Oracle K V) (t : St (MCache K V) K V) : Prop where
  sorted : (t.c.ents.map (·.time)).Pairwise (· ≤ ·)
  stamped : ∀ x ∈ t.c.ents, Stamped O t.c.kind 0 t.g.ticks x.time

/-- The key is not stored, or in the last entry. -/
def OnTop (t : St (MCache K V) K V) (k : K) : Prop :=
  ∀ e, t.c.ents.find? (fun x => keq x.key k) = some e → t.c.ents.getLast? = some e

theorem touch_ents (h : Ok t) {k : K} (hk : OnTop t k) {e : Ent K V} (hf : t.c.ents.find? (fun x => keq x.key k) = some e) :
    (t.c.touch e).ents = t.c.ents := toEnd_last h.awf.slots (hk e hf)

theorem find_times (h : Ok t) {k : K} (hk : OnTop t k) {o} (ho : FindOut O k t o) : o.Post (TimesKept t) := by
  cases ho with
  | absent => exact .same rfl
  | absentThrow => exact .same rfl
  | expired => exact .same rfl
  | expiredThrow => exact .same rfl
  | hit e hf =>
    refine .sub ?_
    show List.Sublist (t.c.touch e).ents _
    rw [touch_ents h hk hf]
    exact List.Sublist.refl _
  | hitThrow => exact .same rfl

theorem contains_times (h : Ok t) {k : K} (hk : OnTop t k) : (Mid.contains O k t).Post (TimesKept t) := by
  have ho := contains_out (O := O) h k
  generalize Mid.contains O k t = r at ho
  cases ho with
  | lastHit => exact .same rfl
  | lastThrow => exact .same rfl
  | lastExpired => exact .same rfl
  | found p t' _ hf => exact find_times h hk hf
  | throws e t' _ hf => exact find_times h hk hf

theorem lookup_times (h : Ok t) {k : K} (hk : OnTop t k) : (Mid.lookup O k t).Post (TimesKept t) := by
  have ho := lookup_out (O := O) h k
  generalize Mid.lookup O k t = r at ho
  have key : ∀ e, t.c.ents.find? (fun x => keq x.key k) = some e → ∀ g, TimesKept t ⟨t.c.touch e, g⟩ := by
    intro e hf g
    refine .sub ?_
    show List.Sublist (t.c.touch e).ents _
    rw [touch_ents h hk hf]
    exact List.Sublist.refl _
  cases ho with
  | lastHit => exact .same rfl
  | lastThrow => exact .same rfl
  | lastExpired => exact .same rfl
  | notFound t' _ hf => exact find_times (o := .ok none t') h hk hf
  | throws e t' _ hf => exact find_times (o := .throw e t') h hk hf
  | hit e _ hf => exact key e hf _
  | lateExpired e _ hf => exact key e hf _

theorem stamp_max (hS : Steady O) (h : Filed O t) : ∀ x ∈ t.c.ents, x.time ≤ t.c.kind.stamp (O.clock t.g.ticks) := by
  intro x hx
  have h1 := h.stamped x hx
  cases hk : t.c.kind with
  | basic => rw [hk] at h1; rw [show x.time = 0 from h1]; exact Int.le_refl _
  | timed ttl res =>
    rw [hk] at h1
    obtain ⟨m, _, h2, h3⟩ := h1
    rw [h3]
    exact hS m _ (Nat.le_of_lt h2)

/-- Appending an entry with a new time stamp. -/
theorem sorted_snoc (hS : Steady O) (h : Filed O t) {l : List (Ent K V)} (hl : l.Sublist t.c.ents) {x : Ent K V}
    (hx : x.time = t.c.kind.stamp (O.clock t.g.ticks)) : ((l ++ [x]).map (·.time)).Pairwise (· ≤ ·) := by
  rw [List.map_append, List.pairwise_append]
  refine ⟨h.sorted.sublist (hl.map _), by simp, ?_⟩
  intro a ha b hb
  obtain ⟨y, hy, rfl⟩ := List.mem_map.1 ha
  obtain ⟨z, hz, rfl⟩ := List.mem_map.1 hb
  rw [List.mem_singleton] at hz
  subst hz
  rw [hx]
  exact stamp_max hS h y (hl.subset hy)

theorem insert_sorted (hS : Steady O) (h : Ok t) (hf : Filed O t) {k : K} {v : V} (hk : OnTop t k) {o}
    (ho : InsertOut O k v t o) : o.Post (fun t' => (t'.c.ents.map (·.time)).Pairwise (· ≤ ·)) := by
  cases ho with
  | unset => trivial
  | zero => exact hf.sorted
  | fault => exact hf.sorted
  | full g' e r n _ _ hl => exact sorted_snoc hS hf (by rw [hl]; exact List.sublist_cons_self _ _) rfl
  | room g' n q => exact sorted_snoc hS hf (List.Sublist.refl _) rfl
  | update g' e n he =>
    show ((without e t.c.ents ++ [{ e with val := v }]).map Ent.time).Pairwise (· ≤ ·)
    have h1 : (without e t.c.ents ++ [{ e with val := v }]).map Ent.time = (toEnd e t.c.ents).map Ent.time := by
      rw [List.map_append]; unfold toEnd without; rw [List.map_append]; rfl
    rw [h1, toEnd_last h.awf.slots (hk e he)]
    exact hf.sorted
  | updateFault g' e m n he =>
    show ((without e t.c.ents ++ [{ e with val := O.torn m e.val v }]).map Ent.time).Pairwise (· ≤ ·)
    have h1 : (without e t.c.ents ++ [{ e with val := O.torn m e.val v }]).map Ent.time = (toEnd e t.c.ents).map Ent.time := by
      rw [List.map_append]; unfold toEnd without; rw [List.map_append]; rfl
    rw [h1, toEnd_last h.awf.slots (hk e he)]
    exact hf.sorted

theorem TimesKept.sorted {t' : St (MCache K V) K V} (hf : (t.c.ents.map (·.time)).Pairwise (· ≤ ·)) (h : TimesKept t t') :
    (t'.c.ents.map (·.time)).Pairwise (· ≤ ·) := hf.sublist h

/-! ### Ranges -/

theorem step_stamped {m : Mid.CM K V α}
    (hm : Within (fun t t' => (∀ x ∈ t.c.ents, Stamped O t.c.kind 0 t.g.ticks x.time) →
      ∀ x ∈ t'.c.ents, Stamped O t'.c.kind 0 t'.g.ticks x.time) m) (h : Ok t)
    (hf : ∀ x ∈ t.c.ents, Stamped O t.c.kind 0 t.g.ticks x.time) :
    (m t).Post (fun t' => Ok t' ∧ ∀ x ∈ t'.c.ents, Stamped O t'.c.kind 0 t'.g.ticks x.time) :=
  (hm t h).imp fun _ h1 => ⟨h1.1, h1.2 hf⟩

/-- Nothing under these keys. -/
def NoneOf (t : St (MCache K V) K V) (l : List (K × V)) : Prop :=
  ∀ p ∈ l, t.c.ents.find? (fun x => keq x.key p.1) = none

theorem NoneOf.onTop {l : List (K × V)} (h : NoneOf t l) {p : K × V} (hp : p ∈ l) : OnTop t p.1 := by
  intro e he; rw [h p hp] at he; cases he

theorem insert_none {k : K} {v : V} {l : List (K × V)} (hn : NoneOf t ((k, v) :: l)) (hd : AllDifferent ((k, v) :: l)) {o}
    (ho : InsertOut O k v t o) : o.Post (fun t' => NoneOf t' l) := by
  have hk := hn _ (List.mem_cons_self ..)
  have hl : NoneOf t l := fun p hp => hn p (List.mem_cons_of_mem _ hp)
  have hd' := (List.pairwise_cons.1 hd).1
  have key : ∀ (r : List (Ent K V)) (x : Ent K V), (∀ y ∈ r, y ∈ t.c.ents) → x.key = k → ∀ p ∈ l,
      (r ++ [x]).find? (fun x => keq x.key p.1) = none := by
    intro r x hr hx p hp
    rw [List.find?_eq_none]
    intro y hy
    rcases List.mem_append.1 hy with hy | hy
    · exact List.find?_eq_none.1 (hl p hp) y (hr y hy)
    · rw [List.mem_singleton] at hy
      subst hy
      rw [hx, hd' p hp]
      simp
  cases ho with
  | unset => trivial
  | zero => exact hl
  | fault => exact hl
  | full g' e r n _ _ he => exact key r _ (fun y hy => by rw [he]; exact List.mem_cons_of_mem _ hy) rfl
  | room g' n q => exact key _ _ (fun _ hy => hy) rfl
  | update g' e n he => rw [hk] at he; cases he
  | updateFault g' e m n he => rw [hk] at he; cases he

theorem post_and {P Q : St (MCache K V) K V → Prop} {o : Out (St (MCache K V) K V) α} (h : o.Post P) (h' : o.Post Q) :
    o.Post (fun t => P t ∧ Q t) := by
  cases o <;> first | exact ⟨h, h'⟩ | trivial

theorem insert_filed (hS : Steady O) (h : Ok t) (hf : Filed O t) {k : K} {v : V} {l : List (K × V)}
    (hn : NoneOf t ((k, v) :: l)) (hd : AllDifferent ((k, v) :: l)) {m : Mid.CM K V (Bool × Option Ptr)}
    (hm : Keeps m) (ho : InsertOut O k v t (m t)) : (m t).Post (fun t' => Ok t' ∧ Filed O t' ∧ NoneOf t' l) := by
  have h1 := insert_sorted hS h hf (hn.onTop (List.mem_cons_self ..)) ho
  have h2 := insert_none hn hd ho
  have h3 := stamped_inv.elem.insert h ho
  have h4 := hm t h
  refine (post_and (post_and h1 h2) (post_and h3 h4)).imp fun t' h5 => ?_
  exact ⟨h5.2.2.ok, ⟨h5.1.1, h5.2.1 hf.stamped⟩, h5.1.2⟩

theorem post_bind {P Q : St (MCache K V) K V → Prop} {m : Mid.CM K V α} {f : α → Mid.CM K V β} (h : (m t).Post P)
    (hf : ∀ a t', m t = .ok a t' → P t' → (f a t').Post Q) (ht : ∀ e t', m t = .throw e t' → P t' → Q t') :
    ((m >>= f) t).Post Q := by
  show Out.Post Q (M.bind m f t)
  unfold M.bind
  cases hm : m t with
  | ok a t' => rw [hm] at h; exact hf a t' hm h
  | throw e t' => rw [hm] at h; exact ht e t' hm h
  | ub => trivial
  | terminate => trivial
  | diverge => trivial

theorem insertRange_filed (hO : NoListFault O) (hS : Steady O) {l : List (K × V)} : ∀ {t : St (MCache K V) K V}, Ok t → Filed O t →
    NoneOf t l → AllDifferent l → (Mid.insertRange O l t).Post (fun t' => Ok t' ∧ Filed O t') := by
  induction l with
  | nil => intro t h hf _ _; exact ⟨h, hf⟩
  | cons p l ih =>
    obtain ⟨k, v⟩ := p
    intro t h hf hn hd
    unfold Mid.insertRange
    refine post_bind (insert_filed hS h hf hn hd (insert_keeps hO) (insert_out h hO k v)) (fun a t' _ h1 => ?_)
      (fun e t' _ h1 => ⟨h1.1, h1.2.1⟩)
    refine post_bind (ih h1.1 h1.2.1 h1.2.2 (List.pairwise_cons.1 hd).2) (fun a t' _ h1 => h1) (fun e t' _ h1 => h1)

theorem insertRangeMove_filed (hO : NoListFault O) (hS : Steady O) {l : List (K × V)} : ∀ {t : St (MCache K V) K V}, Ok t → Filed O t →
    NoneOf t l → AllDifferent l → (Mid.insertRangeMove O l t).Post (fun t' => Ok t' ∧ Filed O t') := by
  induction l with
  | nil => intro t h hf _ _; exact ⟨h, hf⟩
  | cons p l ih =>
    obtain ⟨k, v⟩ := p
    intro t h hf hn hd
    unfold Mid.insertRangeMove
    refine post_bind (insert_filed hS h hf hn hd (emplace_keeps hO) (emplace_out h hO k v)) (fun a t' _ h1 => ?_)
      (fun e t' _ h1 => ⟨h1.1, h1.2.1⟩)
    refine post_bind (ih h1.1 h1.2.1 h1.2.2 (List.pairwise_cons.1 hd).2) (fun a t' _ h1 => h1) (fun e t' _ h1 => h1)

/-! ### All calls -/

theorem cleared_filed {n : Nat} (h : Ok t) : ((Mid.clearAndIncreaseCapacity n : Mid.CM K V Unit) t).Post
    (fun t' => (Ok t' ∧ Filed O t') ∧ ∀ l : List (K × V), NoneOf t' l) := by
  refine (post_and (clearAndIncreaseCapacity_empty (t := t)) (clearAndIncreaseCapacity_keeps t h)).imp fun t' h1 => ?_
  refine ⟨⟨h1.2.ok, ⟨by rw [h1.1.1]; simp, by rw [h1.1.1]; simp⟩⟩, fun l p _ => by rw [h1.1.1]; rfl⟩

variable {s : St (Cache K V) K V}

theorem Rel.onTop (hr : Rel s t) {k : K} (h : ¬ Buried s.c k) (ht : Ok t) : OnTop t k := by
  intro e he
  refine Classical.byContradiction fun hne => h ⟨e.node, by rw [hr.entryFor, he]; rfl, ?_⟩
  rw [hr.elements, List.getLast?_map]
  intro h1
  cases hl : t.c.ents.getLast? with
  | none => rw [hl] at h1; cases h1
  | some x =>
    rw [hl] at h1
    injection h1 with h1
    have hid : x.id = e.id := congrArg MapNode.addr h1
    have := map_inj_of_nodup ht.awf.ids x (List.mem_of_getLast? hl) e (find_mem he).1 hid
    exact hne (by rw [hl, this])

theorem Rel.noneOf (hr : Rel s t) {l : List (K × V)} (h : ¬ ∃ p ∈ l, Stored s.c p.1) : NoneOf t l := by
  intro p hp
  exact hr.not_stored.1 fun hs => h ⟨p, hp, hs⟩

/-- Calls that bring no entry forward keep the entries in order. -/
theorem step_filed (hO : NoListFault O) (hS : Steady O) (hr : Rel s t) (h : Ok t) (hf : Filed O t) {op : Op K V}
    (hb : ¬ op.BringsForward s.c) : (Mid.step O op t).Post (Filed O) := by
  have hst := step_stamped (step_within stamped_inv.elem hO op) h hf.stamped
  have key : (Mid.step O op t).Post (fun t' => (t'.c.ents.map (·.time)).Pairwise (· ≤ ·)) →
      (Mid.step O op t).Post (Filed O) := fun h1 => (post_and h1 hst).imp fun _ h2 => ⟨h2.1, h2.2.2⟩
  by_cases hu : op.usesNoKey = true
  · exact key ((other_times h hu).imp fun _ h1 => h1.sorted hf.sorted)
  · refine key ?_
    cases op <;> first | exact absurd rfl hu | skip
    · exact post_ret ((contains_times h (hr.onTop hb h)).imp fun _ h1 => h1.sorted hf.sorted)
    · exact post_ret ((find_times h (hr.onTop hb h) (find_out h _)).imp fun _ h1 => h1.sorted hf.sorted)
    · exact post_ret ((lookup_times h (hr.onTop hb h)).imp fun _ h1 => h1.sorted hf.sorted)
    · exact post_ret (insert_sorted hS h hf (hr.onTop hb h) (insert_out h hO _ _))
    · exact post_ret (insert_sorted hS h hf (hr.onTop hb h) (emplace_out h hO _ _))
    · have hb' := not_or.1 hb
      exact post_ret ((insertRange_filed hO hS h hf (hr.noneOf hb'.1) (Classical.not_not.1 hb'.2)).imp fun _ h1 => h1.2.sorted)
    · have hb' := not_or.1 hb
      exact post_ret ((insertRangeMove_filed hO hS h hf (hr.noneOf hb'.1) (Classical.not_not.1 hb'.2)).imp fun _ h1 => h1.2.sorted)
    · refine post_ret (post_bind (cleared_filed (O := O) h) (fun _ t' _ h1 => ?_) (fun _ _ _ h1 => h1.1.2.sorted))
      exact post_bind (insertRange_filed hO hS h1.1.1 h1.1.2 (h1.2 _) (Classical.not_not.1 hb)) (fun _ _ _ h2 => h2.2.sorted)
        (fun _ _ _ h2 => h2.2.sorted)
    · refine post_ret (post_bind (cleared_filed (O := O) h) (fun _ t' _ h1 => ?_) (fun _ _ _ h1 => h1.1.2.sorted))
      exact post_bind (insertRangeMove_filed hO hS h1.1.1 h1.1.2 (h1.2 _) (Classical.not_not.1 hb)) (fun _ _ _ h2 => h2.2.sorted)
        (fun _ _ _ h2 => h2.2.sorted)

end LRU
