import Verif.Model.Reenter
import Verif.Proofs.Evolve
/-!
# Callbacks that use the cache: transitions

Whatever the callbacks do, a call makes only elementary transitions.
-/

set_option linter.unusedSectionVars false
set_option autoImplicit false

namespace LRU

variable {K V : Type} [KeyEqual K] {α β : Type}

/-- `m` leaves the cache alone. -/
def Still (m : Impl.CM K V α) : Prop := ∀ s, (m s).Post (fun s' => s'.c = s.c ∧ Tame s.g s'.g)

/-- `m` keeps the invariant and makes only transitions in `R`. -/
def Goes (R : St (MCache K V) K V → St (MCache K V) K V → Prop) (m : Impl.CM K V α) : Prop :=
  ∀ s t, Rel s t → Ok t → (m s).Post (fun s' => ∃ t', Rel s' t' ∧ Ok t' ∧ R t t')

section still

variable [DecidableEq K] {O : Oracle K V}

theorem Still.bind {m : Impl.CM K V α} {f : α → Impl.CM K V β} (h : Still m) (h' : ∀ a, Still (f a)) :
    Still (m >>= f) := by
  intro s
  have h1 := h s
  show Out.Post _ (M.bind m f s)
  unfold M.bind
  cases hm : m s with
  | ok a s' =>
    rw [hm] at h1
    exact (h' a s').imp fun _ h2 => ⟨h2.1.trans h1.1, h1.2.trans h2.2⟩
  | throw e s' => rw [hm] at h1; exact h1
  | ub => trivial
  | terminate => trivial
  | diverge => trivial

theorem Still.pure {a : α} : Still (Pure.pure a : Impl.CM K V α) := fun _ => ⟨rfl, Tame.refl _⟩

theorem Still.ub : Still (M.ub : Impl.CM K V α) := fun _ => trivial

theorem Still.throw {e : Err} : Still (M.throw e : Impl.CM K V α) := fun _ => ⟨rfl, Tame.refl _⟩

theorem Still.ite {c : Prop} [Decidable c] {m m' : Impl.CM K V α} (h : Still m) (h' : Still m') :
    Still (if c then m else m') := by
  split <;> assumption

theorem getKind_still : Still (Impl.getKind : Impl.CM K V Kind) := fun _ => ⟨rfl, Tame.refl _⟩
theorem getObs_still : Still (Impl.getObs : Impl.CM K V Obs) := fun _ => ⟨rfl, Tame.refl _⟩
theorem getLast_still : Still (Impl.getLast : Impl.CM K V _) := fun _ => ⟨rfl, Tame.refl _⟩
theorem mapFind_still {k : K} : Still (Impl.mapFind k : Impl.CM K V _) := fun _ => ⟨rfl, Tame.refl _⟩

theorem deref_still {p : Ptr} : Still (Impl.deref p : Impl.CM K V _) := by
  intro s
  unfold Impl.deref
  split
  · exact ⟨rfl, Tame.refl _⟩
  · split
    · exact ⟨rfl, Tame.refl _⟩
    · trivial

theorem derefIt_still {it : Option Ptr} : Still (Impl.derefIt it : Impl.CM K V _) := by
  intro s
  cases it with
  | none => trivial
  | some p =>
    unfold Impl.derefIt
    simp only
    split
    · exact ⟨rfl, Tame.refl _⟩
    · trivial

theorem now_still : Still (now O : Impl.CM K V Int) := fun _ => ⟨rfl, rfl, Nat.le_refl _, Nat.le_succ _⟩

theorem hasExpiredInfo_still {time : Int} : Still (Impl.hasExpiredInfo O time) := by
  refine getKind_still.bind fun kind => ?_
  cases kind with
  | basic => exact .pure
  | timed ttl res => exact now_still.bind fun _ => .pure

theorem lastIs_still {k : K} : Still (Impl.lastIs k : Impl.CM K V Bool) := by
  refine getLast_still.bind fun p => ?_
  cases p with
  | none => exact .pure
  | some p => exact deref_still.bind fun _ => .pure

theorem lastNode_still : Still (Impl.lastNode : Impl.CM K V _) := by
  refine getLast_still.bind fun p => ?_
  cases p with
  | none => exact .ub
  | some p => exact deref_still

theorem lastAccessedIsOk_still : Still (Impl.lastAccessedIsOk O) := by
  refine getKind_still.bind fun kind => ?_
  cases kind with
  | basic => exact .pure
  | timed ttl res => exact lastNode_still.bind fun _ => hasExpiredInfo_still.bind fun _ => .pure

theorem valueForLastAccessed_still : Still (Impl.valueForLastAccessed O) := by
  refine lastNode_still.bind fun n => getKind_still.bind fun kind => ?_
  cases kind with
  | basic => exact .pure
  | timed ttl res => exact hasExpiredInfo_still.bind fun _ => .ite .throw .pure

theorem throwIfInvalidU_still {it : Option Ptr} : Still (Impl.throwIfInvalidU O it) := by
  cases it with
  | none => exact .throw
  | some p =>
    refine getKind_still.bind fun kind => ?_
    cases kind with
    | basic => exact .pure
    | timed ttl res => exact derefIt_still.bind fun _ => hasExpiredInfo_still.bind fun _ => .ite .throw .pure

theorem entryU_still {it : Option Ptr} : Still (Impl.entryU O it) :=
  derefIt_still.bind fun _ => throwIfInvalidU_still.bind fun _ => .pure

theorem emit_still {e : Event K V} : Still (emit e : Impl.CM K V Unit) :=
  fun _ => ⟨rfl, rfl, Nat.le_refl _, Nat.le_refl _⟩

theorem attempt_still {site : Site} : Still (attempt O site : Impl.CM K V Unit) := by
  intro s
  unfold attempt
  simp only
  split
  · exact ⟨rfl, rfl, Nat.le_refl _, Nat.le_refl _⟩
  · exact ⟨rfl, rfl, Nat.le_refl _, Nat.le_refl _⟩

theorem modStats_still {i : Nat} {f : Statistics K → Statistics K} : Still (modStats i f : Impl.CM K V Unit) :=
  fun _ => ⟨rfl, rfl, Nat.le_refl _, Nat.le_refl _⟩

theorem countHit_still {o : Obs} {k : K} : Still (countHit o k : Impl.CM K V Unit) := by
  unfold countHit
  cases o.stats with
  | none => exact .pure
  | some i => exact modStats_still

theorem countMiss_still {o : Obs} {k : K} : Still (countMiss o k : Impl.CM K V Unit) := by
  unfold countMiss
  cases o.stats with
  | none => exact .pure
  | some i => exact modStats_still

end still

/-- The list-machine counterpart of `Impl.touchR`. -/
def Mid.touchR (p : Ptr) : Mid.CM K V Unit := do
  let n ← Mid.derefIt (some p)
  Mid.moveToFront n.info.order
  Mid.setLast p

theorem touchR_sim {p : Ptr} : Sim (Impl.touchR p : Impl.CM K V Unit) (Mid.touchR p) := by
  refine ((derefIt_sim (P := fun _ => True) (it := some p)).pre (fun _ _ => trivial)).bind fun n => ?_
  refine RSim.pre (P := fun t => Own p t.c) ?_ ?_
  · refine moveToFront_sim.bind fun _ => ?_
    exact setLast_sim.sim
  · rintro t ⟨-, ⟨e, he, rfl⟩, h⟩
    exact ⟨e, he, Option.some.inj h⟩

theorem touchR_own {t : St (MCache K V) K V} (h : Ok t) {e : Ent K V} (he : e ∈ t.c.ents) :
    Mid.touchR e.id t = .ok () ⟨t.c.touch e, t.g⟩ := by
  have h1 : Mid.derefIt (some e.id) t = .ok e.node t := by
    unfold Mid.derefIt
    simp only [h.findId he]
  unfold Mid.touchR
  rw [bind_ok h1, show e.node.info.order = e.ord from rfl, bind_ok (moveToFront_eq h he)]
  rfl

theorem touchR_not {t : St (MCache K V) K V} {p : Ptr} (h : p ∉ t.c.ents.map (·.id)) : Mid.touchR p t = .ub := by
  have h0 : t.c.ents.find? (fun e => e.id == p) = none := by
    rw [List.find?_eq_none]
    intro e he h'
    exact h (List.mem_map.2 ⟨e, he, by simpa using h'⟩)
  have h1 : Mid.derefIt (some p) t = .ub := by
    unfold Mid.derefIt
    simp only [h0]
  unfold Mid.touchR
  exact bind_ub h1

section goes

variable [DecidableEq K] [DecidableEq V] {O : Oracle K V} {F : Event K V → Script K V}
variable {R : St (MCache K V) K V → St (MCache K V) K V → Prop}

theorem Rel.shared {s s' : St (Cache K V) K V} {t : St (MCache K V) K V} (hr : Rel s t) (hc : s'.c = s.c)
    (hg : Tame s.g s'.g) : Rel s' ⟨t.c, s'.g⟩ := by
  refine ⟨by rw [hc]; exact hr.rep, rfl, ?_⟩
  rw [hr.g] at hg
  exact hr.awf.mono hg.ext hg.next

theorem Ok.shared {s s' : St (Cache K V) K V} {t : St (MCache K V) K V} (hr : Rel s t) (ht : Ok t)
    (hg : Tame s.g s'.g) : Ok ⟨t.c, s'.g⟩ := by
  rw [hr.g] at hg
  exact ht.mono' hg.ext hg.next

theorem Still.goes (hR : Elem O R) {m : Impl.CM K V α} (h : Still m) : Goes R m := by
  intro s t hr ht
  refine (h s).imp fun s' ⟨h1, h2⟩ => ⟨⟨t.c, s'.g⟩, hr.shared h1 h2, ht.shared hr h2, ?_⟩
  rw [hr.g] at h2
  exact hR.shared ht h2

theorem Goes.of_sim {m : Impl.CM K V α} {m' : Mid.CM K V α} (hs : Sim m m') (hw : Within R m') : Goes R m := by
  intro s t hr ht
  have h1 := hs s t hr trivial
  have h2 := hw t ht
  cases hm : m s <;> cases hm' : m' t <;> rw [hm, hm'] at h1 <;> rw [hm'] at h2 <;>
    first | exact h1.elim | trivial | skip
  · exact ⟨_, h1.2.1, h2⟩
  · exact ⟨_, h1.2, h2⟩

theorem Goes.ok {m : Impl.CM K V α} (h : Goes R m) {s s' : St (Cache K V) K V} {t : St (MCache K V) K V} {a : α}
    (hr : Rel s t) (ht : Ok t) (hm : m s = .ok a s') : ∃ t', Rel s' t' ∧ Ok t' ∧ R t t' := by
  have := h s t hr ht
  rw [hm] at this
  exact this

theorem Goes.throw {m : Impl.CM K V α} (h : Goes R m) {s s' : St (Cache K V) K V} {t : St (MCache K V) K V} {e : Err}
    (hr : Rel s t) (ht : Ok t) (hm : m s = .throw e s') : ∃ t', Rel s' t' ∧ Ok t' ∧ R t t' := by
  have := h s t hr ht
  rw [hm] at this
  exact this

theorem Goes.bind (hR : Elem O R) {m : Impl.CM K V α} {f : α → Impl.CM K V β} (h : Goes R m)
    (h' : ∀ a, Goes R (f a)) : Goes R (m >>= f) := by
  intro s t hr ht
  have h1 := h s t hr ht
  show Out.Post _ (M.bind m f s)
  unfold M.bind
  cases hm : m s with
  | ok a s' =>
    rw [hm] at h1
    obtain ⟨t', hr', ht', h2⟩ := h1
    exact (h' a s' t' hr' ht').imp fun _ ⟨t'', h3, h4, h5⟩ => ⟨t'', h3, h4, hR.trans h2 h5⟩
  | throw e s' => rw [hm] at h1; exact h1
  | ub => trivial
  | terminate => trivial
  | diverge => trivial

theorem Goes.pure (hR : Elem O R) {a : α} : Goes R (Pure.pure a : Impl.CM K V α) := Still.pure.goes hR

theorem Goes.ite {c : Prop} [Decidable c] {m m' : Impl.CM K V α} (h : Goes R m) (h' : Goes R m') :
    Goes R (if c then m else m') := by
  split <;> assumption

theorem Goes.ret (hR : Elem O R) {m : Impl.CM K V α} {f : α → Res K V} (h : Goes R m) : Goes R (Impl.ret m f) :=
  h.bind hR fun _ => .pure hR

theorem touchR_within (hR : Elem O R) {p : Ptr} : Within R (Mid.touchR p) := by
  intro t ht
  by_cases h : p ∈ t.c.ents.map (·.id)
  · obtain ⟨e, he, rfl⟩ := List.mem_map.1 h
    rw [touchR_own ht he]
    exact ⟨ht.touch he, hR.touch ht he (Tame.refl _)⟩
  · rw [touchR_not h]
    trivial

theorem touchR_goes (hR : Elem O R) {p : Ptr} : Goes R (Impl.touchR p) := .of_sim touchR_sim (touchR_within hR)

theorem runScript_goes (hR : Elem O R) {call : Op K V → Impl.CM K V (Res K V)} (hc : ∀ op, Goes R (call op))
    (p : Script K V) : Goes R (Impl.runScript call p) := by
  induction p with
  | done => exact .pure hR
  | call op next ih =>
    intro s t hr ht
    have h1 := hc op s t hr ht
    unfold Impl.runScript
    cases hm : call op s with
    | ok r s' =>
      rw [hm] at h1
      obtain ⟨t', hr', ht', h2⟩ := h1
      exact (ih (.ok r) s' t' hr' ht').imp fun _ ⟨t'', h3, h4, h5⟩ => ⟨t'', h3, h4, hR.trans h2 h5⟩
    | throw e s' =>
      rw [hm] at h1
      obtain ⟨t', hr', ht', h2⟩ := h1
      exact (ih (.error e) s' t' hr' ht').imp fun _ ⟨t'', h3, h4, h5⟩ => ⟨t'', h3, h4, hR.trans h2 h5⟩
    | ub => trivial
    | terminate => trivial
    | diverge => trivial

theorem callEachR_goes (hR : Elem O R) {call : Op K V → Impl.CM K V (Res K V)} (hc : ∀ op, Goes R (call op))
    {ev : Nat → Impl.CM K V (Event K V)} (he : ∀ cb, Still (ev cb)) (l : List Nat) :
    Goes R (Impl.callEachR O F call ev l) := by
  induction l with
  | nil => exact .pure hR
  | cons cb rest ih =>
    refine ((he cb).goes hR).bind hR fun e => (emit_still.goes hR).bind hR fun _ => ?_
    exact (runScript_goes hR hc _).bind hR fun _ => (attempt_still.goes hR).bind hR fun _ => ih

variable {call : List CbList → Op K V → Impl.CM K V (Res K V)} {busy : List CbList} {k : K}

theorem registerHitR_goes (hR : Elem O R) (hc : ∀ b op, Goes R (call b op)) {p : Ptr} :
    Goes R (Impl.registerHitR O F call busy k p) := by
  refine (getObs_still.goes hR).bind hR fun o => (countHit_still.goes hR).bind hR fun _ => ?_
  refine (callEachR_goes hR (hc _) (fun cb => deref_still.bind fun _ => .pure) _).bind hR fun _ => ?_
  exact (getObs_still.goes hR).bind hR fun o => callEachR_goes hR (hc _) (fun cb => .pure) _

theorem registerMissR_goes (hR : Elem O R) (hc : ∀ b op, Goes R (call b op)) :
    Goes R (Impl.registerMissR O F call busy k) := by
  refine (getObs_still.goes hR).bind hR fun o => (countMiss_still.goes hR).bind hR fun _ => ?_
  refine (callEachR_goes hR (hc _) (fun cb => .pure) _).bind hR fun _ => ?_
  exact (getObs_still.goes hR).bind hR fun o => callEachR_goes hR (hc _) (fun cb => .pure) _

theorem findR_goes (hR : Elem O R) (hc : ∀ b op, Goes R (call b op)) : Goes R (Impl.findR O F call busy k) := by
  refine (mapFind_still.goes hR).bind hR fun it => ?_
  cases it with
  | none => exact (registerMissR_goes hR hc).bind hR fun _ => .pure hR
  | some n =>
    refine (hasExpiredInfo_still.goes hR).bind hR fun b => .ite ?_ ?_
    · exact (registerMissR_goes hR hc).bind hR fun _ => .pure hR
    · exact (registerHitR_goes hR hc).bind hR fun _ => (touchR_goes hR).bind hR fun _ => .pure hR

theorem containsR_goes (hR : Elem O R) (hc : ∀ b op, Goes R (call b op)) :
    Goes R (Impl.containsR O F call busy k) := by
  refine (lastIs_still.goes hR).bind hR fun b => .ite ?_ ?_
  · refine (lastAccessedIsOk_still.goes hR).bind hR fun b => .ite ?_ (.pure hR)
    refine (lastNode_still.goes hR).bind hR fun n => ?_
    exact (registerHitR_goes hR hc).bind hR fun _ => .pure hR
  · exact (findR_goes hR hc).bind hR fun _ => .pure hR

theorem lookupR_goes (hR : Elem O R) (hc : ∀ b op, Goes R (call b op)) :
    Goes R (Impl.lookupR O F call busy k) := by
  refine (lastIs_still.goes hR).bind hR fun b => .ite ?_ ?_
  · refine (valueForLastAccessed_still.goes hR).bind hR fun n => ?_
    refine (registerHitR_goes hR hc).bind hR fun _ => ?_
    exact (deref_still.goes hR).bind hR fun _ => .pure hR
  · refine (findR_goes hR hc).bind hR fun it => ?_
    cases it with
    | none => exact Still.throw.goes hR
    | some p => exact (entryU_still.goes hR).bind hR fun _ => .pure hR

/-- Calls whose callbacks use the cache make only elementary transitions. -/
theorem stepR_goes (hR : Elem O R) (hO : NoListFault O) (depth : Nat) (busy : List CbList) (op : Op K V) :
    Goes R (Impl.stepR O F depth busy op) := by
  induction depth generalizing busy op with
  | zero => exact fun _ _ _ _ => trivial
  | succ depth ih =>
    unfold Impl.stepR
    refine .ite (Still.ub.goes hR) ?_
    unfold Impl.dispatchR
    split
    · exact (containsR_goes hR ih).ret hR
    · exact (findR_goes hR ih).ret hR
    · exact (lookupR_goes hR ih).ret hR
    · exact .of_sim (step_sim hO _) (step_within hR hO _)

end goes

end LRU
