import Verif.Proofs.Tally
import Verif.Proofs.Count
import Verif.Proofs.Anatomy
import Verif.Spec.StatHistory
/-!
# Calls affect no other statistics objects than the cache's own

Directly on the model, for plain and timed caches and without assumptions about the state.
-/

set_option linter.unusedSectionVars false
set_option autoImplicit false

namespace LRU

variable {K V : Type} [KeyEqual K] [DecidableEq K] {α β : Type}

/-- Only the cache's own statistics object changes, by registrations. -/
structure Minds (s s' : St (Cache K V) K V) : Prop where
  nextStat : s'.g.nextStat = s.g.nextStat
  ext : s'.g.ext = s.g.ext
  next : s.g.next ≤ s'.g.next
  ticks : s.g.ticks ≤ s'.g.ticks
  obs : s'.c.obs = s.c.obs
  kind : s'.c.kind = s.c.kind
  others : ∀ i, s.c.obs.stats ≠ some i → s'.g.stats i = s.g.stats i
  states : ∀ i, StatState (s.g.stats i) → StatState (s'.g.stats i)

theorem Minds.trans {s s' s'' : St (Cache K V) K V} (h : Minds s s') (h' : Minds s' s'') : Minds s s'' :=
  ⟨h'.nextStat.trans h.nextStat, h'.ext.trans h.ext, Nat.le_trans h.next h'.next, Nat.le_trans h.ticks h'.ticks,
    h'.obs.trans h.obs, h'.kind.trans h.kind,
    fun i hi => (h'.others i (by rw [h.obs]; exact hi)).trans (h.others i hi), fun i hi => h'.states i (h.states i hi)⟩

theorem Silent.minds {s s' : St (Cache K V) K V} (h : Silent s s') : Minds s s' :=
  ⟨h.nextStat, h.ext, h.next, h.ticks, h.obs, h.kind, fun i _ => by rw [h.stats], fun i hi => by rw [h.stats]; exact hi⟩

/-- The function minds its own statistics object only; `o` are its statistics object and callbacks. -/
def Minding (o : Obs) (m : Impl.CM K V α) : Prop := ∀ s, s.c.obs = o → (m s).Post (Minds s)

theorem Quietly.minding {o : Obs} {m : Impl.CM K V α} (h : Quietly m) : Minding o m := by
  intro s _
  have := h s
  cases hm : m s <;> rw [hm] at this <;> first | trivial | exact Silent.minds this

theorem Minding.bind {o : Obs} {m : Impl.CM K V α} {f : α → Impl.CM K V β} (h : Minding o m) (h' : ∀ a, Minding o (f a)) :
    Minding o (m >>= f) := by
  intro s hs
  have h1 := h s hs
  show (M.bind m f s).Post _
  unfold M.bind
  cases hm : m s with
  | ok a s' =>
    rw [hm] at h1
    have h1 : Minds s s' := h1
    have h2 := h' a s' (h1.obs.trans hs)
    simp only
    cases hf : f a s' <;> rw [hf] at h2 <;> first | trivial | exact Minds.trans h1 h2
  | throw e s' => rw [hm] at h1; exact h1
  | ub => trivial
  | terminate => trivial
  | diverge => trivial

theorem Minding.ret {o : Obs} {m : Impl.CM K V α} {f : α → Res K V} (h : Minding o m) : Minding o (Impl.ret m f) :=
  h.bind fun _ => Quietly.pure.minding

variable {O : Oracle K V}

theorem registerHit_minding (o : Obs) (k : K) (v : V) : Minding o (registerHit O o k v) := by
  intro s hs
  have h1 : ∀ g : Shared K V, g.stats = hitStats o k s.g → g.nextStat = s.g.nextStat → g.ext = s.g.ext →
      g.next = s.g.next → g.ticks = s.g.ticks → Minds s ⟨s.c, g⟩ := by
    intro g h1 h2 h3 h4 h5
    refine ⟨h2, h3, by rw [h4]; exact Nat.le_refl _, by rw [h5]; exact Nat.le_refl _, rfl, rfl, ?_, ?_⟩
    · intro i hi
      show g.stats i = _
      rw [h1]
      rw [hs] at hi
      simp only [hitStats]; rw [if_neg hi]
    · intro i hi
      show StatState (g.stats i)
      rw [h1]
      simp only [hitStats]
      split
      · exact hi.hit k
      · exact hi
  rcases registerHit_cases (O := O) o k v s with ⟨h, _⟩ | ⟨n, cb, _, _, h⟩
  · rw [h]; exact h1 _ rfl rfl rfl rfl rfl
  · rw [h]; exact h1 _ rfl rfl rfl rfl rfl

theorem registerMiss_minding (o : Obs) (k : K) : Minding o (registerMiss (C := Cache K V) O o k) := by
  intro s hs
  have h1 : ∀ g : Shared K V, g.stats = missStats o k s.g → g.nextStat = s.g.nextStat → g.ext = s.g.ext →
      g.next = s.g.next → g.ticks = s.g.ticks → Minds s ⟨s.c, g⟩ := by
    intro g h1 h2 h3 h4 h5
    refine ⟨h2, h3, by rw [h4]; exact Nat.le_refl _, by rw [h5]; exact Nat.le_refl _, rfl, rfl, ?_, ?_⟩
    · intro i hi
      show g.stats i = _
      rw [h1]
      rw [hs] at hi
      simp only [missStats]; rw [if_neg hi]
    · intro i hi
      show StatState (g.stats i)
      rw [h1]
      simp only [missStats]
      split
      · exact hi.miss k
      · exact hi
  rcases registerMiss_cases (O := O) o k s with ⟨h, _⟩ | ⟨n, cb, _, _, h⟩
  · rw [h]; exact h1 _ rfl rfl rfl rfl rfl
  · rw [h]; exact h1 _ rfl rfl rfl rfl rfl

/-- A function that starts by looking at its own observers. -/
theorem Minding.withObs {o : Obs} {f : Obs → Impl.CM K V α} (h : Minding o (f o)) : Minding o (Impl.getObs >>= f) := by
  intro s hs
  rw [bind_ok (m := Impl.getObs) (s := s) rfl, hs]
  exact h s hs

theorem find_minding (o : Obs) (k : K) : Minding o (Impl.find O k) := by
  unfold Impl.find
  refine Minding.withObs (mapFind_q.minding.bind fun r => ?_)
  cases r with
  | some n =>
    refine hasExpiredInfo_q.minding.bind fun b => ?_
    cases b with
    | true => exact (registerMiss_minding o k).bind fun _ => Quietly.pure.minding
    | false =>
      exact (registerHit_minding o k _).bind fun _ => moveToFront_q.minding.bind fun _ => setLast_q.minding.bind fun _ =>
        Quietly.pure.minding
  | none => exact (registerMiss_minding o k).bind fun _ => Quietly.pure.minding

theorem lastAccessedIsOk_q : Quietly (Impl.lastAccessedIsOk O) := by
  unfold Impl.lastAccessedIsOk
  refine getKind_q.bind fun kind => ?_
  cases kind with
  | basic => exact Quietly.pure
  | timed => exact lastNode_q.bind fun _ => hasExpiredInfo_q.bind fun _ => Quietly.pure

theorem valueForLastAccessed_q : Quietly (Impl.valueForLastAccessed O) := by
  unfold Impl.valueForLastAccessed
  refine lastNode_q.bind fun _ => getKind_q.bind fun kind => ?_
  cases kind with
  | basic => exact Quietly.pure
  | timed =>
    refine hasExpiredInfo_q.bind fun b => ?_
    cases b with
    | true => exact Quietly.throw
    | false => exact Quietly.pure

theorem entryU_q {it : Option Ptr} : Quietly (Impl.entryU O it) := by
  unfold Impl.entryU
  exact derefIt_q.bind fun _ => throwIfInvalidU_q.bind fun _ => Quietly.pure

theorem contains_minding (o : Obs) (k : K) : Minding o (Impl.contains O k) := by
  unfold Impl.contains
  refine Minding.withObs (lastIs_q.minding.bind fun b => ?_)
  cases b with
  | true =>
    refine lastAccessedIsOk_q.minding.bind fun b => ?_
    cases b with
    | true =>
      exact lastNode_q.minding.bind fun n => (registerHit_minding o k _).bind fun _ => Quietly.pure.minding
    | false => exact Quietly.pure.minding
  | false => exact (find_minding o k).bind fun _ => Quietly.pure.minding

theorem lookup_minding (o : Obs) (k : K) : Minding o (Impl.lookup O k) := by
  unfold Impl.lookup
  refine Minding.withObs (lastIs_q.minding.bind fun b => ?_)
  cases b with
  | true =>
    exact valueForLastAccessed_q.minding.bind fun n => (registerHit_minding o k _).bind fun _ => Quietly.pure.minding
  | false =>
    refine (find_minding o k).bind fun r => ?_
    cases r with
    | none => exact Quietly.throw.minding
    | some p => exact entryU_q.minding.bind fun _ => Quietly.pure.minding

variable {s s' : St (Cache K V) K V} {op : Op K V} {res : Except Err (Res K V)} {k : K}

theorem performs_minds (hp : Performs O op s res s') (ha : op.isAccess = true) : Minds s s' := by
  have : (Impl.step O op s).Post (Minds s) := by
    cases op <;> first
      | (cases ha; done)
      | exact (contains_minding s.c.obs _).ret s rfl
      | exact (find_minding s.c.obs _).ret s rfl
      | exact (lookup_minding s.c.obs _).ret s rfl
  cases res with
  | ok r => rw [show Impl.step O op s = _ from hp] at this; exact this
  | error e => rw [show Impl.step O op s = _ from hp] at this; exact this

theorem performs_nextStat (hp : Performs O op s res s') : s.g.nextStat ≤ s'.g.nextStat := by
  cases ha : op.isAccess with
  | true => rw [(performs_minds hp ha).nextStat]; exact Nat.le_refl _
  | false => exact (performs_other hp ha).2.1

theorem performs_kind (hp : Performs O op s res s') : s'.c.kind = s.c.kind := by
  cases ha : op.isAccess with
  | true => exact (performs_minds hp ha).kind
  | false => exact (performs_other hp ha).2.2.2.1

theorem performs_states (hp : Performs O op s res s') (h : ∀ i, StatState (s.g.stats i)) :
    ∀ i, StatState (s'.g.stats i) := by
  cases ha : op.isAccess with
  | true => exact fun i => (performs_minds hp ha).states i (h i)
  | false =>
    by_cases hc : op.configures = true
    · have key : ∃ r, Impl.step O op s = .ok r s' := by
        cases res with
        | ok r => exact ⟨r, hp⟩
        | error e => cases op <;> first | (exfalso; cases hc; done) | (exfalso; cases hp; done)
      obtain ⟨r, hr⟩ := key
      cases op <;> first
        | (exfalso; cases hc; done)
        | (injection hr with _ hr; subst hr; exact h)
        | (injection hr with _ hr; subst hr
           intro i
           show StatState (if i = s.g.nextStat then _ else _)
           split
           · exact .new _
           · exact h i)
    · have := step_quietly (O := O) op ha (by simpa using hc) s
      have hs : Silent s s' := by
        cases res with
        | ok r => rw [show Impl.step O op s = _ from hp] at this; exact this
        | error e => rw [show Impl.step O op s = _ from hp] at this; exact this
      rw [hs.stats]
      exact h

theorem ctorBody_q (ctor : Ctor K V) : Quietly (Impl.ctorBody O ctor) := by
  cases ctor with
  | default => exact Quietly.pure
  | sized n => exact Quietly.pure
  | sizedItems n l => exact insertRange_q
  | items l => exact insertRange_q
  | initList l => exact insertRange_q
  | sizedRangeMove n l => exact insertRangeMove_q
  | rangeMove l => exact insertRangeMove_q

variable [DecidableEq V] {w w' : World K V} {wop : WOp K V} {i : Nat}

/-- What a program step does to the statistics object `i`. -/
theorem object_step (hp : WPerforms O wop w res w') (hi : i < w.g.nextStat) :
    i < w'.g.nextStat ∧
    ((∃ k, (WCall.mk wop res w w').accessFor i = some k ∧ ((WCall.mk wop res w w').plainFor i →
        (res ≠ .error .user → Counted k (found res) (w.g.stats i) (w'.g.stats i)) ∧
        ∃ hit, Counted k hit (w.g.stats i) (w'.g.stats i))) ∨
      (WCall.mk wop res w w').accessFor i = none ∧
        (w'.g.stats i = w.g.stats i ∨
          ∃ o, wop = .stat i o ∧ Impl.statStep (w.g.stats i) o = .ok (w'.g.stats i))) := by
  cases hp.effect with
  | called j o c _ s' hc hs =>
    have hlt : i < s'.g.nextStat := Nat.lt_of_lt_of_le hi (performs_nextStat hs)
    refine ⟨hlt, ?_⟩
    cases ha : o.isAccess with
    | false =>
      have hacc : o.accessed = none := by
        rw [isAccess_accessed] at ha
        cases hx : o.accessed <;> simp_all
      refine .inr ⟨?_, .inl ((performs_other hs ha).2.2.1 i hi)⟩
      simp [WCall.accessFor, hc, hacc]
    | true =>
      by_cases hst : c.obs.stats = some i
      · obtain ⟨k, hk⟩ : ∃ k, o.accessed = some k := by
          rw [isAccess_accessed] at ha
          exact Option.isSome_iff_exists.1 ha
        refine .inl ⟨k, by simp [WCall.accessFor, hc, hk, hst], fun hpl => ?_⟩
        have hb : (viewOf w j c).c.kind = .basic := hpl j o c rfl hc hst
        obtain ⟨h1, hit, evs, h2⟩ := performs_access hs (accessed_iff.1 hk) hb
        refine ⟨fun hne => ?_, hit, h2.recorded.counted i hst⟩
        obtain ⟨r, hr, ht⟩ := h1 hne
        rw [← hr]
        exact ht.recorded.counted i hst
      · exact .inr ⟨by simp [WCall.accessFor, hc, hst], .inl ((performs_minds hs ha).others i hst)⟩
  | created kind ctor n s' h =>
    have hs := ctorBody_q (O := O) ctor
      ⟨Impl.emptyCache kind (Impl.ctorCapacity ctor), { w.g with ext := Impl.allNodes w.caches }⟩
    rw [h] at hs
    have hs : Silent _ s' := hs
    exact ⟨by show i < s'.g.nextStat; rw [hs.nextStat]; exact hi, .inr ⟨rfl, .inl (by show s'.g.stats i = _; rw [hs.stats])⟩⟩
  | createThrow kind ctor e s' h =>
    have hs := ctorBody_q (O := O) ctor
      ⟨Impl.emptyCache kind (Impl.ctorCapacity ctor), { w.g with ext := Impl.allNodes w.caches }⟩
    rw [h] at hs
    have hs : Silent _ s' := hs
    exact ⟨by show i < s'.g.nextStat; rw [hs.nextStat]; exact hi, .inr ⟨rfl, .inl (by show s'.g.stats i = _; rw [hs.stats])⟩⟩
  | newStats ks =>
    refine ⟨Nat.lt_succ_of_lt hi, .inr ⟨rfl, .inl ?_⟩⟩
    show (if i = w.g.nextStat then _ else _) = _
    rw [if_neg (by omega)]
  | stat id o st hst =>
    refine ⟨hi, .inr ⟨rfl, ?_⟩⟩
    by_cases hid : i = id
    · subst hid
      right
      exact ⟨o, rfl, by show _ = Except.ok (if i = i then st else _); rw [if_pos rfl]; exact hst⟩
    · left
      show (if i = id then _ else _) = _
      rw [if_neg hid]
  | _ => exact ⟨hi, .inr ⟨rfl, .inl rfl⟩⟩

theorem states_step (hp : WPerforms O wop w res w') (h : ∀ i, StatState (w.g.stats i)) :
    ∀ i, StatState (w'.g.stats i) := by
  cases hp.effect with
  | called j o c _ s' hc hs => exact performs_states hs h
  | created kind ctor n s' h1 =>
    have hs := ctorBody_q (O := O) ctor
      ⟨Impl.emptyCache kind (Impl.ctorCapacity ctor), { w.g with ext := Impl.allNodes w.caches }⟩
    rw [h1] at hs
    have hs : Silent _ s' := hs
    intro i
    show StatState (s'.g.stats i)
    rw [hs.stats]; exact h i
  | createThrow kind ctor e s' h1 =>
    have hs := ctorBody_q (O := O) ctor
      ⟨Impl.emptyCache kind (Impl.ctorCapacity ctor), { w.g with ext := Impl.allNodes w.caches }⟩
    rw [h1] at hs
    have hs : Silent _ s' := hs
    intro i
    show StatState (s'.g.stats i)
    rw [hs.stats]; exact h i
  | newStats ks =>
    intro i
    show StatState (if i = w.g.nextStat then _ else _)
    split
    · exact .new ks
    · exact h i
  | stat id o st hst =>
    intro i
    show StatState (if i = id then _ else _)
    split
    · cases o with
      | monitor k => injection hst with hst; subst hst; exact (h id).monitor k
      | unmonitor k => exact (h id).unmonitor hst
      | unmonitorAll => injection hst with hst; subst hst; exact (h id).unmonitorAll
      | resetKey k => exact (h id).resetKey hst
    · exact h i
  | _ => exact h

theorem Reach.wperforms {ok : WOp K V → Prop} (h : Reach O ok w) (hok : ok wop) (hp : WPerforms O wop w res w') :
    Reach O ok w' := by
  cases res with
  | ok r => exact h.step wop hok hp
  | error e => exact h.throw wop hok hp

theorem Reach.states {ok : WOp K V → Prop} (h : Reach O ok w) : ∀ i, StatState (w.g.stats i) := by
  induction h with
  | init => exact fun _ => .new []
  | step op _ _ he ih => exact states_step (res := .ok _) he ih
  | throw op _ _ he ih => exact states_step (res := .error _) he ih

end LRU
