import Verif.Proofs.Tally
import Verif.Proofs.HistoryInv
import Verif.Spec.Trace
/-!
# Counting over runs and traces
-/

set_option linter.unusedSectionVars false
set_option autoImplicit false

namespace LRU

variable {K V : Type} [KeyEqual K] [DecidableEq K] {O : Oracle K V}

theorem accessed_iff {op : Op K V} {k : K} : op.accessed = some k ↔ op.Accesses k := by
  unfold Op.Accesses
  cases op <;> simp [Op.accessed]

theorem isAccess_accessed {op : Op K V} : op.isAccess = op.accessed.isSome := by cases op <;> rfl

theorem dueCallbacks_eq (o : Obs) (k : K) (r : Option V) : dueCallbacks o k r = accessEvents o k r := by
  cases r <;> rfl

variable {s s' : St (Cache K V) K V} {op : Op K V} {res : Except Err (Res K V)} {k : K}

/-- What calls other than accesses do to statistics: nothing to existing objects. -/
theorem performs_other (hp : Performs O op s res s') (ha : op.isAccess = false) :
    s'.g.log = s.g.log ∧ s.g.nextStat ≤ s'.g.nextStat ∧ (∀ i, i < s.g.nextStat → s'.g.stats i = s.g.stats i) ∧
      s'.c.kind = s.c.kind ∧ s'.g.ext = s.g.ext ∧ (op.setsMonitor = false → s'.c.obs.stats = s.c.obs.stats) := by
  by_cases hc : op.configures = true
  · have key : ∃ r, Impl.step O op s = .ok r s' := by
      cases res with
      | ok r => exact ⟨r, hp⟩
      | error e => cases op <;> first | (exfalso; cases hc; done) | (exfalso; cases hp; done)
    obtain ⟨r, hr⟩ := key
    cases op <;> first
      | (exfalso; cases hc; done)
      | (injection hr with _ hr; subst hr; exact ⟨rfl, Nat.le_refl _, fun _ _ => rfl, rfl, rfl, fun _ => rfl⟩)
      | (injection hr with _ hr; subst hr; exact ⟨rfl, Nat.le_refl _, fun _ _ => rfl, rfl, rfl, fun h => by cases h⟩)
      | (injection hr with _ hr; subst hr
         refine ⟨rfl, Nat.le_succ _, fun i hi => ?_, rfl, rfl, fun h => by cases h⟩
         show (if i = s.g.nextStat then _ else _) = _
         rw [if_neg (by omega)])
  · have := step_quietly (O := O) op ha (by simpa using hc) s
    have hs : Silent s s' := by
      cases res with
      | ok r => rw [show Impl.step O op s = _ from hp] at this; exact this
      | error e => rw [show Impl.step O op s = _ from hp] at this; exact this
    exact ⟨hs.log, by rw [hs.nextStat]; exact Nat.le_refl _, fun i _ => by rw [hs.stats], hs.kind, hs.ext, fun _ => by rw [hs.obs]⟩

/-- Every access on a plain cache is registered once. -/
theorem performs_access (hp : Performs O op s res s') (ha : op.Accesses k) (hb : s.c.kind = .basic) :
    (res ≠ .error .user → ∃ r : Option V, r.isSome = found res ∧ Tally s s' k r.isSome (accessEvents s.c.obs k r)) ∧
    ∃ (hit : Bool) (evs : List (Event K V)), Tally s s' k hit evs := by
  have key : Told s k (fun r => found (.ok r)) (Impl.step O op s) := by
    rcases ha with rfl | rfl | rfl
    · refine Told.bind (contains_told s hb k) (fun _ => Quietly.pure) ?_ ?_
      · intro a s1 b s2 h
        injection h with h _
        subst h
        rfl
      · intro _ _ _ _ h; cases h
    · refine Told.bind (find_told s hb k) (fun _ => Quietly.pure) ?_ ?_
      · intro a s1 b s2 h
        injection h with h _
        subst h
        rfl
      · intro _ _ _ _ h; cases h
    · refine Told.bind (lookup_told s hb k) (fun _ => Quietly.pure) ?_ ?_
      · intro a s1 b s2 h
        injection h with h _
        subst h
        rfl
      · intro _ _ _ _ h; cases h
  cases res with
  | ok r =>
    rw [show Impl.step O op s = _ from hp] at key
    obtain ⟨r', h1, h2⟩ := key
    exact ⟨fun _ => ⟨r', h1, h2⟩, _, _, h2⟩
  | error e =>
    rw [show Impl.step O op s = _ from hp] at key
    rcases key with ⟨r, n, he, ht⟩ | ⟨he, ht⟩
    · exact ⟨fun h => absurd (by rw [he]) h, _, _, ht⟩
    · exact ⟨fun _ => ⟨none, rfl, ht⟩, _, _, ht⟩

variable [DecidableEq V]

/-- On a reachable plain cache the verdict is whether the key is stored, and the value is the stored one. -/
theorem Reachable.registers (hO : NoListFault O) (h : Reachable O s) (hb : s.c.kind = .basic) (ha : op.Accesses k)
    (hp : Performs O op s res s') :
    (∃ n, Recorded s s' k (entryFor s.c k).isSome ((dueCallbacks s.c.obs k (stored? s.c k)).take n)) ∧
    (res ≠ .error .user → Recorded s s' k (entryFor s.c k).isSome (dueCallbacks s.c.obs k (stored? s.c k)) ∧
      found res = (entryFor s.c k).isSome) ∧ s'.c.obs = s.c.obs ∧ s'.c.kind = s.c.kind := by
  have hexp : ∀ {t : St (MCache K V) K V}, Rel s t → ∀ g time, expiredAt O t.c.kind g time = false := by
    intro t hr g time
    rw [← hr.rep.kind, hb]
    rfl
  have full : ∀ {hit : Bool} {evs : List (Event K V)}, Recorded s s' k hit evs →
      ∃ n, Recorded s s' k hit (evs.take n) := by
    intro hit evs h
    exact ⟨evs.length, by rw [List.take_length]; exact h⟩
  cases res with
  | ok r =>
    obtain ⟨t, t', hr, ht, ho, hr'⟩ := h.access hO ha hp
    have hsome : ∀ {e : Ent K V}, t.c.ents.find? (fun x => keq x.key k) = some e →
        entryFor s.c k = some e.node := by
      intro e he; rw [hr.entryFor, he]; rfl
    have hfound : ∀ {e : Ent K V}, Hit op r e.node → found (.ok r) = true := by
      intro e he
      rcases ha with rfl | rfl | rfl <;> simp [Hit] at he <;> subst he <;> rfl
    have hmiss : Miss r → found (.ok r) = false := by
      rintro (rfl | rfl) <;> rfl
    cases ho with
    | last e r h1 h2 h3 h4 =>
      have h5 : HitRecorded s s' k e.val := hr.hit hr' (by rfl) (by rfl)
      rw [stored?, hsome h2]
      exact ⟨full h5, fun _ => ⟨h5, hfound h4⟩, by rw [hr'.rep.obs, hr.rep.obs], by rw [hr'.rep.kind, hr.rep.kind]⟩
    | hit e r j h2 h3 h4 =>
      have h5 : HitRecorded s s' k e.val := hr.hit hr' (by rfl) (by rfl)
      rw [stored?, hsome h2]
      exact ⟨full h5, fun _ => ⟨h5, hfound h4⟩, by rw [hr'.rep.obs, hr.rep.obs]; rfl,
        by rw [hr'.rep.kind, hr.rep.kind]; rfl⟩
    | absent r h2 h4 =>
      have h5 : MissRecorded s s' k := hr.miss hr' (by rfl) (by rfl)
      have : entryFor s.c k = none := by rw [hr.entryFor, h2]; rfl
      rw [stored?, this]
      exact ⟨full h5, fun _ => ⟨h5, hmiss h4⟩, by rw [hr'.rep.obs, hr.rep.obs], by rw [hr'.rep.kind, hr.rep.kind]⟩
    | expired e r h2 h3 h4 => rw [hexp hr] at h4; cases h4
    | lastExpired e h1 h2 h3 h4 => rw [hexp hr] at h4; cases h4
  | error er =>
    obtain ⟨t, t', hr, ht, ho, hr'⟩ := h.access_throw hO ha hp
    have hsome : ∀ {e : Ent K V}, t.c.ents.find? (fun x => keq x.key k) = some e →
        entryFor s.c k = some e.node := by
      intro e he; rw [hr.entryFor, he]; rfl
    cases ho with
    | hitUser e n cb h1 h2 h3 h4 =>
      rw [stored?, hsome h1]
      refine ⟨⟨n + 1, ⟨?_, ?_, ?_⟩⟩, fun hn => absurd rfl hn, by rw [hr'.rep.obs, hr.rep.obs],
        by rw [hr'.rep.kind, hr.rep.kind]⟩
      · rw [hr'.g, hr.g, hr.rep.obs]; rfl
      · intro i hi
        rw [hr'.g, hr.g]
        show Counted k true _ (hitStats t.c.obs k _ i)
        rw [← hr.rep.obs]
        simp only [hitStats, hi, if_pos]; exact counted_hit _ _
      · intro i hi
        rw [hr'.g, hr.g]
        show hitStats t.c.obs k _ i = _
        rw [← hr.rep.obs]
        simp only [hitStats]; rw [if_neg hi]; rfl
    | missUser n cb h1 h2 h3 =>
      have : entryFor s.c k = none := by rw [hr.entryFor, h1]; rfl
      rw [stored?, this]
      refine ⟨⟨n + 1, ⟨?_, ?_, ?_⟩⟩, fun hn => absurd rfl hn, by rw [hr'.rep.obs, hr.rep.obs],
        by rw [hr'.rep.kind, hr.rep.kind]⟩
      · rw [hr'.g, hr.g, hr.rep.obs]; rfl
      · intro i hi
        rw [hr'.g, hr.g]
        show Counted k false _ (missStats t.c.obs k _ i)
        rw [← hr.rep.obs]
        simp only [missStats, hi, if_pos]; exact counted_miss _ _
      · intro i hi
        rw [hr'.g, hr.g]
        show missStats t.c.obs k _ i = _
        rw [← hr.rep.obs]
        simp only [missStats]; rw [if_neg hi]
    | expiredUser e n cb h1 h2 => rw [hexp hr] at h2; cases h2
    | notFound h1 h2 =>
      have h5 : MissRecorded s s' k := hr.miss hr' (by rfl) (by rfl)
      have : entryFor s.c k = none := by rw [hr.entryFor, h2]; rfl
      rw [stored?, this]
      exact ⟨full h5, fun _ => ⟨h5, rfl⟩, by rw [hr'.rep.obs, hr.rep.obs], by rw [hr'.rep.kind, hr.rep.kind]⟩
    | expired e h1 h2 h3 h4 => rw [hexp hr] at h4; cases h4
    | lastExpired e h1 h2 h3 h4 => rw [hexp hr] at h4; cases h4
    | lateExpired e h1 h2 h3 h4 h5 => rw [hexp hr] at h5; cases h5

theorem Performs.reachable (hO : NoListFault O) (h : Reachable O s) (hp : Performs O op s res s') : Reachable O s' := by
  cases res with
  | ok r => exact h.after hO hp
  | error e => exact h.afterThrow hO hp

theorem Run.reachable (hO : NoListFault O) {h : List (Call K V)} (hs : Reachable O s) (hr : Run O s h s') :
    Reachable O s' := by
  induction hr with
  | nil => exact hs
  | call _ hp ih => exact hp.reachable hO ih

theorem Run.history {h : List (Call K V)} (hr : Run O s h s') : History O s h s' := by
  induction hr with
  | nil => exact .nil
  | @call h s1 s2 op res _ hp ih =>
    cases res with
    | ok r => exact .ok ih hp
    | error e => exact .throw ih hp

end LRU
