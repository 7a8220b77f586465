import Verif.Proofs.ReenterMiss
import Verif.Proofs.Count
import Verif.Spec.ReenterTrace
/-!
# What callbacks that use the cache were told and did: proofs
-/

set_option autoImplicit false
set_option linter.unusedSectionVars false

namespace LRU

variable {K V : Type} [KeyEqual K] [DecidableEq K] [DecidableEq V] {O : Oracle K V} {F : Event K V → Script K V}
variable {s s' s1 s2 : St (Cache K V) K V} {k : K} {α : Type}

theorem Via.same (hc : s'.c = s.c) (hg : Tame s.g s'.g) : Via O s [] s' := .nil hc hg.next hg.ticks hg.ext

theorem Via.refl (s : St (Cache K V) K V) : Via O s [] s := .same rfl (Tame.refl _)

theorem Via.first (h : Via O s [] s1) {l : Calls K V} (h' : Via O s1 l s2) : Via O s l s2 := by
  cases h with
  | nil a b c d =>
    cases h' with
    | nil a' b' c' d' =>
      exact .nil (a'.trans a) (Nat.le_trans b b') (Nat.le_trans c c') (d'.trans d)
    | call h1 h2 h3 =>
      cases h1 with
      | nil a' b' c' d' =>
        exact .call (.nil (a'.trans a) (Nat.le_trans b b') (Nat.le_trans c c') (d'.trans d)) h2 h3

theorem Via.append {l l' : Calls K V} (h : Via O s l s1) : Via O s1 l' s2 → Via O s (l ++ l') s2 := by
  induction h with
  | nil a b c d => exact fun h' => Via.first (.nil a b c d) h'
  | call h1 h2 _ _ ih => exact fun h' => .call h1 h2 (ih h')

theorem Via.last {l : Calls K V} (h : Via O s l s1) (h' : Via O s1 [] s2) : Via O s l s2 := by
  have := h.append h'
  rwa [List.append_nil] at this

theorem Still.via {m : Impl.CM K V α} (h : Still m) {a : α} (hm : m s = .ok a s') : Via O s [] s' := by
  have := h s
  rw [hm] at this
  exact .same this.1 this.2

theorem stepR_plain {d : Nat} {busy : List CbList} {op : Op K V} (ha : op.isAccess = false) :
    Impl.stepR O F d busy op s = Impl.step O op s ∨ Impl.stepR O F d busy op s = .ub ∨
      Impl.stepR O F d busy op s = .diverge := by
  cases d with
  | zero => exact .inr (.inr rfl)
  | succ d =>
    rw [Impl.stepR]
    by_cases h : busy.any op.registers = true
    · rw [if_pos h]; exact .inr (.inl rfl)
    · rw [if_neg h]
      refine .inl ?_
      cases op <;> first | rfl | cases ha

/-- A callback that makes no accesses. -/
theorem runScript_did {d : Nat} {busy : List CbList} {p : Script K V} (hp : p.Only (fun op => op.isAccess = false))
    (h : Impl.runScript (Impl.stepR O F d busy) p s = .ok () s') :
    ∃ l, p.Did l ∧ Via O s l s' ∧ s'.g.log = s.g.log ∧ s'.g.ext = s.g.ext := by
  induction p generalizing s with
  | done =>
    have h' : (Out.ok () s : Out (St (Cache K V) K V) Unit) = .ok () s' := h
    injection h' with _ h'
    subst h'
    exact ⟨[], rfl, .refl _, rfl, rfl⟩
  | call op next ih =>
    unfold Impl.runScript at h
    have key : ∀ {res : Except Err (Res K V)} {s1 : St (Cache K V) K V}, Performs O op s res s1 →
        Impl.runScript (Impl.stepR O F d busy) (next res) s1 = .ok () s' →
        ∃ l, (Script.call op next).Did l ∧ Via O s l s' ∧ s'.g.log = s.g.log ∧ s'.g.ext = s.g.ext := by
      intro res s1 h1 h2
      obtain ⟨l, hl, hv, hg, hx⟩ := ih res (hp.2 _) h2
      have h3 := performs_other h1 hp.1
      exact ⟨_, ⟨res, l, rfl, hl⟩, .call (.refl _) h1 hv, hg.trans h3.1, hx.trans h3.2.2.2.2.1⟩
    rcases stepR_plain (O := O) (F := F) (s := s) (d := d) (busy := busy) hp.1 with h0 | h0 | h0
    · rw [h0] at h
      cases ho : Impl.step O op s with
      | ok r s1 => rw [ho] at h; exact key (res := .ok r) ho h
      | throw e s1 => rw [ho] at h; exact key (res := .error e) ho h
      | _ => rw [ho] at h; cases h
    · rw [h0] at h; cases h
    · rw [h0] at h; cases h

/-- The callbacks of one container. `Q` says what a callback is told. -/
theorem callEachR_did {d : Nat} {busy : List CbList} (hF : NoAccesses F) {ev : Nat → Impl.CM K V (Event K V)}
    {Q : Nat → St (Cache K V) K V → Event K V → Prop}
    (hev : ∀ cb s e s', ev cb s = .ok e s' → s' = s ∧ Q cb s e) {l : List Nat}
    (h : Impl.callEachR O F (Impl.stepR O F d busy) ev l s = .ok () s') :
    ∃ t : Account K V, t.length = l.length ∧ t.True F ∧ Via O s t.calls s' ∧ s'.g.log = s.g.log ++ t.told ∧
      ∀ i cb, l[i]? = some cb → ∃ si e, Via O s (Account.calls (t.take i)) si ∧
        si.g.ext = s.g.ext ∧ Q cb si e ∧ t.told[i]? = some e := by
  induction l generalizing s with
  | nil =>
    have h' : (Out.ok () s : Out (St (Cache K V) K V) Unit) = .ok () s' := h
    injection h' with _ h'
    subst h'
    exact ⟨[], rfl, nofun, .refl _, (List.append_nil _).symm, nofun⟩
  | cons cb rest ih =>
    rw [callEachR_cons] at h
    obtain ⟨e, s1, h1, h5⟩ := bind_ok_inv h
    obtain ⟨hs1, hq⟩ := hev _ _ _ _ h1
    subst hs1
    obtain ⟨_, s2, h2, h6⟩ := bind_ok_inv h5
    obtain ⟨_, s3, h3, h7⟩ := bind_ok_inv h6
    obtain ⟨_, s4, h4, h8⟩ := bind_ok_inv h7
    obtain ⟨c, hc, hv, hg, hx⟩ := runScript_did (hF e) h3
    have hg2 : s2.g.log = s1.g.log ++ [e] := by
      have h2' : (Out.ok () ⟨s1.c, { s1.g with log := s1.g.log ++ [e] }⟩ : Out (St (Cache K V) K V) Unit) = .ok () s2 := h2
      injection h2' with _ h2'
      rw [← h2']
    have hg4 : s4.g.log = s3.g.log := by
      have := Quietly.attempt (O := O) (site := .callback cb) s3
      rw [h4] at this
      exact Silent.log this
    have hx4 : s4.g.ext = s1.g.ext := by
      have h9 := emit_still (e := e) s1
      have h10 := attempt_still (O := O) (site := .callback cb) s3
      rw [h2] at h9
      rw [h4] at h10
      exact h10.2.ext.trans (hx.trans h9.2.ext)
    have hv4 : Via O s1 c s4 := (Via.first (emit_still.via h2) hv).last (attempt_still.via h4)
    obtain ⟨t, ht, htr, hvt, hgt, hi⟩ := ih h8
    refine ⟨(e, c) :: t, by simp [ht], ?_, ?_, ?_, ?_⟩
    · intro x hx
      rcases List.mem_cons.1 hx with rfl | hx
      · exact hc
      · exact htr x hx
    · exact hv4.append hvt
    · rw [hgt, hg4, hg, hg2]
      simp [Account.told]
    · intro i cb' hcb
      cases i with
      | zero =>
        simp at hcb
        subst hcb
        exact ⟨s1, e, .refl _, rfl, hq, rfl⟩
      | succ i =>
        obtain ⟨si, e', h5, hx5, h6, h7⟩ := hi i cb' (by simpa using hcb)
        exact ⟨si, e', hv4.append h5, hx5.trans hx4, h6, h7⟩

theorem callEachR_told {d : Nat} {busy : List CbList} (hF : NoAccesses F) {ev : Nat → Event K V} {l : List Nat}
    (h : Impl.callEachR O F (Impl.stepR O F d busy) (fun cb => Pure.pure (ev cb)) l s = .ok () s') :
    ∃ t : Account K V, t.told = l.map ev ∧ t.True F ∧ Via O s t.calls s' ∧ s'.g.log = s.g.log ++ t.told := by
  obtain ⟨t, hl, ht, hv, hg, hi⟩ := callEachR_did hF (Q := fun cb _ e => e = ev cb) (fun cb s e s' h => by
    have h' : (Out.ok (ev cb) s : Out (St (Cache K V) K V) (Event K V)) = .ok e s' := h
    injection h' with h1 h2
    exact ⟨h2.symm, h1.symm⟩) h
  refine ⟨t, List.ext_getElem? fun i => ?_, ht, hv, hg⟩
  cases hc : l[i]? with
  | none =>
    have hlen : l.length ≤ i := List.getElem?_eq_none_iff.1 hc
    rw [List.getElem?_map, hc, List.getElem?_eq_none_iff.2 (by simpa [Account.told, hl] using hlen)]
    rfl
  | some cb =>
    obtain ⟨si, e, -, -, rfl, h2⟩ := hi i cb hc
    rw [h2, List.getElem?_map, hc]
    rfl


theorem countMiss_log {o : Obs} (h : (countMiss o k : Impl.CM K V Unit) s = .ok () s') : s'.g.log = s.g.log := by
  unfold countMiss at h
  cases hs : o.stats <;> rw [hs] at h <;> (injection h with _ h; rw [← h])

theorem countHit_log {o : Obs} (h : (countHit o k : Impl.CM K V Unit) s = .ok () s') : s'.g.log = s.g.log := by
  unfold countHit at h
  cases hs : o.stats <;> rw [hs] at h <;> (injection h with _ h; rw [← h])

/-- A miss is registered. -/
theorem registerMissR_told {d : Nat} {busy : List CbList} (hF : NoAccesses F)
    (h : Impl.registerMissR O F (Impl.stepR O F d) busy k s = .ok () s') :
    ∃ (t1 t2 : Account K V) (s1 : St (Cache K V) K V), t1.told = s.c.obs.missCbs.map (fun cb => .miss cb k) ∧
      t2.told = s1.c.obs.accCbs.map (fun cb => .access cb k false) ∧ Account.True F (t1 ++ t2) ∧
      Via O s t1.calls s1 ∧ Via O s1 t2.calls s' ∧ s'.g.log = s.g.log ++ t1.told ++ t2.told := by
  unfold Impl.registerMissR at h
  rw [bind_ok (show Impl.getObs s = .ok s.c.obs s from rfl)] at h
  obtain ⟨_, s1, h1, h⟩ := bind_ok_inv h
  obtain ⟨_, s2, h2, h⟩ := bind_ok_inv h
  rw [bind_ok (show Impl.getObs s2 = .ok s2.c.obs s2 from rfl)] at h
  obtain ⟨t1, a1, b1, c1, d1⟩ := callEachR_told hF h2
  obtain ⟨t2, a2, b2, c2, d2⟩ := callEachR_told hF h
  refine ⟨t1, t2, s2, a1, a2, ?_, Via.first (countMiss_still.via h1) c1, c2, by rw [d2, d1, countMiss_log h1]⟩
  intro x hx
  rcases List.mem_append.1 hx with hx | hx
  · exact b1 x hx
  · exact b2 x hx

/-- A hit is registered. -/
theorem registerHitR_told {d : Nat} {busy : List CbList} (hF : NoAccesses F) {p : Ptr}
    (h : Impl.registerHitR O F (Impl.stepR O F d) busy k p s = .ok () s') :
    ∃ (t1 t2 : Account K V) (s1 : St (Cache K V) K V), t1.length = s.c.obs.hitCbs.length ∧
      (∀ i cb, s.c.obs.hitCbs[i]? = some cb → ∃ si x, Via O s (Account.calls (t1.take i)) si ∧
        (x ∈ si.c.map ∨ x ∈ s.g.ext) ∧ x.addr = p ∧ t1.told[i]? = some (.hit cb k x.info.value)) ∧
      t2.told = s1.c.obs.accCbs.map (fun cb => .access cb k true) ∧ Account.True F (t1 ++ t2) ∧
      Via O s t1.calls s1 ∧ Via O s1 t2.calls s' ∧ s'.g.log = s.g.log ++ t1.told ++ t2.told := by
  unfold Impl.registerHitR at h
  rw [bind_ok (show Impl.getObs s = .ok s.c.obs s from rfl)] at h
  obtain ⟨_, s1, h1, h⟩ := bind_ok_inv h
  obtain ⟨_, s2, h2, h⟩ := bind_ok_inv h
  rw [bind_ok (show Impl.getObs s2 = .ok s2.c.obs s2 from rfl)] at h
  obtain ⟨t1, a1, b1, c1, d1, e1⟩ := callEachR_did hF (Q := fun cb s e => ∃ x, (x ∈ s.c.map ∨ x ∈ s.g.ext) ∧ x.addr = p ∧
      e = Event.hit cb k x.info.value) (fun cb s e s' h => by
    obtain ⟨n, s0, h3, h4⟩ := bind_ok_inv h
    have h4' : (Out.ok (Event.hit cb k n.info.value) s0 : Out (St (Cache K V) K V) (Event K V)) = .ok e s' := h4
    injection h4' with h5 h6
    subst h5 h6
    unfold Impl.deref at h3
    cases hm : s.c.map.find? (fun n => n.addr == p) with
    | some x =>
      rw [hm] at h3
      have h3' : (Out.ok x s : Out (St (Cache K V) K V) (MapNode K V)) = .ok n s0 := h3
      injection h3' with h5 h6
      subst h5 h6
      exact ⟨rfl, x, .inl (List.mem_of_find?_eq_some hm), by simpa using List.find?_some hm, rfl⟩
    | none =>
      rw [hm] at h3
      simp only at h3
      cases hx : s.g.ext.find? (fun n => n.addr == p) with
      | some x =>
        rw [hx] at h3
        have h3' : (Out.ok x s : Out (St (Cache K V) K V) (MapNode K V)) = .ok n s0 := h3
        injection h3' with h5 h6
        subst h5 h6
        exact ⟨rfl, x, .inr (List.mem_of_find?_eq_some hx), by simpa using List.find?_some hx, rfl⟩
      | none => rw [hx] at h3; cases h3) h2
  obtain ⟨t2, a2, b2, c2, d2⟩ := callEachR_told hF h
  have hv1 : Via O s [] s1 := countHit_still.via h1
  refine ⟨t1, t2, s2, a1, ?_, a2, ?_, Via.first hv1 c1, c2, by rw [d2, d1, countHit_log h1]⟩
  · intro i cb hcb
    obtain ⟨si, e, h3, hx, ⟨x, h4, h5, rfl⟩, h6⟩ := e1 i cb hcb
    have hx1 := countHit_still (o := s.c.obs) (k := k) s
    rw [h1] at hx1
    rw [hx, hx1.2.ext] at h4
    exact ⟨si, x, Via.first hv1 h3, h4, h5, h6⟩
  · intro x hx
    rcases List.mem_append.1 hx with hx | hx
    · exact b1 x hx
    · exact b2 x hx

/-! ### The three calls -/

/-- Not the exception that callbacks throw. -/
class NotUser (E : Err) : Prop where
  ne : E ≠ .user

instance : NotUser .keyNotFound := ⟨nofun⟩
instance : NotUser .keyExpired := ⟨nofun⟩

/-- The program does not throw `E`. -/
def Finds (E : Err) (m : Impl.CM K V α) : Prop := ∀ s s', m s ≠ .throw E s'

variable {E : Err}

theorem Finds.bind {β : Type} {m : Impl.CM K V α} {f : α → Impl.CM K V β} (h : Finds E m)
    (h' : ∀ a, Finds E (f a)) : Finds E (m >>= f) := by
  intro s s' hm
  have hm' : M.bind m f s = .throw E s' := hm
  unfold M.bind at hm'
  cases ho : m s with
  | ok a s1 => rw [ho] at hm'; exact h' a s1 s' hm'
  | throw e1 s1 =>
    rw [ho] at hm'
    injection hm' with h1 h2
    rw [h1] at ho
    exact h _ _ ho
  | _ => rw [ho] at hm'; cases hm'

theorem Finds.pure {a : α} : Finds E (Pure.pure a : Impl.CM K V α) := by
  intro s s' h
  cases h

theorem Finds.run {m : Impl.CM K V α} (h : ∀ s, ∃ a s', m s = .ok a s') : Finds E m := by
  intro s s' h'
  obtain ⟨a, s1, h1⟩ := h s
  rw [h1] at h'
  cases h'

theorem Finds.ite {c : Prop} [Decidable c] {m m' : Impl.CM K V α} (h : Finds E m) (h' : Finds E m') :
    Finds E (if c then m else m') := by
  split <;> assumption

theorem runScript_finds {call : Op K V → Impl.CM K V (Res K V)} {p : Script K V} :
    Finds E (Impl.runScript call p) := by
  induction p with
  | done => exact .pure
  | call op next ih =>
    intro s s' h
    unfold Impl.runScript at h
    cases ho : call op s with
    | ok r s1 => rw [ho] at h; exact ih _ _ _ h
    | throw e1 s1 => rw [ho] at h; exact ih _ _ _ h
    | _ => rw [ho] at h; cases h

theorem deref_finds {p : Ptr} : Finds E (Impl.deref p : Impl.CM K V _) := by
  intro s s' h
  unfold Impl.deref at h
  cases hm : s.c.map.find? (fun n => n.addr == p) with
  | some x => rw [hm] at h; cases h
  | none =>
    rw [hm] at h
    simp only at h
    cases hx : s.g.ext.find? (fun n => n.addr == p) <;> rw [hx] at h <;> cases h

theorem attempt_finds [NotUser E] {cb : Nat} : Finds E (attempt O (.callback cb) : Impl.CM K V Unit) := by
  intro s s' h
  unfold attempt at h
  simp only at h
  split at h
  · injection h with h _
    exact absurd h.symm NotUser.ne
  · cases h

theorem callEachR_finds [NotUser E] {call : Op K V → Impl.CM K V (Res K V)} {ev : Nat → Impl.CM K V (Event K V)}
    (hev : ∀ cb, Finds E (ev cb)) (l : List Nat) : Finds E (Impl.callEachR O F call ev l) := by
  induction l with
  | nil => exact .pure
  | cons cb rest ih =>
    rw [callEachR_cons]
    exact (hev cb).bind fun _ => Finds.bind (.run fun _ => ⟨_, _, rfl⟩) fun _ => runScript_finds.bind fun _ =>
      attempt_finds.bind fun _ => ih

theorem countHit_finds {o : Obs} : Finds E (countHit o k : Impl.CM K V Unit) := by
  unfold countHit
  cases o.stats <;> exact .run fun _ => ⟨_, _, rfl⟩

theorem countMiss_finds {o : Obs} : Finds E (countMiss o k : Impl.CM K V Unit) := by
  unfold countMiss
  cases o.stats <;> exact .run fun _ => ⟨_, _, rfl⟩

variable {call : List CbList → Op K V → Impl.CM K V (Res K V)} {busy : List CbList}

theorem registerHitR_finds [NotUser E] {p : Ptr} : Finds E (Impl.registerHitR O F call busy k p) := by
  unfold Impl.registerHitR
  exact Finds.bind (.run fun _ => ⟨_, _, rfl⟩) fun _ => countHit_finds.bind fun _ =>
    (callEachR_finds (fun _ => deref_finds.bind fun _ => .pure) _).bind fun _ =>
    Finds.bind (.run fun _ => ⟨_, _, rfl⟩) fun _ => callEachR_finds (fun _ => .pure) _

theorem registerMissR_finds [NotUser E] : Finds E (Impl.registerMissR O F call busy k) := by
  unfold Impl.registerMissR
  exact Finds.bind (.run fun _ => ⟨_, _, rfl⟩) fun _ => countMiss_finds.bind fun _ => (callEachR_finds (fun _ => .pure) _).bind fun _ =>
    Finds.bind (.run fun _ => ⟨_, _, rfl⟩) fun _ => callEachR_finds (fun _ => .pure) _

theorem derefIt_finds {it : Option Ptr} : Finds E (Impl.derefIt it : Impl.CM K V _) := by
  intro s s' h
  cases it with
  | none => cases h
  | some p =>
    unfold Impl.derefIt at h
    simp only at h
    split at h <;> cases h

theorem hasExpiredInfo_finds {time : Int} : Finds E (Impl.hasExpiredInfo O time) := by
  refine Finds.bind (.run fun _ => ⟨_, _, rfl⟩) fun kind => ?_
  cases kind with
  | basic => exact .pure
  | timed ttl res => exact Finds.bind (.run fun _ => ⟨_, _, rfl⟩) fun _ => .pure

theorem moveToFront_finds {it : Option Ptr} : Finds E (Impl.moveToFront it : Impl.CM K V _) := by
  unfold Impl.moveToFront
  refine Finds.bind (.run fun _ => ⟨_, _, rfl⟩) fun n => .ite .pure ?_
  cases it with
  | none => intro s s' h; cases h
  | some p =>
    refine Finds.bind (fun s s' h => ?_) fun _ => .run fun _ => ⟨_, _, rfl⟩
    unfold Impl.derefOrder at h
    split at h <;> cases h

theorem touchR_finds {p : Ptr} : Finds E (Impl.touchR p : Impl.CM K V _) := by
  unfold Impl.touchR
  exact derefIt_finds.bind fun _ => moveToFront_finds.bind fun _ => .run fun _ => ⟨_, _, rfl⟩

theorem findR_finds [NotUser E] : Finds E (Impl.findR O F call busy k) := by
  unfold Impl.findR
  refine Finds.bind (.run fun _ => ⟨_, _, rfl⟩) fun n => ?_
  cases n with
  | none => exact registerMissR_finds.bind fun _ => .pure
  | some n =>
    exact hasExpiredInfo_finds.bind fun b => .ite (registerMissR_finds.bind fun _ => .pure)
      (registerHitR_finds.bind fun _ => touchR_finds.bind fun _ => .pure)

theorem valueForLastAccessed_finds (hE : E ≠ .keyExpired) : Finds E (Impl.valueForLastAccessed O) := by
  refine Finds.bind ?_ fun n => Finds.bind (.run fun _ => ⟨_, _, rfl⟩) fun kind => ?_
  · refine Finds.bind (.run fun _ => ⟨_, _, rfl⟩) fun p => ?_
    cases p with
    | none => intro s s' h; cases h
    | some p => exact deref_finds
  · cases kind with
    | basic => exact .pure
    | timed ttl res => exact hasExpiredInfo_finds.bind fun _ => .ite (fun s s' h => by injection h with h; exact hE h.symm) .pure

theorem entryU_finds (hE : E ≠ .keyExpired) {p : Ptr} : Finds E (Impl.entryU O (some p)) := by
  refine derefIt_finds.bind fun _ => Finds.bind ?_ fun _ => .pure
  refine Finds.bind (.run fun _ => ⟨_, _, rfl⟩) fun kind => ?_
  cases kind with
  | basic => exact .pure
  | timed ttl res =>
    exact derefIt_finds.bind fun _ => hasExpiredInfo_finds.bind fun _ => .ite (fun s s' h => by injection h with h; exact hE h.symm) .pure

variable {d : Nat}

/-- What is known of a miss. -/
def MissTold (O : Oracle K V) (F : Event K V → Script K V) (k : K) (s s' : St (Cache K V) K V) : Prop :=
  ∃ (t1 t2 : Account K V) (s1 : St (Cache K V) K V), t1.told = s.c.obs.missCbs.map (fun cb => .miss cb k) ∧
    t2.told = s1.c.obs.accCbs.map (fun cb => .access cb k false) ∧ Account.True F (t1 ++ t2) ∧
    Via O s t1.calls s1 ∧ Via O s1 t2.calls s' ∧ s'.g.log = s.g.log ++ t1.told ++ t2.told

theorem MissTold.first (hc : Via O s [] s1) (hl : s1.g.log = s.g.log) (h : MissTold O F k s1 s') :
    MissTold O F k s s' := by
  obtain ⟨t1, t2, s2, a, b, c, d, e, f⟩ := h
  refine ⟨t1, t2, s2, ?_, b, c, hc.first d, e, by rw [f, hl]⟩
  cases hc with
  | nil hc => rw [a, hc]

theorem hasExpiredInfo_log {time : Int} {b : Bool} (h : Impl.hasExpiredInfo O time s = .ok b s') :
    s'.g.log = s.g.log := by
  have := hasExpiredInfo_q (O := O) (t := time) s
  rw [h] at this
  exact Silent.log this

theorem findR_miss_told (hF : NoAccesses F) (h : Impl.findR O F (Impl.stepR O F d) busy k s = .ok none s') :
    MissTold O F k s s' := by
  unfold Impl.findR at h
  rw [bind_ok (show Impl.mapFind k s = .ok (s.c.map.find? (fun n => keq n.key k)) s from rfl)] at h
  have key : ∀ {s1 : St (Cache K V) K V}, (do
      Impl.registerMissR O F (Impl.stepR O F d) busy k
      pure none : Impl.CM K V (Option Ptr)) s1 = .ok none s' → MissTold O F k s1 s' := by
    intro s1 h1
    obtain ⟨_, s2, h2, h3⟩ := bind_ok_inv h1
    have h3' : (Out.ok none s2 : Out (St (Cache K V) K V) (Option Ptr)) = .ok none s' := h3
    injection h3' with _ h3'
    subst h3'
    exact registerMissR_told hF h2
  cases hf : s.c.map.find? (fun n => keq n.key k) with
  | none => rw [hf] at h; exact key h
  | some n =>
    rw [hf] at h
    obtain ⟨b, s1, h1, h2⟩ := bind_ok_inv h
    cases b with
    | true => exact (key h2).first (hasExpiredInfo_still.via h1) (hasExpiredInfo_log h1)
    | false =>
      obtain ⟨_, s2, _, h3⟩ := bind_ok_inv h2
      obtain ⟨_, s3, _, h4⟩ := bind_ok_inv h3
      cases h4

theorem lastIs_log {b : Bool} (h : Impl.lastIs k s = .ok b s') : s'.g.log = s.g.log := by
  have := lastIs_q (k := k) s
  rw [h] at this
  exact Silent.log this

theorem lastIs_same {b : Bool} (h : Impl.lastIs k s = .ok b s') : s' = s := by
  unfold Impl.lastIs at h
  rw [bind_ok (m := Impl.getLast) (s := s) rfl] at h
  cases hl : s.c.last with
  | none => rw [hl] at h; injection h with _ h; exact h.symm
  | some p =>
    rw [hl] at h
    obtain ⟨n, s1, h1, h2⟩ := bind_ok_inv h
    have : s1 = s := by
      unfold Impl.deref at h1
      split at h1
      · injection h1 with _ h1; exact h1.symm
      · split at h1
        · injection h1 with _ h1; exact h1.symm
        · cases h1
    injection h2 with _ h2
    rw [← h2, this]

/-- `lookup` throws `key_not_found` only after a search that did not find the key. -/
theorem lookupR_not_found (hp : RThrows O F (.lookup k) s .keyNotFound s') : ∃ d,
    Impl.findR O F (Impl.stepR O F d) [] k s = .ok none s' := by
  obtain ⟨d, hd⟩ := hp
  cases d with
  | zero => cases hd
  | succ d =>
    rw [Impl.stepR] at hd
    have hd' : M.bind (Impl.lookupR O F (Impl.stepR O F d) [] k) _ s = .throw .keyNotFound s' := hd
    unfold M.bind at hd'
    cases ho : Impl.lookupR O F (Impl.stepR O F d) [] k s with
    | ok a s1 => rw [ho] at hd'; cases hd'
    | throw e s1 =>
      rw [ho] at hd'
      injection hd' with h1 h2
      subst h1 h2
      have ho' : M.bind (Impl.lastIs k) _ s = .throw .keyNotFound s1 := ho
      unfold M.bind at ho'
      cases hl : Impl.lastIs k s with
      | ok b s2 =>
        rw [hl] at ho'
        cases b with
        | true =>
          refine absurd ho' (Finds.bind (valueForLastAccessed_finds (E := .keyNotFound)
            (fun h => nomatch h)) (fun n => registerHitR_finds.bind fun _ => deref_finds.bind fun _ => .pure) _ _)
        | false =>
          have ho2 : M.bind (Impl.findR O F (Impl.stepR O F d) [] k) _ s2 = .throw .keyNotFound s1 := ho'
          unfold M.bind at ho2
          have hs1 := lastIs_still (k := k) s
          rw [hl] at hs1
          cases hf : Impl.findR O F (Impl.stepR O F d) [] k s2 with
          | ok it s3 =>
            rw [hf] at ho2
            cases it with
            | none =>
              have ho3 : (Out.throw .keyNotFound s3 : Out (St (Cache K V) K V) (Ptr × V)) = .throw .keyNotFound s1 := ho2
              injection ho3 with _ ho3
              subst ho3
              exact ⟨d, lastIs_same hl ▸ hf⟩
            | some p => exact absurd ho2 (Finds.bind (entryU_finds (E := .keyNotFound)
              (fun h => nomatch h)) (fun n => .pure) _ _)
          | throw e s3 =>
            rw [hf] at ho2
            injection ho2 with h1 h2
            subst h1 h2
            exact absurd hf (findR_finds _ _)
          | _ => rw [hf] at ho2; cases ho2
      | throw e s2 =>
        rw [hl] at ho'
        injection ho' with h1 h2
        rw [h1] at hl
        refine absurd hl ?_
        refine Finds.bind (.run fun _ => ⟨_, _, rfl⟩) (fun p => ?_) _ _
        cases p with
        | none => exact .pure
        | some p => exact deref_finds.bind fun _ => .pure
      | _ => rw [hl] at ho'; cases ho'
    | _ => rw [ho] at hd'; cases hd'

/-- The accesses that report a miss. -/
theorem missed_told (hF : NoAccesses F) {op : Op K V} {res : Except Err (Res K V)} (hm : Missed k op res)
    (hk : op = .contains k → s.c.kind = .basic) (hp : RPerforms O F op s res s') : MissTold O F k s s' := by
  rcases hm with ⟨rfl, rfl⟩ | ⟨rfl, rfl⟩ | ⟨rfl, rfl⟩
  · obtain ⟨d, hd⟩ := hp
    cases d with
    | zero => cases hd
    | succ d =>
      rw [Impl.stepR] at hd
      obtain ⟨a, ha, e⟩ := ret_ok_inv (show Impl.ret (Impl.findR O F (Impl.stepR O F d) [] k) .pos s = _ from hd)
      injection e with e
      subst e
      exact findR_miss_told hF ha
  · obtain ⟨d, hd⟩ := hp
    cases d with
    | zero => cases hd
    | succ d =>
      rw [Impl.stepR] at hd
      obtain ⟨b, ha, e⟩ := ret_ok_inv (show Impl.ret (Impl.containsR O F (Impl.stepR O F d) [] k) .bool s = _ from hd)
      injection e with e
      subst e
      unfold Impl.containsR at ha
      obtain ⟨l, s1, h1, h2⟩ := bind_ok_inv ha
      have hs1 := lastIs_still (k := k) s
      rw [h1] at hs1
      cases l with
      | true =>
        simp only [if_true] at h2
        rw [bind_ok (show Impl.lastAccessedIsOk O s1 = .ok true s1 by
          unfold Impl.lastAccessedIsOk
          rw [bind_ok (show Impl.getKind s1 = .ok .basic s1 by unfold Impl.getKind; rw [hs1.1, hk rfl])]
          rfl)] at h2
        simp only [if_true] at h2
        obtain ⟨n', s2, h3, h4⟩ := bind_ok_inv h2
        obtain ⟨_, s3, h5, h6⟩ := bind_ok_inv h4
        cases h6
      | false =>
        obtain ⟨it, s2, h3, h4⟩ := bind_ok_inv h2
        have h4' : (Out.ok it.isSome s2 : Out (St (Cache K V) K V) Bool) = .ok false s' := h4
        injection h4' with h5 h6
        subst h6
        cases it with
        | some p => cases h5
        | none => exact (findR_miss_told hF h3).first (.same hs1.1 hs1.2) (lastIs_log h1)
  · obtain ⟨d, h⟩ := lookupR_not_found hp
    exact findR_miss_told hF h

theorem lastIs_finds : Finds E (Impl.lastIs k : Impl.CM K V Bool) := by
  refine Finds.bind (.run fun _ => ⟨_, _, rfl⟩) fun p => ?_
  cases p with
  | none => exact .pure
  | some p => exact deref_finds.bind fun _ => .pure

/-- Accesses throw only what callbacks throw, and `lookup` that the key was not found or has expired. -/
theorem access_finds [NotUser E] {op : Op K V} (hop : op.Accesses k)
    (hE : op = .lookup k → E ≠ .keyNotFound ∧ E ≠ .keyExpired) {b : List CbList} :
    Finds E (Impl.stepR O F d b op) := by
  cases d with
  | zero => intro s s' h; cases h
  | succ d =>
    rw [Impl.stepR]
    refine .ite (fun s s' h => by cases h) ?_
    have hlast : Finds E (Impl.lastIs k : Impl.CM K V Bool) := lastIs_finds
    have hnode : Finds E (Impl.lastNode : Impl.CM K V _) := by
      refine Finds.bind (.run fun _ => ⟨_, _, rfl⟩) fun p => ?_
      cases p with
      | none => intro s s' h; cases h
      | some p => exact deref_finds
    rcases hop with rfl | rfl | rfl
    · refine Finds.bind ?_ fun _ => .pure
      refine hlast.bind fun b => .ite ?_ (findR_finds.bind fun _ => .pure)
      refine Finds.bind ?_ fun b => .ite (hnode.bind fun _ => registerHitR_finds.bind fun _ => .pure) .pure
      refine Finds.bind (.run fun _ => ⟨_, _, rfl⟩) fun kind => ?_
      cases kind with
      | basic => exact .pure
      | timed ttl res => exact hnode.bind fun _ => hasExpiredInfo_finds.bind fun _ => .pure
    · exact findR_finds.bind fun _ => .pure
    · obtain ⟨h1, h2⟩ := hE rfl
      refine Finds.bind ?_ fun _ => .pure
      refine hlast.bind fun b => .ite ((valueForLastAccessed_finds h2).bind fun _ => registerHitR_finds.bind fun _ =>
        deref_finds.bind fun _ => .pure) (findR_finds.bind fun it => ?_)
      cases it with
      | none => intro s s' h; injection h with h; exact h1 h.symm
      | some p => exact (entryU_finds h2).bind fun _ => .pure

/-! ### Hits -/

/-- What is known of a hit. -/
def HitTold (O : Oracle K V) (F : Event K V → Script K V) (k : K) (p : Ptr) (s s' : St (Cache K V) K V) : Prop :=
  ∃ (t1 t2 : Account K V) (s1 : St (Cache K V) K V), t1.length = s.c.obs.hitCbs.length ∧
    (∀ i cb, s.c.obs.hitCbs[i]? = some cb → ∃ si x, Via O s (Account.calls (t1.take i)) si ∧
      x ∈ si.c.map ∧ x.addr = p ∧ t1.told[i]? = some (.hit cb k x.info.value)) ∧
    t2.told = s1.c.obs.accCbs.map (fun cb => .access cb k true) ∧ Account.True F (t1 ++ t2) ∧
    Via O s t1.calls s1 ∧ Via O s1 t2.calls s' ∧ s'.g.log = s.g.log ++ t1.told ++ t2.told

theorem HitTold.first {p : Ptr} (hc : Via O s [] s1) (hl : s1.g.log = s.g.log) (h : HitTold O F k p s1 s') :
    HitTold O F k p s s' := by
  obtain ⟨t1, t2, s2, a, a', b, c, d, e, f⟩ := h
  have hc' : s1.c = s.c := by cases hc with | nil hc => exact hc
  rw [hc'] at a a'
  refine ⟨t1, t2, s2, a, ?_, b, c, hc.first d, e, by rw [f, hl]⟩
  intro i cb hcb
  obtain ⟨si, x, h1, h2⟩ := a' i cb hcb
  exact ⟨si, x, hc.first h1, h2⟩

theorem HitTold.last {p : Ptr} (h : HitTold O F k p s s1) (hc : Via O s1 [] s') (hl : s'.g.log = s1.g.log) :
    HitTold O F k p s s' := by
  obtain ⟨t1, t2, s2, a, a', b, c, d, e, f⟩ := h
  exact ⟨t1, t2, s2, a, a', b, c, d, e.last hc, by rw [hl, f]⟩

theorem registerHitR_hit {t : St (MCache K V) K V} (hF : NoAccesses F) (hr : Rel s t) (ht : Ok t) {e : Ent K V}
    (he : e ∈ t.c.ents) (h : Impl.registerHitR O F (Impl.stepR O F d) busy k e.id s = .ok () s') :
    HitTold O F k e.id s s' := by
  obtain ⟨t1, t2, s1, h1, h2, h3⟩ := registerHitR_told hF h
  refine ⟨t1, t2, s1, h1, ?_, h3⟩
  intro i cb hcb
  obtain ⟨si, x, h4, h5, h6, h7⟩ := h2 i cb hcb
  refine ⟨si, x, h4, ?_, h6, h7⟩
  rcases h5 with h5 | h5
  · exact h5
  · rw [hr.g] at h5
    exact absurd h6 (ht.awf.extDisj e he x h5)

theorem touchR_elements {t : St (MCache K V) K V} (hr : Rel s t) (ht : Ok t) {p : Ptr}
    (h : Impl.touchR p s = .ok () s') :
    ∃ y ∈ elements s.c, y.addr = p ∧ elements s'.c = (elements s.c).filter (fun z => z.addr != p) ++ [y] := by
  have hsim := touchR_sim (p := p) s t hr trivial
  rw [h] at hsim
  by_cases hin : p ∈ t.c.ents.map (·.id)
  · obtain ⟨e, he, rfl⟩ := List.mem_map.1 hin
    rw [touchR_own ht he] at hsim
    refine ⟨e.node, by rw [hr.elements]; exact List.mem_map.2 ⟨e, he, rfl⟩, rfl, ?_⟩
    rw [hsim.2.1.elements, hr.elements]
    show List.map Ent.node (toEnd e t.c.ents) = _
    unfold toEnd
    rw [List.map_append, List.filter_map]
    congr 2
    refine List.filter_congr fun x hx => ?_
    show (x.slot != e.slot) = (x.id != e.id)
    rw [Bool.eq_iff_iff]
    simp only [bne_iff_ne, ne_eq]
    refine not_congr ⟨fun h1 => ?_, fun h1 => ?_⟩
    · rw [map_inj_of_nodup ht.awf.slots x hx e he h1]
    · rw [map_inj_of_nodup ht.awf.ids x hx e he h1]
  · rw [touchR_not hin] at hsim
    exact hsim.elim

theorem touchR_log {p : Ptr} (h : Impl.touchR p s = .ok () s') : s'.g.log = s.g.log := by
  have : Quietly (Impl.touchR p : Impl.CM K V Unit) :=
    derefIt_q.bind fun _ => moveToFront_q.bind fun _ => setLast_q
  have := this s
  rw [h] at this
  exact Silent.log this

/-- A hit of `find`. -/
theorem findR_hit_told {t : St (MCache K V) K V} (hO : NoListFault O) (hF : NoAccesses F) (hr : Rel s t) (ht : Ok t)
    {p : Ptr} (h : Impl.findR O F (Impl.stepR O F d) busy k s = .ok (some p) s') :
    ∃ x s2, entryFor s.c k = some x ∧ x.addr = p ∧ HitTold O F k p s s2 ∧ s'.g.log = s2.g.log ∧
      ∃ y ∈ elements s2.c, y.addr = p ∧ elements s'.c = (elements s2.c).filter (fun z => z.addr != p) ++ [y] := by
  unfold Impl.findR at h
  have hf : Impl.mapFind k s = .ok ((t.c.ents.find? (fun x => keq x.key k)).map Ent.node) s := by
    unfold Impl.mapFind
    rw [hr.rep.find_key hr.awf]
  rw [bind_ok hf] at h
  cases he : t.c.ents.find? (fun x => keq x.key k) with
  | none =>
    rw [he] at h
    obtain ⟨_, s1, _, h2⟩ := bind_ok_inv h
    cases h2
  | some e =>
    rw [he] at h
    obtain ⟨b, s1, h1, h2⟩ := bind_ok_inv h
    cases b with
    | true =>
      obtain ⟨_, s1, _, h2⟩ := bind_ok_inv h2
      cases h2
    | false =>
      obtain ⟨_, s2, h3, h4⟩ := bind_ok_inv h2
      obtain ⟨_, s3, h5, h6⟩ := bind_ok_inv h4
      have h6' : (Out.ok (some e.id) s3 : Out (St (Cache K V) K V) (Option Ptr)) = .ok (some p) s' := h6
      injection h6' with h7 h8
      injection h7 with h7
      subst h7 h8
      obtain ⟨hm, hk⟩ := find_mem he
      have hs1 := hasExpiredInfo_still (O := O) (time := e.node.info.time) s
      rw [h1] at hs1
      have hr1 := hr.shared hs1.1 hs1.2
      have ht1 := ht.shared hr hs1.2
      obtain ⟨t2, hr2, ht2, -⟩ :=
        (registerHitR_goes (evolves_elem (O := O)) (stepR_goes evolves_elem hO d)).ok hr1 ht1 h3
      refine ⟨e.node, s2, by rw [hr.entryFor, he]; rfl, rfl, ?_, touchR_log h5, touchR_elements hr2 ht2 h5⟩
      exact (registerHitR_hit hF hr1 ht1 hm h3).first (hasExpiredInfo_still.via h1) (hasExpiredInfo_log h1)

/-- What became of the cache after the callbacks had run: a hit by the shortcut changes nothing, any other one makes
the entry the most recently used. -/
def HitDone (op : Op K V) (k : K) (p : Ptr) (s s2 s' : St (Cache K V) K V) : Prop :=
  (op = .find k ∨ s.c.last ≠ some p →
    ∃ y ∈ elements s2.c, y.addr = p ∧ elements s'.c = (elements s2.c).filter (fun z => z.addr != p) ++ [y]) ∧
  (op ≠ .find k → s.c.last = some p → s'.c = s2.c)

theorem lastIs_false {x : MapNode K V} (hc : Firm s.c) (h : Impl.lastIs k s = .ok false s1) (hx : x ∈ s.c.map)
    (hk : keq x.key k = true) : s.c.last ≠ some x.addr := by
  intro hl
  unfold Impl.lastIs at h
  rw [bind_ok (show Impl.getLast s = .ok s.c.last s from rfl), hl] at h
  simp only at h
  rw [bind_ok (deref_mem hc hx)] at h
  have h' : (Out.ok (keq k x.key) s : Out (St (Cache K V) K V) Bool) = .ok false s1 := h
  injection h' with h1
  rw [KeyEqual.symm, hk] at h1
  cases h1

/-- The accesses that report a hit. -/
theorem found_told (hO : NoListFault O) (h : RReachable O F s) (hF : NoAccesses F) {op : Op K V} {r : Res K V}
    (hop : op.Accesses k) (hf : found (.ok r) = true) (hp : RReturns O F op s r s') :
    ∃ x s2, entryFor s.c k = some x ∧ HitTold O F k x.addr s s2 ∧ s'.g.log = s2.g.log ∧
      HitDone op k x.addr s s2 s' := by
  obtain ⟨t, hr, ht⟩ := h.rel hO
  have hfirm := hr.firm ht
  obtain ⟨d, hd⟩ := hp
  cases d with
  | zero => cases hd
  | succ d =>
    rw [Impl.stepR] at hd
    -- a hit by the shortcut
    have key : ∀ {n : MapNode K V} {s1 s3 : St (Cache K V) K V}, n ∈ s.c.map → keq n.key k = true →
        s.c.last = some n.addr → s1.c = s.c → Tame s.g s1.g → s1.g.log = s.g.log →
        Impl.registerHitR O F (Impl.stepR O F d) [] k n.addr s1 = .ok () s3 → op ≠ .find k →
        ∃ x, entryFor s.c k = some x ∧ HitTold O F k x.addr s s3 ∧ HitDone op k x.addr s s3 s3 := by
      intro n s1 s3 hn hkn hl hc hg hlog h1 hne
      obtain ⟨e, he, rfl⟩ := List.mem_map.1 (hr.rep.map.mem_iff.1 hn)
      have hr1 := hr.shared hc hg
      have ht1 := ht.shared hr hg
      refine ⟨e.node, ?_, (registerHitR_hit hF hr1 ht1 he h1).first (.same hc hg) hlog, ?_, fun _ _ => rfl⟩
      · rw [hr.entryFor, ht.findKey he hkn]; rfl
      · rintro (h2 | h2)
        · exact absurd h2 hne
        · exact absurd hl h2
    -- a hit by `find`
    have key' : ∀ {p : Ptr} {s1 s3 : St (Cache K V) K V}, s1.c = s.c → Tame s.g s1.g → s1.g.log = s.g.log →
        (op ≠ .find k → ∀ x ∈ s.c.map, keq x.key k = true → s.c.last ≠ some x.addr) →
        Impl.findR O F (Impl.stepR O F d) [] k s1 = .ok (some p) s3 →
        ∃ x s2, x.addr = p ∧ entryFor s.c k = some x ∧ HitTold O F k x.addr s s2 ∧ s3.g.log = s2.g.log ∧
          HitDone op k x.addr s s2 s3 := by
      intro p s1 s3 hc hg hlog hl h1
      obtain ⟨x, s2, h2, rfl, h3, h4, h5⟩ := findR_hit_told hO hF (hr.shared hc hg) (ht.shared hr hg) h1
      rw [hc] at h2
      refine ⟨x, s2, rfl, h2, h3.first (.same hc hg) hlog, h4, fun _ => h5, fun h6 h7 => ?_⟩
      have hx := List.mem_of_find?_eq_some h2
      rw [hr.elements] at hx
      exact absurd h7 (hl h6 x (hr.rep.map.mem_iff.2 hx) (List.find?_some (p := fun n : MapNode K V => keq n.key k) h2))
    rcases hop with rfl | rfl | rfl
    · obtain ⟨b, ha, e⟩ := ret_ok_inv (show Impl.ret (Impl.containsR O F (Impl.stepR O F d) [] k) .bool s = _ from hd)
      subst e
      have hb : b = true := hf
      subst hb
      unfold Impl.containsR at ha
      obtain ⟨l, s1, h1, h2⟩ := bind_ok_inv ha
      cases l with
      | true =>
        obtain ⟨rfl, n, hn, hl, hkn⟩ := lastIs_true hfirm h1
        simp only [if_true] at h2
        obtain ⟨b, s2, h3, h4⟩ := bind_ok_inv h2
        cases b with
        | false => cases h4
        | true =>
          have hs2 := lastAccessedIsOk_still (O := O) s1
          rw [h3] at hs2
          have hq : Quietly (Impl.lastAccessedIsOk O) := by
            refine getKind_q.bind fun kind => ?_
            cases kind with
            | basic => exact .pure
            | timed ttl res => exact lastNode_q.bind fun _ => hasExpiredInfo_q.bind fun _ => .pure
          have hq := hq s1
          rw [h3] at hq
          simp only [if_true] at h4
          rw [bind_ok (lastNode_last (hs2.1 ▸ hfirm) (n := n) (hs2.1 ▸ hn) (hs2.1 ▸ hl))] at h4
          obtain ⟨_, s3, h5, h6⟩ := bind_ok_inv h4
          have h6' : (Out.ok true s3 : Out (St (Cache K V) K V) Bool) = .ok true s' := h6
          injection h6' with _ h7
          subst h7
          obtain ⟨x, a, b, c⟩ := key hn (by rw [KeyEqual.symm]; exact hkn) hl hs2.1 hs2.2 (Silent.log hq) h5 (by nofun)
          exact ⟨x, s3, a, b, rfl, c⟩
      | false =>
        have hs1 := lastIs_still (k := k) s
        rw [h1] at hs1
        obtain ⟨it, s2, h3, h4⟩ := bind_ok_inv h2
        have h4' : (Out.ok it.isSome s2 : Out (St (Cache K V) K V) Bool) = .ok true s' := h4
        injection h4' with h5 h6
        subst h6
        cases it with
        | none => cases h5
        | some p =>
          obtain ⟨x, s3, -, r⟩ := key' hs1.1 hs1.2 (lastIs_log h1) (fun _ x hx hkx => lastIs_false hfirm h1 hx hkx) h3
          exact ⟨x, s3, r⟩
    · obtain ⟨a, ha, e⟩ := ret_ok_inv (show Impl.ret (Impl.findR O F (Impl.stepR O F d) [] k) .pos s = _ from hd)
      subst e
      cases a with
      | none => cases hf
      | some p =>
        obtain ⟨x, s3, -, r⟩ := key' rfl (Tame.refl _) rfl (fun h => absurd rfl h) ha
        exact ⟨x, s3, r⟩
    · obtain ⟨⟨p, v⟩, ha, e⟩ := ret_ok_inv
        (show Impl.ret (Impl.lookupR O F (Impl.stepR O F d) [] k) (fun r => .ref r.1 r.2) s = _ from hd)
      subst e
      unfold Impl.lookupR at ha
      obtain ⟨l, s1, h1, h2⟩ := bind_ok_inv ha
      cases l with
      | true =>
        obtain ⟨rfl, n, hn, hl, hkn⟩ := lastIs_true hfirm h1
        obtain ⟨m, s2, h3, h4⟩ := bind_ok_inv h2
        have hmn : m = n := valueForLastAccessed_last hfirm hn hl h3
        subst hmn
        have hs2 := valueForLastAccessed_still (O := O) s1
        rw [h3] at hs2
        have hq : Quietly (Impl.valueForLastAccessed O) := by
          refine lastNode_q.bind fun n => getKind_q.bind fun kind => ?_
          cases kind with
          | basic => exact .pure
          | timed ttl res =>
            refine hasExpiredInfo_q.bind fun b => ?_
            cases b with
            | true => exact .throw
            | false => exact .pure
        have hq := hq s1
        rw [h3] at hq
        obtain ⟨_, s3, h5, h6⟩ := bind_ok_inv h4
        obtain ⟨n', s4, h7, h8⟩ := bind_ok_inv h6
        have h8' : (Out.ok (m.addr, n'.info.value) s4 : Out (St (Cache K V) K V) (Ptr × V)) = .ok (p, v) s' := h8
        injection h8' with _ h9
        subst h9
        have hs4 := deref_q (p := m.addr) s3
        have hd4 := deref_still (p := m.addr) s3
        rw [h7] at hs4 hd4
        obtain ⟨x, a, b, c⟩ := key hn (by rw [KeyEqual.symm]; exact hkn) hl hs2.1 hs2.2 (Silent.log hq) h5 (by nofun)
        refine ⟨x, s3, a, b, Silent.log hs4, fun h10 => ?_, fun h10 h11 => hd4.1⟩
        rw [hd4.1]
        exact c.1 h10
      | false =>
        have hs1 := lastIs_still (k := k) s
        rw [h1] at hs1
        obtain ⟨it, s2, h3, h4⟩ := bind_ok_inv h2
        cases it with
        | none => cases h4
        | some q =>
          obtain ⟨n, s3, h5, h6⟩ := bind_ok_inv h4
          have h6' : (Out.ok (n.addr, n.info.value) s3 : Out (St (Cache K V) K V) (Ptr × V)) = .ok (p, v) s' := h6
          injection h6' with _ h7
          subst h7
          have hq : Quietly (Impl.entryU O (some q)) := derefIt_q.bind fun _ => throwIfInvalidU_q.bind fun _ => .pure
          have hq := hq s2
          have hs := entryU_still (O := O) (it := some q) s2
          rw [h5] at hq hs
          obtain ⟨x, s4, -, a, b, c, d'⟩ := key' hs1.1 hs1.2 (lastIs_log h1)
            (fun _ x hx hkx => lastIs_false hfirm h1 hx hkx) h3
          refine ⟨x, s4, a, b, (Silent.log hq).trans c, fun h8 => ?_, fun h8 h9 => hs.1.trans (d'.2 h8 h9)⟩
          rw [hs.1]
          exact d'.1 h8

end LRU
