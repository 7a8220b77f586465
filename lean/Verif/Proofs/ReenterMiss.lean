import Verif.Proofs.ReenterCalls
import Verif.Proofs.SafeCalls
/-!
# Callbacks that change the cache on a miss

They are run when the call has nothing left to do with the entries, so they cannot do harm.
-/

set_option autoImplicit false
set_option linter.unusedSectionVars false

namespace LRU

variable {K V : Type} [KeyEqual K] [DecidableEq K] [DecidableEq V] {O : Oracle K V} {F : Event K V → Script K V}
variable {α β : Type}

/-- The states of a cache with a capacity. -/
def Live (s : St (Cache K V) K V) : Prop := ∃ t, Rel s t ∧ Ok t ∧ t.c.cap ≠ none

/-- The call ends in such a state. -/
def Ends : Out (St (Cache K V) K V) α → Prop
  | .ok _ s => Live s
  | .throw _ s => Live s
  | _ => False

/-- Calls in such states end in such states. -/
def Fin (m : Impl.CM K V α) : Prop := ∀ s, Live s → Ends (m s)

theorem Live.shared {s s' : St (Cache K V) K V} (h : Live s) (hc : s'.c = s.c) (hg : Tame s.g s'.g) : Live s' := by
  obtain ⟨t, hr, ht, hn⟩ := h
  exact ⟨_, hr.shared hc hg, ht.shared hr hg, hn⟩

theorem Live.firm {s : St (Cache K V) K V} (h : Live s) : Firm s.c := by
  obtain ⟨t, hr, ht, -⟩ := h
  exact hr.firm ht

theorem Live.cap {s : St (Cache K V) K V} (h : Live s) : s.c.capacity ≠ none := by
  obtain ⟨t, hr, ht, hn⟩ := h
  rw [hr.rep.cap]; exact hn

theorem Ends.completes {o : Out (St (Cache K V) K V) α} (h : Ends o) : Completes o := by
  cases o with
  | ok a s => exact .inl ⟨a, s, rfl⟩
  | throw e s => exact .inr ⟨e, s, rfl⟩
  | _ => exact h.elim

theorem Ends.bind {m : Impl.CM K V α} {f : α → Impl.CM K V β} {s : St (Cache K V) K V} (h : Ends (m s))
    (h' : ∀ a s', m s = .ok a s' → Live s' → Ends (f a s')) : Ends ((m >>= f) s) := by
  show Ends (M.bind m f s)
  unfold M.bind
  cases hm : m s with
  | ok a s' => rw [hm] at h; exact h' a s' hm h
  | throw e s' => rw [hm] at h; exact h
  | _ => rw [hm] at h; exact h.elim

theorem Fin.bind {m : Impl.CM K V α} {f : α → Impl.CM K V β} (h : Fin m) (h' : ∀ a, Fin (f a)) : Fin (m >>= f) :=
  fun s hs => (h s hs).bind fun a s' _ hs' => h' a s' hs'

theorem Fin.pure {a : α} : Fin (Pure.pure a : Impl.CM K V α) := fun _ h => h

/-- A program that leaves the cache alone ends in such a state if it ends. -/
theorem Still.ends {m : Impl.CM K V α} (h : Still m) {s : St (Cache K V) K V} (hs : Live s) (hc : Completes (m s)) :
    Ends (m s) := by
  have h1 := h s
  rcases hc with ⟨a, s', hc⟩ | ⟨e, s', hc⟩
  · rw [hc] at h1 ⊢; exact hs.shared h1.1 h1.2
  · rw [hc] at h1 ⊢; exact hs.shared h1.1 h1.2

theorem attempt_fin {site : Site} : Fin (attempt O site : Impl.CM K V Unit) := by
  intro s hs
  refine attempt_still.ends hs ?_
  unfold attempt
  cases h : O.fails site s.g.steps with
  | true => exact .inr ⟨_, _, by simp; exact ⟨rfl, rfl⟩⟩
  | false => exact .inl ⟨_, _, by simp; exact ⟨rfl, rfl⟩⟩

theorem emit_fin {e : Event K V} : Fin (emit e : Impl.CM K V Unit) :=
  fun _ hs => emit_still.ends hs (.inl ⟨_, _, rfl⟩)

theorem countMiss_fin {o : Obs} {k : K} : Fin (countMiss o k : Impl.CM K V Unit) := by
  intro s hs
  refine countMiss_still.ends hs ?_
  unfold countMiss
  cases o.stats <;> exact .inl ⟨_, _, rfl⟩

theorem countHit_fin {o : Obs} {k : K} : Fin (countHit o k : Impl.CM K V Unit) := by
  intro s hs
  refine countHit_still.ends hs ?_
  unfold countHit
  cases o.stats <;> exact .inl ⟨_, _, rfl⟩

theorem getObs_fin : Fin (Impl.getObs : Impl.CM K V Obs) := fun _ hs => hs

theorem callEach_fin {ev : Nat → Event K V} {l : List Nat} : Fin (callEach O ev l : Impl.CM K V Unit) := by
  induction l with
  | nil => exact .pure
  | cons cb rest ih => exact emit_fin.bind fun _ => attempt_fin.bind fun _ => ih

theorem registerHit_fin {o : Obs} {k : K} {v : V} : Fin (registerHit O o k v : Impl.CM K V Unit) :=
  countHit_fin.bind fun _ => callEach_fin.bind fun _ => callEach_fin

theorem cap_elem : Elem O (fun t t' : St (MCache K V) K V => t.c.cap ≠ none → t'.c.cap ≠ none) where
  trans h h' := h' ∘ h
  shared _ _ h := h
  touch _ _ _ h := h
  prune _ _ h := h
  insert := by
    intro t k v o h ho
    cases ho <;> first | trivial | exact id
  cap _ _ _ := by simp
  obs _ _ h := h
  setVal _ h := h

theorem step_fin (hO : NoListFault O) {op : Op K V} (hm : op.Manages) : Fin (Impl.step O op) := by
  rintro s ⟨t, hr, ht, hn⟩
  have hc : s.c.capacity ≠ none := by rw [hr.rep.cap]; exact hn
  have h1 := step_completes (op := op) hO hr ht (by cases op <;> first | exact hm.elim | exact hc | exact .inr hc | trivial)
    (by rintro ⟨rfl | rfl, -⟩ <;> exact hm)
  have h2 : Goes (fun t t' : St (MCache K V) K V => t.c.cap ≠ none → t'.c.cap ≠ none) (Impl.step O op) :=
    .of_sim (step_sim hO op) (step_within (cap_elem (O := O)) hO op)
  rcases h1 with ⟨r, s', h1⟩ | ⟨e, s', h1⟩
  · obtain ⟨t', hr', ht', hn'⟩ := h2.ok hr ht h1
    rw [h1]
    exact ⟨t', hr', ht', hn' hn⟩
  · obtain ⟨t', hr', ht', hn'⟩ := h2.throw hr ht h1
    rw [h1]
    exact ⟨t', hr', ht', hn' hn⟩

theorem manages_registers {op : Op K V} (hi : op.Manages) (busy : List CbList) : busy.any op.registers = false := by
  rw [List.any_eq_false]
  intro x _
  cases op <;> first | exact hi.elim | (cases x <;> simp [Op.registers])

theorem stepR_manages {d : Nat} {busy : List CbList} {op : Op K V} (hi : op.Manages) :
    Impl.stepR O F (d + 1) busy op = Impl.step O op := by
  rw [Impl.stepR, if_neg (by rw [manages_registers hi]; simp)]
  cases op <;> first | exact hi.elim | rfl

theorem runScript_fin (hO : NoListFault O) {d : Nat} {busy : List CbList} {p : Script K V} (hp : p.Only Op.Manages) :
    Fin (Impl.runScript (Impl.stepR O F (d + 1) busy) p) := by
  induction p with
  | done => exact .pure
  | call op next ih =>
    intro s hs
    unfold Impl.runScript
    rw [stepR_manages hp.1]
    have h1 := step_fin hO hp.1 s hs
    cases h : Impl.step O op s with
    | ok r s' => rw [h] at h1; exact ih _ (hp.2 _) s' h1
    | throw e s' => rw [h] at h1; exact ih _ (hp.2 _) s' h1
    | _ => rw [h] at h1; exact h1.elim

theorem callEachR_fin (hO : NoListFault O) {d : Nat} {busy : List CbList} {ev : Nat → Event K V}
    (hF : ∀ cb, (F (ev cb)).Only Op.Manages) (l : List Nat) :
    Fin (Impl.callEachR O F (Impl.stepR O F (d + 1) busy) (fun cb => Pure.pure (ev cb)) l) := by
  induction l with
  | nil => exact .pure
  | cons cb rest ih =>
    rw [callEachR_cons]
    intro s hs
    rw [bind_ok (show (Pure.pure (ev cb) : Impl.CM K V _) s = .ok (ev cb) s from rfl)]
    exact (emit_fin.bind fun _ => (runScript_fin hO (hF cb)).bind fun _ => attempt_fin.bind fun _ => ih) s hs

theorem registerMissR_fin (hO : NoListFault O) (hF : ManagesOnMiss F) {d : Nat} {busy : List CbList} {k : K} :
    Fin (Impl.registerMissR O F (Impl.stepR O F (d + 1)) busy k) :=
  getObs_fin.bind fun _ => countMiss_fin.bind fun _ => (callEachR_fin hO (fun cb => hF (.miss cb k)) _).bind fun _ =>
    getObs_fin.bind fun _ => callEachR_fin hO (fun cb => hF (.access cb k false)) _

theorem registerHitR_ends (hF : ManagesOnMiss F) {d : Nat} {busy : List CbList} {k : K} {s : St (Cache K V) K V}
    (hs : Live s) {n : MapNode K V} (hn : n ∈ s.c.map) :
    Ends (Impl.registerHitR O F (Impl.stepR O F (d + 1)) busy k n.addr s) ∧
    ∀ s', Impl.registerHitR O F (Impl.stepR O F (d + 1)) busy k n.addr s = .ok () s' → s'.c = s.c := by
  rw [registerHitR_same hs.cap hs.firm hn (fun cb v => hF (.hit cb k v)) (fun cb => hF (.access cb k true)) s rfl]
  refine ⟨registerHit_fin s hs, fun s' h => ?_⟩
  have := registerHit_still (O := O) (o := s.c.obs) (k := k) (v := n.info.value) s
  rw [h] at this
  exact this.1

theorem hasExpiredInfo_fin {time : Int} : Fin (Impl.hasExpiredInfo O time : Impl.CM K V Bool) := by
  intro s hs
  refine hasExpiredInfo_still.ends hs (.inl ?_)
  unfold Impl.hasExpiredInfo
  rw [bind_ok (show Impl.getKind s = .ok s.c.kind s from rfl)]
  cases s.c.kind <;> exact ⟨_, _, rfl⟩

theorem findR_fin (hO : NoListFault O) (hF : ManagesOnMiss F) {d : Nat} {busy : List CbList} {k : K} :
    Fin (Impl.findR O F (Impl.stepR O F (d + 1)) busy k) := by
  intro s hs
  unfold Impl.findR
  rw [bind_ok (show Impl.mapFind k s = .ok (s.c.map.find? (fun n => keq n.key k)) s from rfl)]
  cases hf : s.c.map.find? (fun n => keq n.key k) with
  | none => exact ((registerMissR_fin hO hF).bind fun _ => .pure) s hs
  | some n =>
    have hm := List.mem_of_find?_eq_some hf
    refine (hasExpiredInfo_fin s hs).bind fun b s1 h1 hs1 => ?_
    have hc1 : s1.c = s.c := by
      have := hasExpiredInfo_still (O := O) (time := n.info.time) s
      rw [h1] at this
      exact this.1
    cases b with
    | true => exact ((registerMissR_fin hO hF).bind fun _ => .pure) s1 hs1
    | false =>
      have h2 := registerHitR_ends (O := O) (d := d) (busy := busy) (k := k) hF hs1 (n := n) (hc1.symm ▸ hm)
      refine h2.1.bind fun _ s2 h3 hs2 => ?_
      have hc2 : s2.c = s.c := (h2.2 s2 h3).trans hc1
      refine Ends.bind ?_ fun _ s3 _ hs3 => hs3
      obtain ⟨t, hr, ht, hn⟩ := hs2
      obtain ⟨e, he, rfl⟩ := List.mem_map.1 (hr.rep.map.mem_iff.1 (hc2.symm ▸ hm))
      have hsim := touchR_sim (p := e.id) s2 t hr trivial
      rw [touchR_own ht he] at hsim
      cases h4 : Impl.touchR e.id s2 with
      | ok a s3 =>
        have h4' : Impl.touchR e.node.addr s2 = .ok a s3 := h4
        rw [h4'] 
        rw [h4] at hsim
        exact ⟨_, hsim.2.1, ht.touch he, hn⟩
      | _ => rw [h4] at hsim; exact hsim.elim

theorem lastAccessedIsOk_fin {s : St (Cache K V) K V} (hs : Live s) {n : MapNode K V} (hn : n ∈ s.c.map)
    (hl : s.c.last = some n.addr) : Ends (Impl.lastAccessedIsOk O s) := by
  unfold Impl.lastAccessedIsOk
  rw [bind_ok (show Impl.getKind s = .ok s.c.kind s from rfl)]
  cases s.c.kind with
  | basic => exact hs
  | timed ttl res =>
    simp only
    rw [bind_ok (lastNode_last hs.firm hn hl)]
    exact (hasExpiredInfo_fin.bind fun _ => .pure) s hs

theorem valueForLastAccessed_fin {s : St (Cache K V) K V} (hs : Live s) {n : MapNode K V} (hn : n ∈ s.c.map)
    (hl : s.c.last = some n.addr) : Ends (Impl.valueForLastAccessed O s) := by
  unfold Impl.valueForLastAccessed
  rw [bind_ok (lastNode_last hs.firm hn hl), bind_ok (show Impl.getKind s = .ok s.c.kind s from rfl)]
  cases s.c.kind with
  | basic => exact hs
  | timed ttl res =>
    refine (hasExpiredInfo_fin s hs).bind fun b s1 _ hs1 => ?_
    cases b <;> exact hs1

theorem containsR_fin (hO : NoListFault O) (hF : ManagesOnMiss F) {d : Nat} {busy : List CbList} {k : K} :
    Fin (Impl.containsR O F (Impl.stepR O F (d + 1)) busy k) := by
  intro s hs
  unfold Impl.containsR
  obtain ⟨b, hb⟩ := lastIs_ok (k := k) hs.firm
  rw [bind_ok hb]
  cases b with
  | true =>
    obtain ⟨-, n, hn, hl, -⟩ := lastIs_true hs.firm hb
    refine (lastAccessedIsOk_fin hs hn hl).bind fun b s1 h1 hs1 => ?_
    have hc1 : s1.c = s.c := by
      have := lastAccessedIsOk_still (O := O) s
      rw [h1] at this
      exact this.1
    cases b with
    | true =>
      simp only [if_true]
      rw [bind_ok (lastNode_last hs1.firm (n := n) (hc1.symm ▸ hn) (hc1.symm ▸ hl))]
      exact (registerHitR_ends hF hs1 (hc1.symm ▸ hn)).1.bind fun _ _ _ h => h
    | false => exact hs1
  | false => exact ((findR_fin hO hF).bind fun _ => .pure) s hs

theorem lookupR_fin (hO : NoListFault O) (hF : ManagesOnMiss F) {d : Nat} {busy : List CbList} {k : K} :
    Fin (Impl.lookupR O F (Impl.stepR O F (d + 1)) busy k) := by
  intro s hs
  unfold Impl.lookupR
  obtain ⟨b, hb⟩ := lastIs_ok (k := k) hs.firm
  rw [bind_ok hb]
  cases b with
  | true =>
    obtain ⟨-, n, hn, hl, -⟩ := lastIs_true hs.firm hb
    refine (valueForLastAccessed_fin hs hn hl).bind fun m s1 h1 hs1 => ?_
    have hm := valueForLastAccessed_mem hs.firm h1
    have hc1 : s1.c = s.c := by
      have := valueForLastAccessed_still (O := O) s
      rw [h1] at this
      exact this.1
    have h2 := registerHitR_ends (O := O) (d := d) (busy := busy) (k := k) hF hs1 (n := m) (hc1.symm ▸ hm)
    refine h2.1.bind fun _ s2 h3 hs2 => ?_
    have hc2 : s2.c = s.c := (h2.2 s2 h3).trans hc1
    rw [bind_ok (deref_mem hs2.firm (n := m) (hc2.symm ▸ hm))]
    exact hs2
  | false =>
    refine (findR_fin hO hF s hs).bind fun it s1 h1 hs1 => ?_
    cases it with
    | none => exact hs1
    | some p =>
      obtain ⟨t, hr, ht, hn⟩ := hs
      obtain ⟨e, t2, e2, -, rfl, ht2, -, he2, hse, hr2⟩ := findR_found hO hr ht h1
      have hm : e2.node ∈ s1.c.map := hr2.rep.map.mem_iff.2
        (List.mem_map.2 ⟨e2, (toEnd_perm ht2 he2).mem_iff.2 he2, rfl⟩)
      have hd : Impl.derefIt (some e.id) s1 = .ok e2.node s1 := by
        rw [hse.id]
        exact derefIt_mem hs1.firm hm
      refine Ends.bind ?_ fun _ s2 _ h => h
      unfold Impl.entryU
      rw [bind_ok hd]
      refine Ends.bind ?_ fun _ s2 _ h => h
      unfold Impl.throwIfInvalidU
      simp only
      rw [bind_ok (show Impl.getKind s1 = .ok s1.c.kind s1 from rfl)]
      cases s1.c.kind with
      | basic => exact hs1
      | timed ttl res =>
        simp only
        rw [bind_ok hd]
        refine (hasExpiredInfo_fin s1 hs1).bind fun b s3 _ hs3 => ?_
        cases b <;> exact hs3

theorem stepR_fin (hO : NoListFault O) (hF : ManagesOnMiss F) {s : St (Cache K V) K V} (hs : Live s) {op : Op K V}
    (hp : Safe s.c op) (hn : ¬ Terminates s.c op) (d : Nat) : Completes (Impl.stepR O F (d + 2) [] op s) := by
  rw [Impl.stepR]
  simp only [List.any_nil, Bool.false_eq_true]
  by_cases h : ∃ k, op.Accesses k
  · obtain ⟨k, rfl | rfl | rfl⟩ := h
    · exact (((containsR_fin hO hF).bind fun _ => .pure) s hs).completes
    · exact (((findR_fin hO hF).bind fun _ => .pure) s hs).completes
    · exact (((lookupR_fin hO hF).bind fun _ => .pure) s hs).completes
  · have : Impl.dispatchR O F (Impl.stepR O F (d + 1)) [] op = Impl.step O op := by
      cases op <;> first | rfl | exact absurd ⟨_, .inl rfl⟩ h | exact absurd ⟨_, .inr (.inl rfl)⟩ h |
        exact absurd ⟨_, .inr (.inr rfl)⟩ h
    simp only [this]
    obtain ⟨t, hr, ht, -⟩ := hs
    exact step_completes hO hr ht hp hn

end LRU
