import Verif.Proofs.Reenter
import Verif.Spec.Reenter
import Verif.Proofs.SafeCalls
/-!
# Callbacks that use the cache: outcomes
-/

set_option linter.unusedSectionVars false
set_option autoImplicit false

namespace LRU

theorem bind_ok_inv {σ α β : Type} {m : M σ α} {f : α → M σ β} {s s' : σ} {b : β} (h : (m >>= f) s = .ok b s') :
    ∃ a s1, m s = .ok a s1 ∧ f a s1 = .ok b s' := by
  have h' : M.bind m f s = .ok b s' := h
  unfold M.bind at h'
  cases hm : m s with
  | ok a s1 => rw [hm] at h'; exact ⟨a, s1, rfl, h'⟩
  | throw e s1 => rw [hm] at h'; cases h'
  | ub => rw [hm] at h'; cases h'
  | terminate => rw [hm] at h'; cases h'
  | diverge => rw [hm] at h'; cases h'

theorem bind_bind {σ α β γ : Type} (m : M σ α) (f : α → M σ β) (g : β → M σ γ) (s : σ) :
    ((m >>= f) >>= g) s = (m >>= fun a => f a >>= g) s := by
  show M.bind (M.bind m f) g s = M.bind m (fun a => M.bind (f a) g) s
  unfold M.bind
  cases m s <;> rfl

/-! ### Depth -/

section below

variable {σ α β : Type}

/-- `m'` agrees with `m` unless `m` runs out of budget. -/
def Below (m m' : M σ α) : Prop := ∀ s, m s = .diverge ∨ m s = m' s

theorem Below.refl (m : M σ α) : Below m m := fun _ => .inr rfl

theorem Below.bind {m m' : M σ α} {f f' : α → M σ β} (h : Below m m') (h' : ∀ a, Below (f a) (f' a)) :
    Below (m >>= f) (m' >>= f') := by
  intro s
  show M.bind m f s = _ ∨ M.bind m f s = M.bind m' f' s
  unfold M.bind
  rcases h s with h1 | h1
  · rw [h1]; exact .inl rfl
  · rw [← h1]
    cases m s with
    | ok a s' => exact h' a s'
    | throw e s' => exact .inr rfl
    | ub => exact .inr rfl
    | terminate => exact .inr rfl
    | diverge => exact .inl rfl

theorem Below.bind' {m : M σ α} {f f' : α → M σ β} (h' : ∀ a, Below (f a) (f' a)) : Below (m >>= f) (m >>= f') :=
  (Below.refl m).bind h'

theorem Below.ite {c : Prop} [Decidable c] {m m' n n' : M σ α} (h : Below m m') (h' : Below n n') :
    Below (if c then m else n) (if c then m' else n') := by
  split <;> assumption

end below

variable {K V : Type} [KeyEqual K] [DecidableEq K] {O : Oracle K V} {F : Event K V → Script K V}

section depth

theorem runScript_below {c c' : Op K V → Impl.CM K V (Res K V)} (h : ∀ op, Below (c op) (c' op)) (p : Script K V) :
    Below (Impl.runScript c p) (Impl.runScript c' p) := by
  induction p with
  | done => exact .refl _
  | call op next ih =>
    intro s
    unfold Impl.runScript
    rcases h op s with h1 | h1
    · rw [h1]; exact .inl rfl
    · rw [← h1]
      cases c op s with
      | ok r s' => exact ih _ s'
      | throw e s' => exact ih _ s'
      | ub => exact .inr rfl
      | terminate => exact .inr rfl
      | diverge => exact .inl rfl

theorem callEachR_below {c c' : Op K V → Impl.CM K V (Res K V)} (h : ∀ op, Below (c op) (c' op))
    {ev : Nat → Impl.CM K V (Event K V)} (l : List Nat) :
    Below (Impl.callEachR O F c ev l) (Impl.callEachR O F c' ev l) := by
  induction l with
  | nil => exact .refl _
  | cons cb rest ih =>
    exact .bind' fun e => .bind' fun _ => (runScript_below h _).bind fun _ => .bind' fun _ => ih

variable {c c' : List CbList → Op K V → Impl.CM K V (Res K V)} {busy : List CbList} {k : K}

theorem registerHitR_below (h : ∀ b op, Below (c b op) (c' b op)) {p : Ptr} :
    Below (Impl.registerHitR O F c busy k p) (Impl.registerHitR O F c' busy k p) :=
  .bind' fun _ => .bind' fun _ => (callEachR_below (h _) _).bind fun _ => .bind' fun _ => callEachR_below (h _) _

theorem registerMissR_below (h : ∀ b op, Below (c b op) (c' b op)) :
    Below (Impl.registerMissR O F c busy k) (Impl.registerMissR O F c' busy k) :=
  .bind' fun _ => .bind' fun _ => (callEachR_below (h _) _).bind fun _ => .bind' fun _ => callEachR_below (h _) _

theorem findR_below (h : ∀ b op, Below (c b op) (c' b op)) :
    Below (Impl.findR O F c busy k) (Impl.findR O F c' busy k) := by
  refine .bind' fun it => ?_
  cases it with
  | none => exact (registerMissR_below h).bind fun _ => .refl _
  | some n =>
    refine .bind' fun b => .ite ?_ ?_
    · exact (registerMissR_below h).bind fun _ => .refl _
    · exact (registerHitR_below h).bind fun _ => .refl _

theorem containsR_below (h : ∀ b op, Below (c b op) (c' b op)) :
    Below (Impl.containsR O F c busy k) (Impl.containsR O F c' busy k) := by
  refine .bind' fun b => .ite (.bind' fun b => .ite (.bind' fun n => ?_) (.refl _)) ?_
  · exact (registerHitR_below h).bind fun _ => .refl _
  · exact (findR_below h).bind fun _ => .refl _

theorem lookupR_below (h : ∀ b op, Below (c b op) (c' b op)) :
    Below (Impl.lookupR O F c busy k) (Impl.lookupR O F c' busy k) := by
  refine .bind' fun b => .ite (.bind' fun n => ?_) ?_
  · exact (registerHitR_below h).bind fun _ => .refl _
  · exact (findR_below h).bind fun _ => .refl _

theorem dispatchR_below (h : ∀ b op, Below (c b op) (c' b op)) (op : Op K V) :
    Below (Impl.dispatchR O F c busy op) (Impl.dispatchR O F c' busy op) := by
  cases op with
  | contains k => exact (containsR_below h).bind fun _ => .refl _
  | find k => exact (findR_below h).bind fun _ => .refl _
  | lookup k => exact (lookupR_below h).bind fun _ => .refl _
  | _ => exact fun _ => .inr rfl

theorem stepR_below (d : Nat) (busy : List CbList) (op : Op K V) :
    Below (Impl.stepR O F d busy op) (Impl.stepR O F (d + 1) busy op) := by
  induction d generalizing busy op with
  | zero => exact fun _ => .inl rfl
  | succ d ih =>
    rw [Impl.stepR, Impl.stepR]
    exact .ite (.refl _) (dispatchR_below ih op)

theorem stepR_depth {d : Nat} (e : Nat) {busy : List CbList} {op : Op K V} {s : St (Cache K V) K V}
    (h : Impl.stepR O F d busy op s ≠ .diverge) :
    Impl.stepR O F (d + e) busy op s = Impl.stepR O F d busy op s := by
  induction e with
  | zero => rfl
  | succ e ih =>
    rcases stepR_below (O := O) (F := F) (d + e) busy op s with h1 | h1
    · exact absurd (ih ▸ h1) h
    · rw [← Nat.add_assoc, ← h1, ih]

end depth

/-! ### Callbacks that only inspect -/

section quiet

theorem inspects_inert {op : Op K V} (hi : op.Inspects) {s : St (Cache K V) K V} (hn : s.c.capacity ≠ none) :
    (∃ r, Impl.step O op s = .ok r s) ∨ ∃ e, Impl.step O op s = .throw e s := by
  obtain ⟨n, hn⟩ := Option.ne_none_iff_exists'.1 hn
  have hc : Impl.readCapacity s = .ok n s := by unfold Impl.readCapacity; rw [hn]
  cases op <;> first | exact hi.elim | skip
  · exact .inl ⟨_, rfl⟩
  · exact .inl ⟨_, bind_ok hc⟩
  · exact .inl ⟨_, bind_ok ((bind_ok hc).trans rfl)⟩
  · exact .inl ⟨_, rfl⟩
  · have h1 : (Impl.isFull : Impl.CM K V Bool) s = .ok (s.c.map.length == n) s := by
      unfold Impl.isFull
      rw [bind_ok (show Impl.size s = .ok s.c.map.length s from rfl), bind_ok hc]
      rfl
    exact .inl ⟨_, bind_ok h1⟩
  · exact .inl ⟨_, rfl⟩
  · exact .inl ⟨_, rfl⟩
  · cases ho : s.c.obs.stats with
    | none =>
      right
      have h1 : (Impl.stats : Impl.CM K V Nat) s = .throw .notMonitoring s := by
        unfold Impl.stats
        rw [bind_ok (show Impl.getObs s = .ok s.c.obs s from rfl), ho]
        rfl
      exact ⟨_, bind_throw h1⟩
    | some i =>
      left
      have h1 : (Impl.stats : Impl.CM K V Nat) s = .ok i s := by
        unfold Impl.stats
        rw [bind_ok (show Impl.getObs s = .ok s.c.obs s from rfl), ho]
        rfl
      exact ⟨_, bind_ok h1⟩
  · exact .inl ⟨_, rfl⟩

theorem inspects_registers {op : Op K V} (hi : op.Inspects) (busy : List CbList) : busy.any op.registers = false := by
  rw [List.any_eq_false]
  intro x _
  cases op <;> first | exact hi.elim | (cases x <;> simp [Op.registers])

theorem stepR_inspects {d : Nat} {busy : List CbList} {op : Op K V} (hi : op.Inspects) :
    Impl.stepR O F (d + 1) busy op = Impl.step O op := by
  rw [Impl.stepR, if_neg (by rw [inspects_registers hi]; simp)]
  cases op <;> first | exact hi.elim | rfl

theorem runScript_inert {d : Nat} {busy : List CbList} {p : Script K V} (hp : p.Only Op.Inspects)
    {s : St (Cache K V) K V} (hn : s.c.capacity ≠ none) :
    Impl.runScript (Impl.stepR O F (d + 1) busy) p s = .ok () s := by
  induction p with
  | done => rfl
  | call op next ih =>
    unfold Impl.runScript
    rw [stepR_inspects hp.1]
    rcases inspects_inert (O := O) hp.1 hn with ⟨r, h⟩ | ⟨e, h⟩
    · rw [h]; exact ih _ (hp.2 _)
    · rw [h]; exact ih _ (hp.2 _)

/-- Two programs that agree on the states with cache `c`. -/
def Same (c : Cache K V) {α : Type} (m m' : Impl.CM K V α) : Prop := ∀ s, s.c = c → m s = m' s

theorem Same.bind {c : Cache K V} {α β : Type} {m m' : Impl.CM K V α} {f f' : α → Impl.CM K V β} (hm : Still m)
    (h : Same c m m') (h' : ∀ a, Same c (f a) (f' a)) : Same c (m >>= f) (m' >>= f') := by
  intro s hs
  show M.bind m f s = M.bind m' f' s
  have h1 := hm s
  unfold M.bind
  rw [← h s hs]
  cases hx : m s with
  | ok a s' => rw [hx] at h1; exact h' a s' (h1.1.trans hs)
  | throw e s' => rfl
  | ub => rfl
  | terminate => rfl
  | diverge => rfl

theorem Same.refl {c : Cache K V} {α : Type} (m : Impl.CM K V α) : Same c m m := fun _ _ => rfl

theorem Same.ite {c : Cache K V} {α : Type} {p : Prop} [Decidable p] {m m' n n' : Impl.CM K V α} (h : Same c m m')
    (h' : Same c n n') : Same c (if p then m else n) (if p then m' else n') := by
  split <;> assumption

theorem callEach_still {ev : Nat → Event K V} {l : List Nat} : Still (callEach O ev l : Impl.CM K V Unit) := by
  induction l with
  | nil => exact .pure
  | cons cb rest ih => exact emit_still.bind fun _ => attempt_still.bind fun _ => ih

theorem registerHit_still {o : Obs} {k : K} {v : V} : Still (registerHit O o k v : Impl.CM K V Unit) :=
  countHit_still.bind fun _ => callEach_still.bind fun _ => callEach_still

theorem registerMiss_still {o : Obs} {k : K} : Still (registerMiss O o k : Impl.CM K V Unit) :=
  countMiss_still.bind fun _ => callEach_still.bind fun _ => callEach_still

theorem Same.symm {c : Cache K V} {α : Type} {m m' : Impl.CM K V α} (h : Same c m m') : Same c m' m :=
  fun s hs => (h s hs).symm

/-- The facts about a cache that make re-reading an entry harmless. -/
structure Firm (c : Cache K V) : Prop where
  nodup : (c.map.map (·.addr)).Nodup
  last : ∀ p, c.last = some p → ∃ n ∈ c.map, n.addr = p

theorem Firm.find {c : Cache K V} (h : Firm c) {n : MapNode K V} (hn : n ∈ c.map) :
    c.map.find? (fun x => x.addr == n.addr) = some n := find?_key h.nodup hn

theorem deref_mem {s : St (Cache K V) K V} (h : Firm s.c) {n : MapNode K V} (hn : n ∈ s.c.map) :
    Impl.deref n.addr s = .ok n s := by
  unfold Impl.deref
  rw [h.find hn]

theorem derefIt_mem {s : St (Cache K V) K V} (h : Firm s.c) {n : MapNode K V} (hn : n ∈ s.c.map) :
    Impl.derefIt (some n.addr) s = .ok n s := by
  unfold Impl.derefIt
  simp only
  rw [h.find hn]

variable (hF : ∀ e, (F e).Only Op.Inspects) {d : Nat} {c : Cache K V} (hn : c.capacity ≠ none)
include hF hn

omit hF in
theorem callEachR_same {busy : List CbList} {ev : Nat → Impl.CM K V (Event K V)} {ev' : Nat → Event K V}
    (hF : ∀ cb, (F (ev' cb)).Only Op.Inspects)
    (hev : ∀ cb s, s.c = c → ev cb s = .ok (ev' cb) s) (l : List Nat) :
    Same c (Impl.callEachR O F (Impl.stepR O F (d + 1) busy) ev l) (callEach O ev' l) := by
  induction l with
  | nil => exact .refl _
  | cons cb rest ih =>
    intro s hs
    unfold Impl.callEachR callEach
    rw [bind_ok (hev cb s hs)]
    refine Same.bind (c := c) emit_still (.refl _) (fun _ s1 hs1 => ?_) s hs
    rw [bind_ok (runScript_inert (hF _) (by rw [hs1]; exact hn))]
    exact Same.bind (c := c) attempt_still (.refl _) (fun _ => ih) s1 hs1

omit hF in
theorem registerHitR_same (hc : Firm c) {busy : List CbList} {k : K} {n : MapNode K V} (hm : n ∈ c.map)
    (h1 : ∀ cb v, (F (.hit cb k v)).Only Op.Inspects) (h2 : ∀ cb, (F (.access cb k true)).Only Op.Inspects) :
    Same c (Impl.registerHitR O F (Impl.stepR O F (d + 1)) busy k n.addr) (registerHit O c.obs k n.info.value) := by
  intro s hs
  unfold Impl.registerHitR registerHit
  rw [bind_ok (show Impl.getObs s = .ok c.obs s by unfold Impl.getObs; rw [hs])]
  refine Same.bind (c := c) countHit_still (.refl _) (fun _ => ?_) s hs
  refine Same.symm (Same.bind callEach_still (Same.symm ?_) (fun _ => Same.symm fun s2 hs2 => ?_))
  · refine callEachR_same hn (fun cb => h1 cb _) (fun cb s1 hs1 => ?_) _
    rw [bind_ok (deref_mem (hs1 ▸ hc) (hs1 ▸ hm))]
    rfl
  · rw [bind_ok (show Impl.getObs s2 = .ok c.obs s2 by unfold Impl.getObs; rw [hs2])]
    exact callEachR_same hn h2 (fun cb s1 hs1 => rfl) _ s2 hs2

theorem callEachR_quiet {busy : List CbList} {ev : Nat → Impl.CM K V (Event K V)} {ev' : Nat → Event K V}
    (hev : ∀ cb s, s.c = c → ev cb s = .ok (ev' cb) s) (l : List Nat) :
    Same c (Impl.callEachR O F (Impl.stepR O F (d + 1) busy) ev l) (callEach O ev' l) :=
  callEachR_same hn (fun _ => hF _) hev l

theorem registerHitR_quiet (hc : Firm c) {busy : List CbList} {k : K} {n : MapNode K V} (hm : n ∈ c.map) :
    Same c (Impl.registerHitR O F (Impl.stepR O F (d + 1)) busy k n.addr) (registerHit O c.obs k n.info.value) :=
  registerHitR_same hn hc hm (fun _ _ => hF _) (fun _ => hF _)

theorem registerMissR_quiet {busy : List CbList} {k : K} :
    Same c (Impl.registerMissR O F (Impl.stepR O F (d + 1)) busy k) (registerMiss O c.obs k) := by
  intro s hs
  unfold Impl.registerMissR registerMiss
  rw [bind_ok (show Impl.getObs s = .ok c.obs s by unfold Impl.getObs; rw [hs])]
  refine Same.bind (c := c) countMiss_still (.refl _) (fun _ => ?_) s hs
  refine Same.symm (Same.bind callEach_still (Same.symm ?_) (fun _ => Same.symm fun s2 hs2 => ?_))
  · exact callEachR_quiet hF hn (fun cb s1 hs1 => rfl) _
  · rw [bind_ok (show Impl.getObs s2 = .ok c.obs s2 by unfold Impl.getObs; rw [hs2])]
    exact callEachR_quiet hF hn (fun cb s1 hs1 => rfl) _ s2 hs2

theorem findR_quiet (hc : Firm c) {busy : List CbList} {k : K} :
    Same c (Impl.findR O F (Impl.stepR O F (d + 1)) busy k) (Impl.find O k) := by
  intro s hs
  unfold Impl.findR Impl.find
  rw [bind_ok (show Impl.getObs s = .ok c.obs s by unfold Impl.getObs; rw [hs])]
  have hf : Impl.mapFind k s = .ok (c.map.find? (fun n => keq n.key k)) s := by unfold Impl.mapFind; rw [hs]
  rw [bind_ok hf, bind_ok hf]
  cases hm : c.map.find? (fun n => keq n.key k) with
  | none =>
    refine Same.symm (Same.bind (c := c) registerMiss_still (Same.symm (registerMissR_quiet hF hn)) fun _ => .refl _) s hs
  | some n =>
    have hmem := List.mem_of_find?_eq_some hm
    refine Same.bind (c := c) hasExpiredInfo_still (.refl _) (fun b => .ite ?_ ?_) s hs
    · exact Same.symm (Same.bind registerMiss_still (Same.symm (registerMissR_quiet hF hn)) fun _ => .refl _)
    · refine Same.symm (Same.bind registerHit_still (Same.symm (registerHitR_quiet hF hn hc hmem)) fun _ => ?_)
      intro s1 hs1
      unfold Impl.touchR
      rw [bind_bind, bind_ok (derefIt_mem (hs1 ▸ hc) (hs1 ▸ hmem)), bind_bind]

omit hF hn in
theorem lastNode_mem {s : St (Cache K V) K V} (hc : Firm s.c) {n : MapNode K V} {s' : St (Cache K V) K V}
    (h : Impl.lastNode s = .ok n s') : n ∈ s.c.map ∧ s' = s := by
  unfold Impl.lastNode at h
  rw [bind_ok (show Impl.getLast s = .ok s.c.last s from rfl)] at h
  cases hl : s.c.last with
  | none => rw [hl] at h; cases h
  | some p =>
    rw [hl] at h
    obtain ⟨m, hm, rfl⟩ := hc.last p hl
    have h' : Impl.deref m.addr s = .ok n s' := h
    rw [deref_mem hc hm] at h'
    injection h' with h1 h2
    exact ⟨h1 ▸ hm, h2.symm⟩

theorem containsR_quiet (hc : Firm c) {busy : List CbList} {k : K} :
    Same c (Impl.containsR O F (Impl.stepR O F (d + 1)) busy k) (Impl.contains O k) := by
  intro s hs
  unfold Impl.containsR Impl.contains
  rw [bind_ok (show Impl.getObs s = .ok c.obs s by unfold Impl.getObs; rw [hs])]
  refine Same.bind (c := c) lastIs_still (.refl _) (fun b => .ite ?_ ?_) s hs
  · refine Same.bind lastAccessedIsOk_still (.refl _) fun b => .ite ?_ (.refl _)
    intro s1 hs1
    cases hl : Impl.lastNode s1 with
    | ok n s2 =>
      rw [bind_ok hl, bind_ok hl]
      obtain ⟨hm, rfl⟩ := lastNode_mem (hs1 ▸ hc) hl
      exact Same.symm (Same.bind (c := c) registerHit_still
        (Same.symm (registerHitR_quiet hF hn hc (hs1 ▸ hm))) fun _ => .refl _) _ hs1
    | throw e s2 => rw [bind_throw hl, bind_throw hl]
    | ub => rw [bind_ub hl, bind_ub hl]
    | terminate => rw [bind_terminate hl, bind_terminate hl]
    | diverge => rw [bind_diverge hl, bind_diverge hl]
  · intro s1 hs1
    show M.bind _ _ s1 = M.bind _ _ s1
    unfold M.bind
    rw [findR_quiet hF hn hc s1 hs1]

omit hF hn in
theorem valueForLastAccessed_mem {s : St (Cache K V) K V} (hc : Firm s.c) {n : MapNode K V}
    {s' : St (Cache K V) K V} (h : Impl.valueForLastAccessed O s = .ok n s') : n ∈ s.c.map := by
  unfold Impl.valueForLastAccessed at h
  obtain ⟨m, s1, h1, h2⟩ := bind_ok_inv h
  obtain ⟨hm, rfl⟩ := lastNode_mem hc h1
  obtain ⟨kind, s2, h3, h4⟩ := bind_ok_inv h2
  have h3' : (Out.ok s1.c.kind s1 : Out (St (Cache K V) K V) Kind) = .ok kind s2 := h3
  injection h3' with h5 h6
  subst h5 h6
  cases hk : s1.c.kind with
  | basic =>
    rw [hk] at h4
    have h4' : (Out.ok m s1 : Out (St (Cache K V) K V) (MapNode K V)) = .ok n s' := h4
    injection h4' with h5
    exact h5 ▸ hm
  | timed ttl res =>
    rw [hk] at h4
    obtain ⟨b, s3, h5, h6⟩ := bind_ok_inv h4
    cases b with
    | true => cases h6
    | false =>
      have h6' : (Out.ok m s3 : Out (St (Cache K V) K V) (MapNode K V)) = .ok n s' := h6
      injection h6' with h7
      exact h7 ▸ hm

theorem lookupR_quiet (hc : Firm c) {busy : List CbList} {k : K} :
    Same c (Impl.lookupR O F (Impl.stepR O F (d + 1)) busy k) (Impl.lookup O k) := by
  intro s hs
  unfold Impl.lookupR Impl.lookup
  rw [bind_ok (show Impl.getObs s = .ok c.obs s by unfold Impl.getObs; rw [hs])]
  refine Same.bind (c := c) lastIs_still (.refl _) (fun b => .ite ?_ ?_) s hs
  · intro s1 hs1
    cases hl : Impl.valueForLastAccessed O s1 with
    | ok n s2 =>
      rw [bind_ok hl, bind_ok hl]
      have hm := valueForLastAccessed_mem (hs1 ▸ hc) hl
      have hs2 : s2.c = c := by
        have := valueForLastAccessed_still (O := O) s1
        rw [hl] at this
        exact this.1.trans hs1
      refine Same.symm (Same.bind (c := c) registerHit_still
        (Same.symm (registerHitR_quiet hF hn hc (hs1 ▸ hm))) fun _ s3 hs3 => ?_) _ hs2
      rw [bind_ok (deref_mem (hs3 ▸ hc) (hs3 ▸ hs1 ▸ hm))]
    | throw e s2 => rw [bind_throw hl, bind_throw hl]
    | ub => rw [bind_ub hl, bind_ub hl]
    | terminate => rw [bind_terminate hl, bind_terminate hl]
    | diverge => rw [bind_diverge hl, bind_diverge hl]
  · intro s1 hs1
    show M.bind _ _ s1 = M.bind _ _ s1
    unfold M.bind
    rw [findR_quiet hF hn hc s1 hs1]
    rfl

theorem stepR_quiet (hc : Firm c) (op : Op K V) : Same c (Impl.stepR O F (d + 2) [] op) (Impl.step O op) := by
  intro s hs
  rw [Impl.stepR]
  simp only [List.any_nil, Bool.false_eq_true]
  cases op with
  | contains k =>
    show M.bind _ _ s = M.bind _ _ s
    unfold M.bind
    rw [containsR_quiet hF hn hc s hs]
  | find k =>
    show M.bind _ _ s = M.bind _ _ s
    unfold M.bind
    rw [findR_quiet hF hn hc s hs]
  | lookup k =>
    show M.bind _ _ s = M.bind _ _ s
    unfold M.bind
    rw [lookupR_quiet hF hn hc s hs]
  | _ => rfl

end quiet

section hits

variable {s s' : St (Cache K V) K V} {t : St (MCache K V) K V}

theorem Rel.firm (hr : Rel s t) (ht : Ok t) : Firm s.c := by
  refine ⟨?_, ?_⟩
  · have := (hr.rep.map.map (·.addr)).nodup_iff.2 (by rw [List.map_map]; exact ht.awf.ids)
    exact this
  · intro p hp
    obtain ⟨e, he, rfl⟩ := ht.clean.last p (by rw [← hr.rep.last]; exact hp)
    exact ⟨e.node, hr.rep.map.mem_iff.2 (List.mem_map.2 ⟨e, he, rfl⟩), rfl⟩

/-- What has become of an entry. -/
theorem Evolves.same {t t' : St (MCache K V) K V} (h : Evolves O t t') (ht : Ok t) {e e' : Ent K V}
    (he : e ∈ t.c.ents) (he' : e' ∈ t'.c.ents) (hid : e'.id = e.id) : SameEnt e e' := by
  rcases h.ents e' he' with ⟨y, hy, hye⟩ | ⟨h1, -⟩
  · have : y = e := map_inj_of_nodup ht.awf.ids y hy e he (hye.id.trans hid)
    exact this ▸ hye
  · have := (ht.awf.lt e he).1
    have h1' : t.g.next ≤ e'.id := h1
    have hid' : e'.id = e.id := hid
    rw [hid'] at h1'
    exact absurd this (Nat.not_lt.2 h1')

variable [DecidableEq V] {d : Nat} {busy : List CbList} {k : K}

/-- Outcomes of a `find` whose callbacks use the cache. -/
theorem findR_found (hO : NoListFault O) (hr : Rel s t) (ht : Ok t) {p : Ptr}
    (h : Impl.findR O F (Impl.stepR O F d) busy k s = .ok (some p) s') :
    ∃ e t2 e2, t.c.ents.find? (fun x => keq x.key k) = some e ∧ e.id = p ∧ Ok t2 ∧ Evolves O t t2 ∧ e2 ∈ t2.c.ents ∧
      SameEnt e e2 ∧ Rel s' ⟨t2.c.touch e2, t2.g⟩ := by
  unfold Impl.findR at h
  have hf : Impl.mapFind k s = .ok ((t.c.ents.find? (fun x => keq x.key k)).map Ent.node) s := by
    unfold Impl.mapFind
    rw [hr.rep.find_key hr.awf]
  rw [bind_ok hf] at h
  cases he : t.c.ents.find? (fun x => keq x.key k) with
  | none =>
    rw [he] at h
    obtain ⟨_, s1, _, h2⟩ := bind_ok_inv h
    cases h2
  | some e =>
    rw [he] at h
    obtain ⟨b, s1, h1, h2⟩ := bind_ok_inv h
    cases b with
    | true =>
      obtain ⟨_, s1, _, h2⟩ := bind_ok_inv h2
      cases h2
    | false =>
      obtain ⟨_, s2, h3, h4⟩ := bind_ok_inv h2
      obtain ⟨_, s3, h5, h6⟩ := bind_ok_inv h4
      have h6' : (Out.ok (some e.id) s3 : Out (St (Cache K V) K V) (Option Ptr)) = .ok (some p) s' := h6
      injection h6' with h7 h8
      injection h7 with h7
      subst h7 h8
      obtain ⟨hm, hk⟩ := find_mem he
      obtain ⟨t1, hr1, ht1, e1⟩ := (hasExpiredInfo_still.goes (evolves_elem (O := O))).ok hr ht h1
      obtain ⟨t2, hr2, ht2, e2⟩ :=
        (registerHitR_goes (evolves_elem (O := O)) (stepR_goes evolves_elem hO d)).ok hr1 ht1 h3
      have hev := e1.trans e2
      have hsim := touchR_sim (p := e.id) s2 t2 hr2 trivial
      have h5' : Impl.touchR e.id s2 = .ok () s3 := h5
      rw [h5'] at hsim
      by_cases hin : e.id ∈ t2.c.ents.map (·.id)
      · obtain ⟨x, hx, hid⟩ := List.mem_map.1 hin
        rw [← hid, touchR_own ht2 hx] at hsim
        exact ⟨e, t2, x, rfl, rfl, ht2, hev, hx, hev.same ht hm hx hid, hsim.2.1⟩
      · rw [touchR_not hin] at hsim
        exact hsim.elim

theorem findR_missed (hr : Rel s t) (hk : s.c.kind = .basic)
    (h : Impl.findR O F (Impl.stepR O F d) busy k s = .ok none s') :
    t.c.ents.find? (fun x => keq x.key k) = none ∧
      Impl.registerMissR O F (Impl.stepR O F d) busy k s = .ok () s' := by
  unfold Impl.findR at h
  have hf : Impl.mapFind k s = .ok ((t.c.ents.find? (fun x => keq x.key k)).map Ent.node) s := by
    unfold Impl.mapFind
    rw [hr.rep.find_key hr.awf]
  rw [bind_ok hf] at h
  cases he : t.c.ents.find? (fun x => keq x.key k) with
  | none =>
    rw [he] at h
    obtain ⟨_, s1, h1, h2⟩ := bind_ok_inv h
    have h2' : (Out.ok none s1 : Out (St (Cache K V) K V) (Option Ptr)) = .ok none s' := h2
    injection h2' with _ h3
    subst h3
    exact ⟨rfl, h1⟩
  | some e =>
    rw [he] at h
    obtain ⟨b, s1, h1, h2⟩ := bind_ok_inv h
    have hb : Impl.hasExpiredInfo O e.node.info.time s = .ok false s := by
      unfold Impl.hasExpiredInfo
      rw [bind_ok (show Impl.getKind s = .ok .basic s by unfold Impl.getKind; rw [hk])]
      rfl
    rw [hb] at h1
    injection h1 with h1
    subst h1
    obtain ⟨_, s2, h3, h4⟩ := bind_ok_inv h2
    obtain ⟨_, s3, h5, h6⟩ := bind_ok_inv h4
    cases h6

end hits

/-! ### Histories -/

section history

variable [DecidableEq V] {s s' : St (Cache K V) K V}

theorem RHistory.goes (hO : NoListFault O) {t : St (MCache K V) K V} (hr : Rel s t) (ht : Ok t)
    (h : RHistory O F s s') : ∃ t', Rel s' t' ∧ Ok t' ∧ Evolves O t t' := by
  induction h with
  | nil => exact ⟨t, hr, ht, evolves_elem.refl ht⟩
  | returns _ h ih =>
    obtain ⟨t1, hr1, ht1, e1⟩ := ih
    obtain ⟨d, h⟩ := h
    obtain ⟨t2, hr2, ht2, e2⟩ := (stepR_goes (evolves_elem (O := O)) hO d [] _).ok hr1 ht1 h
    exact ⟨t2, hr2, ht2, e1.trans e2⟩
  | throws _ h ih =>
    obtain ⟨t1, hr1, ht1, e1⟩ := ih
    obtain ⟨d, h⟩ := h
    obtain ⟨t2, hr2, ht2, e2⟩ := (stepR_goes (evolves_elem (O := O)) hO d [] _).throw hr1 ht1 h
    exact ⟨t2, hr2, ht2, e1.trans e2⟩

theorem RReachable.rel (hO : NoListFault O) (h : RReachable O F s) : ∃ t, Rel s t ∧ Ok t := by
  obtain ⟨s0, h0, hh⟩ := h
  obtain ⟨t0, hr0, ht0⟩ := h0.rel hO
  obtain ⟨t, hr, ht, _⟩ := hh.goes hO hr0 ht0
  exact ⟨t, hr, ht⟩

end history

/-! ### Lookups -/

section lookups

variable [DecidableEq V] {s s' : St (Cache K V) K V} {t : St (MCache K V) K V} {d : Nat} {busy : List CbList} {k : K}

theorem ext_elem : Elem O (fun t t' : St (MCache K V) K V => t'.g.ext = t.g.ext) where
  trans h h' := h'.trans h
  shared _ hg := hg.ext
  touch _ _ hg := hg.ext
  prune _ _ := rfl
  insert := by
    intro t k v o h ho
    cases ho with
    | unset _ => trivial
    | zero _ => rfl
    | fault g' _ _ _ _ q => exact q.ext
    | full g' e r n hf hc hl hr q => exact q.ext
    | room g' n q hf hc hl qu => exact qu.ext
    | update g' e n hf hc q => exact q.ext
    | updateFault g' e m n hf hc q => exact q.ext
  cap _ _ := rfl
  obs _ hg := hg.ext
  setVal _ := rfl

theorem lastIs_ok (hc : Firm s.c) : ∃ b, Impl.lastIs k s = .ok b s := by
  unfold Impl.lastIs
  rw [bind_ok (show Impl.getLast s = .ok s.c.last s from rfl)]
  cases hl : s.c.last with
  | none => exact ⟨_, rfl⟩
  | some p =>
    obtain ⟨m, hm, rfl⟩ := hc.last p hl
    simp only
    rw [bind_ok (deref_mem hc hm)]
    exact ⟨_, rfl⟩

theorem lastIs_true (hc : Firm s.c) {s1 : St (Cache K V) K V} (h : Impl.lastIs k s = .ok true s1) :
    s1 = s ∧ ∃ n ∈ s.c.map, s.c.last = some n.addr ∧ keq k n.key = true := by
  unfold Impl.lastIs at h
  rw [bind_ok (show Impl.getLast s = .ok s.c.last s from rfl)] at h
  cases hl : s.c.last with
  | none => rw [hl] at h; cases h
  | some p =>
    rw [hl] at h
    obtain ⟨n, hn, rfl⟩ := hc.last p hl
    simp only at h
    rw [bind_ok (deref_mem hc hn)] at h
    have h' : (Out.ok (keq k n.key) s : Out (St (Cache K V) K V) Bool) = .ok true s1 := h
    injection h' with h1 h2
    exact ⟨h2.symm, n, hn, rfl, h1⟩

theorem lastNode_last (hc : Firm s.c) {n : MapNode K V} (hn : n ∈ s.c.map) (hl : s.c.last = some n.addr) :
    Impl.lastNode s = .ok n s := by
  unfold Impl.lastNode
  rw [bind_ok (show Impl.getLast s = .ok s.c.last s from rfl), hl]
  exact deref_mem hc hn

theorem valueForLastAccessed_last (hc : Firm s.c) {n m : MapNode K V} (hn : n ∈ s.c.map)
    (hl : s.c.last = some n.addr) {s1 : St (Cache K V) K V} (h : Impl.valueForLastAccessed O s = .ok m s1) : m = n := by
  unfold Impl.valueForLastAccessed at h
  rw [bind_ok (lastNode_last hc hn hl), bind_ok (show Impl.getKind s = .ok s.c.kind s from rfl)] at h
  cases hk : s.c.kind with
  | basic =>
    rw [hk] at h
    have h' : (Out.ok n s : Out (St (Cache K V) K V) (MapNode K V)) = .ok m s1 := h
    injection h' with h1
    exact h1.symm
  | timed ttl res =>
    rw [hk] at h
    obtain ⟨b, s3, h5, h6⟩ := bind_ok_inv h
    cases b with
    | true => cases h6
    | false =>
      have h6' : (Out.ok n s3 : Out (St (Cache K V) K V) (MapNode K V)) = .ok m s1 := h6
      injection h6' with h7
      exact h7.symm

/-- The node with a given address, when the address was that of an entry before. -/
theorem deref_again {R : Impl.CM K V Unit} (hR : ∀ {Q}, Elem O Q → Goes Q R)
    (hr : Rel s t) (ht : Ok t) {e : Ent K V} (he : e ∈ t.c.ents) {s2 : St (Cache K V) K V} (h2 : R s = .ok () s2)
    {n : MapNode K V} {s3 : St (Cache K V) K V} (h3 : Impl.deref e.id s2 = .ok n s3) :
    s3 = s2 ∧ ∃ t2 e2, Rel s2 t2 ∧ Ok t2 ∧ Evolves O t t2 ∧ e2 ∈ t2.c.ents ∧ SameEnt e e2 ∧ n = e2.node := by
  obtain ⟨t2, hr2, ht2, hev⟩ := (hR (evolves_elem (O := O))).ok hr ht h2
  obtain ⟨t2', hr2', _, hext⟩ := (hR (ext_elem (O := O))).ok hr ht h2
  have hext : t2.g.ext = t.g.ext := by rw [← hr2.g, hr2'.g]; exact hext
  unfold Impl.deref at h3
  rw [hr2.rep.find_addr hr2.awf] at h3
  cases hf : t2.c.ents.find? (fun x => x.id == e.id) with
  | some e2 =>
    rw [hf] at h3
    have h3' : (Out.ok e2.node s2 : Out (St (Cache K V) K V) (MapNode K V)) = .ok n s3 := h3
    injection h3' with h4 h5
    have hm := List.mem_of_find?_eq_some hf
    have hid : e2.id = e.id := by simpa using List.find?_some hf
    exact ⟨h5.symm, t2, e2, hr2, ht2, hev, hm, hev.same ht he hm hid, h4.symm⟩
  | none =>
    rw [hf] at h3
    simp only [Option.map_none] at h3
    rw [hr2.g, hext] at h3
    cases hx : t.g.ext.find? (fun n => n.addr == e.id) with
    | none => rw [hx] at h3; cases h3
    | some x =>
      have h6 := List.mem_of_find?_eq_some hx
      have h7 : x.addr = e.id := by simpa using List.find?_some hx
      exact absurd h7 (ht.awf.extDisj e he x h6)

theorem lookupR_found (hO : NoListFault O) (hr : Rel s t) (ht : Ok t) {p : Ptr} {v : V}
    (h : Impl.lookupR O F (Impl.stepR O F d) busy k s = .ok (p, v) s') :
    ∃ e t2 e2, t.c.ents.find? (fun x => keq x.key k) = some e ∧ e.id = p ∧ Rel s' t2 ∧ Ok t2 ∧ Evolves O t t2 ∧
      e2 ∈ t2.c.ents ∧ SameEnt e e2 ∧ e2.val = v := by
  have hc := hr.firm ht
  unfold Impl.lookupR at h
  obtain ⟨b, s1, h1, h2⟩ := bind_ok_inv h
  cases b with
  | true =>
    obtain ⟨rfl, n, hn, hl, hk⟩ := lastIs_true hc h1
    obtain ⟨m, s2, h3, h4⟩ := bind_ok_inv h2
    have hm := valueForLastAccessed_last hc hn hl h3
    subst hm
    obtain ⟨_, s3, h5, h6⟩ := bind_ok_inv h4
    obtain ⟨n', s4, h7, h8⟩ := bind_ok_inv h6
    have h8' : (Out.ok (m.addr, n'.info.value) s4 : Out (St (Cache K V) K V) (Ptr × V)) = .ok (p, v) s' := h8
    injection h8' with h9 h10
    injection h9 with h9 h11
    subst h9 h10 h11
    obtain ⟨e, he, rfl⟩ := List.mem_map.1 (hr.rep.map.mem_iff.1 hn)
    obtain ⟨t1, hr1, ht1, e1⟩ := (valueForLastAccessed_still.goes (evolves_elem (O := O))).ok hr ht h3
    have hs2 := valueForLastAccessed_still (O := O) s1
    rw [h3] at hs2
    have he1 : e ∈ (⟨t.c, s2.g⟩ : St (MCache K V) K V).c.ents := he
    obtain ⟨rfl, t2, e2, hr2, ht2, hev, hm2, hse, rfl⟩ := deref_again (O := O)
      (R := Impl.registerHitR O F (Impl.stepR O F d) busy k e.node.addr)
      (fun hQ => registerHitR_goes hQ (stepR_goes hQ hO d)) (hr.shared hs2.1 hs2.2) (ht.shared hr hs2.2) he1 h5 h7
    refine ⟨e, t2, e2, ht.findKey he ?_, rfl, hr2, ht2, ?_, hm2, hse, rfl⟩
    · rw [KeyEqual.symm]; exact hk
    · exact (evolves_elem.shared ht (hr.g ▸ hs2.2)).trans hev
  | false =>
    obtain ⟨it, s2, h3, h4⟩ := bind_ok_inv h2
    have hs1 := lastIs_still (k := k) s
    rw [h1] at hs1
    have hr1 := hr.shared hs1.1 hs1.2
    have ht1 := ht.shared hr hs1.2
    cases it with
    | none => cases h4
    | some q =>
      obtain ⟨n, s3, h5, h6⟩ := bind_ok_inv h4
      have h6' : (Out.ok (n.addr, n.info.value) s3 : Out (St (Cache K V) K V) (Ptr × V)) = .ok (p, v) s' := h6
      injection h6' with h7 h8
      injection h7 with h7 h9
      subst h7 h8 h9
      obtain ⟨e, t2, e2, hf, rfl, ht2, hev, hm2, hse, hr2⟩ := findR_found hO hr1 ht1 h3
      have hs3 := entryU_still (O := O) (it := some e.id) s2
      rw [h5] at hs3
      unfold Impl.entryU at h5
      obtain ⟨n', s4, h10, h11⟩ := bind_ok_inv h5
      obtain ⟨_, s5, h12, h13⟩ := bind_ok_inv h11
      have h13' : (Out.ok n' s5 : Out (St (Cache K V) K V) (MapNode K V)) = .ok n s3 := h13
      injection h13' with h14 h15
      subst h14 h15
      have htt := ht2.touch hm2
      have hm3 : e2 ∈ (t2.c.touch e2).ents := (toEnd_perm ht2 hm2).mem_iff.2 hm2
      have hf2 : s2.c.map.find? (fun n => n.addr == e.id) = some e2.node := by
        have h16 := hr2.rep.find_addr hr2.awf e2.id
        rw [show (t2.c.touch e2).ents.find? (fun x => x.id == e2.id) = some e2 from htt.findId hm3] at h16
        rw [hse.id]
        exact h16
      have h17 : Impl.derefIt (some e.id) s2 = .ok e2.node s2 := by
        unfold Impl.derefIt
        simp only
        rw [hf2]
      rw [h17] at h10
      injection h10 with h18 h19
      subst h18
      refine ⟨e, _, e2, hf, hse.id, hr2.shared hs3.1 hs3.2, htt.shared hr2 hs3.2, ?_, hm3, hse, rfl⟩
      have a1 : Evolves O t ⟨t.c, s1.g⟩ := evolves_elem.shared ht (hr.g ▸ hs1.2)
      have a2 : Evolves O t2 ⟨t2.c.touch e2, t2.g⟩ := evolves_elem.touch ht2 hm2 (Tame.refl _)
      have a3 : Evolves O (⟨t2.c.touch e2, t2.g⟩ : St (MCache K V) K V) ⟨t2.c.touch e2, s5.g⟩ :=
        evolves_elem.shared htt (hr2.g ▸ hs3.2)
      exact ((a1.trans hev).trans a2).trans a3

end lookups

/-! ### Loading on a miss -/

section load

variable [DecidableEq V] {s : St (Cache K V) K V} {t : St (MCache K V) K V} {k : K} {f : K → V}

theorem attempt_calm (hC : Calm O) (site : Site) (s : St (Cache K V) K V) :
    ∃ s', attempt O site s = .ok () s' ∧ s'.c = s.c ∧ Tame s.g s'.g := by
  refine ⟨{ s with g := { s.g with steps := s.g.steps + 1 } }, ?_, rfl, rfl, Nat.le_refl _, Nat.le_refl _⟩
  show (if O.fails site s.g.steps = true then _ else _) = _
  rw [hC]
  rfl

theorem callEachR_cons {call : Op K V → Impl.CM K V (Res K V)} {ev : Nat → Impl.CM K V (Event K V)} (cb : Nat)
    (l : List Nat) : Impl.callEachR O F call ev (cb :: l) =
      (do
        let e ← ev cb
        emit e
        Impl.runScript call (F e)
        attempt O (.callback cb)
        Impl.callEachR O F call ev l) :=
  rfl

theorem callEachR_done (hC : Calm O) {call : Op K V → Impl.CM K V (Res K V)} {ev : Nat → Event K V}
    (hF : ∀ cb, F (ev cb) = .done) (l : List Nat) (s : St (Cache K V) K V) :
    ∃ s', Impl.callEachR O F call (fun cb => pure (ev cb)) l s = .ok () s' ∧ s'.c = s.c ∧ Tame s.g s'.g := by
  induction l generalizing s with
  | nil => exact ⟨s, rfl, rfl, Tame.refl _⟩
  | cons cb rest ih =>
    rw [callEachR_cons]
    rw [bind_ok (show (pure (ev cb) : Impl.CM K V _) s = .ok (ev cb) s from rfl)]
    have h1 := emit_still (e := ev cb) s
    rw [bind_ok (show (emit (ev cb) : Impl.CM K V Unit) s = .ok () _ from rfl)]
    rw [hF cb, bind_ok (show Impl.runScript call .done _ = .ok () _ from rfl)]
    obtain ⟨s2, h2, h3, h4⟩ := attempt_calm hC (.callback cb) { s with g := { s.g with log := s.g.log ++ [ev cb] } }
    rw [bind_ok h2]
    obtain ⟨s3, h5, h6, h7⟩ := ih s2
    refine ⟨s3, h5, h6.trans h3, ?_⟩
    have h8 : Tame s.g { s.g with log := s.g.log ++ [ev cb] } := ⟨rfl, Nat.le_refl _, Nat.le_refl _⟩
    exact h8.trans (h4.trans h7)

/-- A miss whose callback stores the missing key. -/
theorem registerMissR_load (hC : Calm O) (hr : Rel s t) (ht : Ok t) {cb n : Nat} (hcb : s.c.obs.missCbs = [cb])
    (hf : t.c.ents.find? (fun x => keq x.key k) = none) (hcap : t.c.cap = some (n + 1)) (d : Nat) :
    ∃ s' t' x, Impl.registerMissR O (loadOnMiss f) (Impl.stepR O (loadOnMiss f) (d + 1)) [] k s = .ok () s' ∧
      Rel s' t' ∧ Ok t' ∧ x.key = k ∧ x.val = f k ∧
      t'.c.ents = t.c.ents.drop (t.c.ents.length - n) ++ [x] ∧ t'.c.cap = t.c.cap ∧ t'.c.obs = t.c.obs ∧
      t'.c.kind = t.c.kind := by
  unfold Impl.registerMissR
  rw [bind_ok (show Impl.getObs s = .ok s.c.obs s from rfl)]
  have h1 : ∃ s1, (countMiss s.c.obs k : Impl.CM K V Unit) s = .ok () s1 ∧ s1.c = s.c ∧ Tame s.g s1.g := by
    unfold countMiss
    cases s.c.obs.stats with
    | none => exact ⟨s, rfl, rfl, Tame.refl _⟩
    | some i => exact ⟨_, rfl, rfl, rfl, Nat.le_refl _, Nat.le_refl _⟩
  obtain ⟨s1, h1, hc1, hg1⟩ := h1
  rw [bind_ok h1, hcb]
  rw [callEachR_cons]
  rw [bind_bind, bind_ok (show (pure (Event.miss cb k) : Impl.CM K V _) s1 = .ok (.miss cb k) s1 from rfl), bind_bind,
    bind_ok (show (emit (.miss cb k) : Impl.CM K V Unit) s1 = .ok () { s1 with g := { s1.g with log := s1.g.log ++ [.miss cb k] } } from rfl)]
  generalize hs2 : ({ s1 with g := { s1.g with log := s1.g.log ++ [.miss cb k] } } : St (Cache K V) K V) = s2
  have hc2 : s2.c = s.c := by rw [← hs2]; exact hc1
  have hg2 : Tame s.g s2.g := by rw [← hs2]; exact hg1.trans ⟨rfl, Nat.le_refl _, Nat.le_refl _⟩
  have hr2 := hr.shared hc2 hg2
  have ht2 := ht.shared hr hg2
  generalize ht2' : (⟨t.c, s2.g⟩ : St (MCache K V) K V) = t2 at hr2 ht2
  have hc2' : t2.c = t.c := by rw [← ht2']
  have ho := insert_out (O := O) ht2 hC.noListFault k (f k)
  have hi : ∃ b p t3 x, Mid.insert O k (f k) t2 = .ok (b, p) t3 ∧ x.key = k ∧ x.val = f k ∧
      t3.c.ents = t.c.ents.drop (t.c.ents.length - n) ++ [x] ∧ t3.c.cap = t.c.cap ∧ t3.c.obs = t.c.obs ∧
      t3.c.kind = t.c.kind := by
    generalize Mid.insert O k (f k) t2 = o at ho
    cases ho with
    | unset h => rw [hc2', hcap] at h; cases h
    | zero h => rw [hc2', hcap] at h; cases h
    | fault g' site m _ _ _ _ h => rw [hC] at h; cases h
    | full g' e r m hf hcm hl hrn q =>
      rw [hc2'] at hcm hl
      rw [hcap] at hcm
      injection hcm with hcm
      have : m = n := by omega
      subst this
      refine ⟨_, _, _, ⟨t2.g.next, e.slot, k, f k, t2.c.kind.stamp (O.clock t2.g.ticks), some e.slot⟩, rfl, rfl, rfl, ?_, by rw [hc2'], by rw [hc2'], by rw [hc2']⟩
      rw [hl]
      simp [hrn]
    | room g' m q hf hcm hl qu =>
      rw [hc2'] at hcm hl
      rw [hcap] at hcm
      injection hcm with hcm
      refine ⟨_, _, _, ⟨t2.g.next, q, k, f k, t2.c.kind.stamp (O.clock t2.g.ticks), some q⟩, rfl, rfl, rfl, ?_, by rw [hc2'], by rw [hc2'], by rw [hc2']⟩
      rw [hc2', show t.c.ents.length - n = 0 by omega]
      rfl
    | update g' e m hfe => rw [hc2', hf] at hfe; cases hfe
    | updateFault g' e m m' hfe => rw [hc2', hf] at hfe; cases hfe
  obtain ⟨b, p, t3, x, hi, hk, hv, he, h4, h5, h6⟩ := hi
  have hsim := insert_sim hC.noListFault (k := k) (v := f k) s2 t2 hr2 trivial
  have hkeep := insert_keeps hC.noListFault (k := k) (v := f k) t2 ht2
  rw [hi] at hsim hkeep
  obtain ⟨s3, hs3, hr3⟩ : ∃ s3, Impl.insert O k (f k) s2 = .ok (b, p) s3 ∧ Rel s3 t3 := by
    cases hx : Impl.insert O k (f k) s2 with
    | ok a s3 =>
      rw [hx] at hsim
      exact ⟨s3, by rw [show a = (b, p) from hsim.1], hsim.2.1⟩
    | throw e s3 => rw [hx] at hsim; exact hsim.elim
    | ub => rw [hx] at hsim; exact hsim.elim
    | terminate => rw [hx] at hsim; exact hsim.elim
    | diverge => rw [hx] at hsim; exact hsim.elim
  have hrun : Impl.runScript (Impl.stepR O (loadOnMiss f) (d + 1) [.miss]) (loadOnMiss f (.miss cb k)) s2 = .ok () s3 := by
    have hstep : Impl.stepR O (loadOnMiss f) (d + 1) [.miss] (.insert k (f k)) s2 = .ok (.inserted b p) s3 := by
      rw [Impl.stepR]
      exact bind_ok hs3
    show Impl.runScript _ (.call (.insert k (f k)) fun _ => .done) s2 = _
    unfold Impl.runScript
    rw [hstep]
    rfl
  rw [bind_bind, bind_ok hrun, bind_bind]
  obtain ⟨s4, h7, h8, h9⟩ := attempt_calm hC (.callback cb) s3
  rw [bind_ok h7]
  rw [bind_ok (show Impl.callEachR O (loadOnMiss f) _ _ [] s4 = .ok () s4 from rfl),
    bind_ok (show Impl.getObs s4 = .ok s4.c.obs s4 from rfl)]
  obtain ⟨s5, h10, h11, h12⟩ := callEachR_done hC (F := loadOnMiss f)
    (call := Impl.stepR O (loadOnMiss f) (d + 1) [.access]) (ev := fun cb => .access cb k false) (fun _ => rfl)
    s4.c.obs.accCbs s4
  exact ⟨s5, _, x, h10, hr3.shared (h11.trans h8) (h9.trans h12), hkeep.ok.shared hr3 (h9.trans h12), hk, hv, he, h4, h5, h6⟩

end load

/-! ### Callbacks that access the same key again -/

section forever

variable [DecidableEq V] {c : Cache K V} {k : K} {cb : Nat} {rest : List Nat}

theorem registerHitR_forever (hc : Firm c) (hcb : c.obs.hitCbs = cb :: rest)
    (hF : ∀ v, ∃ op next, F (.hit cb k v) = .call op next ∧ op.Accesses k)
    {call : List CbList → Op K V → Impl.CM K V (Res K V)}
    (ih : ∀ busy op s, op.Accesses k → s.c = c → call busy op s = .diverge) {n : MapNode K V} (hn : n ∈ c.map)
    (busy : List CbList) {s : St (Cache K V) K V} (hs : s.c = c) :
    Impl.registerHitR O F call busy k n.addr s = .diverge := by
  unfold Impl.registerHitR
  rw [bind_ok (show Impl.getObs s = .ok s.c.obs s from rfl)]
  have h1 : ∃ s1, (countHit s.c.obs k : Impl.CM K V Unit) s = .ok () s1 ∧ s1.c = s.c := by
    unfold countHit
    cases s.c.obs.stats with
    | none => exact ⟨s, rfl, rfl⟩
    | some i => exact ⟨_, rfl, rfl⟩
  obtain ⟨s1, h1, hc1⟩ := h1
  rw [hs] at hc1
  rw [bind_ok h1, hs, hcb]
  refine bind_diverge ?_
  rw [callEachR_cons, bind_bind, bind_ok (deref_mem (s := s1) (hc1.symm ▸ hc) (n := n) (hc1.symm ▸ hn)),
    bind_ok (show (pure (Event.hit cb k n.info.value) : Impl.CM K V _) s1 = .ok (.hit cb k n.info.value) s1 from rfl),
    bind_ok (show (emit (.hit cb k n.info.value) : Impl.CM K V Unit) s1 =
      .ok () { s1 with g := { s1.g with log := s1.g.log ++ [.hit cb k n.info.value] } } from rfl)]
  refine bind_diverge ?_
  obtain ⟨op, next, h2, h3⟩ := hF n.info.value
  rw [h2]
  have h4 := ih (.hit :: busy) op { s1 with g := { s1.g with log := s1.g.log ++ [.hit cb k n.info.value] } } h3 hc1
  unfold Impl.runScript
  rw [h4]

theorem stepR_forever (hc : Firm c) (hk : c.kind = .basic) (hcb : c.obs.hitCbs = cb :: rest)
    (hF : ∀ v, ∃ op next, F (.hit cb k v) = .call op next ∧ op.Accesses k) {n : MapNode K V}
    (hf : c.map.find? (fun x => keq x.key k) = some n) (d : Nat) (busy : List CbList) (op : Op K V)
    (s : St (Cache K V) K V) (hop : op.Accesses k) (hs : s.c = c) : Impl.stepR O F d busy op s = .diverge := by
  induction d generalizing busy op s with
  | zero => rfl
  | succ d ih =>
    have hbasic : ∀ s : St (Cache K V) K V, s.c = c → Impl.getKind s = .ok .basic s := by
      intro s hs
      unfold Impl.getKind
      rw [hs, hk]
    have hfind : ∀ s : St (Cache K V) K V, s.c = c → Impl.findR O F (Impl.stepR O F d) busy k s = .diverge := by
      intro s hs
      unfold Impl.findR
      rw [bind_ok (show Impl.mapFind k s = .ok (some n) s by unfold Impl.mapFind; rw [hs, hf])]
      simp only
      rw [bind_ok (show Impl.hasExpiredInfo O n.info.time s = .ok false s by
        unfold Impl.hasExpiredInfo
        rw [bind_ok (hbasic s hs)]
        rfl)]
      exact bind_diverge (registerHitR_forever hc hcb hF ih (List.mem_of_find?_eq_some hf) busy hs)
    obtain ⟨b, hb⟩ := lastIs_ok (s := s) (k := k) (hs.symm ▸ hc)
    rw [Impl.stepR]
    rcases hop with rfl | rfl | rfl
    · rw [if_neg (by induction busy <;> simp_all [Op.registers])]
      refine bind_diverge ?_
      unfold Impl.containsR
      rw [bind_ok hb]
      cases b with
      | true =>
        obtain ⟨-, m, hm, hl, -⟩ := lastIs_true (s := s) (hs.symm ▸ hc) hb
        simp only [if_true]
        rw [bind_ok (show Impl.lastAccessedIsOk O s = .ok true s by
          unfold Impl.lastAccessedIsOk
          rw [bind_ok (hbasic s hs)]
          rfl)]
        simp only [if_true]
        rw [bind_ok (lastNode_last (s := s) (hs.symm ▸ hc) hm hl)]
        exact bind_diverge (registerHitR_forever hc hcb hF ih (hs ▸ hm) busy hs)
      | false => exact bind_diverge (hfind s hs)
    · rw [if_neg (by induction busy <;> simp_all [Op.registers])]
      exact bind_diverge (hfind s hs)
    · rw [if_neg (by induction busy <;> simp_all [Op.registers])]
      refine bind_diverge ?_
      unfold Impl.lookupR
      rw [bind_ok hb]
      cases b with
      | true =>
        obtain ⟨-, m, hm, hl, -⟩ := lastIs_true (s := s) (hs.symm ▸ hc) hb
        simp only [if_true]
        rw [bind_ok (show Impl.valueForLastAccessed O s = .ok m s by
          unfold Impl.valueForLastAccessed
          rw [bind_ok (lastNode_last (s := s) (hs.symm ▸ hc) hm hl), bind_ok (hbasic s hs)]
          rfl)]
        exact bind_diverge (registerHitR_forever hc hcb hF ih (hs ▸ hm) busy hs)
      | false => exact bind_diverge (hfind s hs)

end forever

end LRU
