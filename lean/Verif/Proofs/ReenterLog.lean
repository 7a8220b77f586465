import Verif.Proofs.ReenterTrace
/-!
# The log of callbacks that use the cache: proofs

Whatever the callbacks do, the log only grows, and the first new event is that of the first callback that is due.
-/

set_option autoImplicit false
set_option linter.unusedSectionVars false

namespace LRU

variable {K V : Type} [KeyEqual K] [DecidableEq K] [DecidableEq V] {O : Oracle K V} {F : Event K V → Script K V}
variable {s s' s1 s2 : St (Cache K V) K V} {k : K} {α β : Type}

/-- The log only grows. -/
def Longer (s s' : St (Cache K V) K V) : Prop := s.g.log <+: s'.g.log

/-- The program only adds to the log. -/
def Adds (m : Impl.CM K V α) : Prop := ∀ s, (m s).Post (Longer s)

theorem Adds.bind {m : Impl.CM K V α} {f : α → Impl.CM K V β} (h : Adds m) (h' : ∀ a, Adds (f a)) :
    Adds (m >>= f) := by
  intro s
  have h1 := h s
  show (M.bind m f s).Post _
  unfold M.bind
  cases hm : m s with
  | ok a s' =>
    rw [hm] at h1
    exact (h' a s').imp fun _ h2 => List.IsPrefix.trans h1 h2
  | throw e s' => rw [hm] at h1; exact h1
  | _ => trivial

theorem Quietly.adds {m : Impl.CM K V α} (h : Quietly m) : Adds m :=
  fun s => (h s).imp fun s' h' => by
    show s.g.log <+: s'.g.log
    rw [Silent.log h']
    exact List.prefix_rfl

theorem Adds.pure {a : α} : Adds (Pure.pure a : Impl.CM K V α) := Quietly.pure.adds

theorem Adds.ite {c : Prop} [Decidable c] {m m' : Impl.CM K V α} (h : Adds m) (h' : Adds m') :
    Adds (if c then m else m') := by
  split <;> assumption

theorem emit_adds {e : Event K V} : Adds (emit e : Impl.CM K V Unit) := fun _ => List.prefix_append _ _

theorem countHit_adds {o : Obs} : Adds (countHit o k : Impl.CM K V Unit) := by
  intro s
  unfold countHit
  cases o.stats <;> exact List.prefix_rfl

theorem countMiss_adds {o : Obs} : Adds (countMiss o k : Impl.CM K V Unit) := by
  intro s
  unfold countMiss
  cases o.stats <;> exact List.prefix_rfl

theorem runScript_adds {call : Op K V → Impl.CM K V (Res K V)} (hc : ∀ op, Adds (call op)) (p : Script K V) :
    Adds (Impl.runScript call p) := by
  induction p with
  | done => exact .pure
  | call op next ih =>
    intro s
    unfold Impl.runScript
    have h1 := hc op s
    cases ho : call op s with
    | ok r s' => rw [ho] at h1; exact (ih _ s').imp fun _ h2 => List.IsPrefix.trans h1 h2
    | throw e s' => rw [ho] at h1; exact (ih _ s').imp fun _ h2 => List.IsPrefix.trans h1 h2
    | _ => trivial

theorem callEachR_adds {call : Op K V → Impl.CM K V (Res K V)} (hc : ∀ op, Adds (call op))
    {ev : Nat → Impl.CM K V (Event K V)} (hev : ∀ cb, Adds (ev cb)) (l : List Nat) :
    Adds (Impl.callEachR O F call ev l) := by
  induction l with
  | nil => exact .pure
  | cons cb rest ih =>
    rw [callEachR_cons]
    exact (hev cb).bind fun _ => emit_adds.bind fun _ => (runScript_adds hc _).bind fun _ =>
      Quietly.attempt.adds.bind fun _ => ih

/-- The first new event is this one, if any. -/
def Opens (o : Option (Event K V)) (s s' : St (Cache K V) K V) : Prop :=
  ∃ evs, s'.g.log = s.g.log ++ evs ∧ evs.head? = o

theorem Opens.longer {e : Event K V} (h : Opens (some e) s s1) (h' : Longer s1 s') : Opens (some e) s s' := by
  obtain ⟨evs, h1, h2⟩ := h
  obtain ⟨l, hl⟩ := h'
  refine ⟨evs ++ l, by rw [← hl, h1, List.append_assoc], ?_⟩
  cases evs with
  | nil => cases h2
  | cons a evs => exact h2

theorem Opens.none (h : Opens none s s') : s'.g.log = s.g.log := by
  obtain ⟨evs, h1, h2⟩ := h
  cases evs with
  | nil => rw [h1, List.append_nil]
  | cons a evs => cases h2

theorem Opens.same {o : Option (Event K V)} (h : s1.g.log = s.g.log) (h' : Opens o s1 s') : Opens o s s' := by
  obtain ⟨evs, h1, h2⟩ := h'
  exact ⟨evs, by rw [h1, h], h2⟩

theorem Opens.then {o : Option (Event K V)} (h : Opens o s s1) (h' : s'.g.log = s1.g.log) : Opens o s s' := by
  obtain ⟨evs, h1, h2⟩ := h
  exact ⟨evs, by rw [h', h1], h2⟩

/-- Everything after the first event adds to the log. -/
theorem callEachR_opens {call : Op K V → Impl.CM K V (Res K V)} (hc : ∀ op, Adds (call op))
    {ev : Nat → Impl.CM K V (Event K V)} (hev : ∀ cb, Adds (ev cb)) {cb : Nat} {l : List Nat} {e : Event K V}
    (he : ev cb s = .ok e s) : (Impl.callEachR O F call ev (cb :: l) s).Post (Opens (some e) s) := by
  rw [callEachR_cons, bind_ok he]
  rw [bind_ok (show (emit e : Impl.CM K V Unit) s = .ok () ⟨s.c, { s.g with log := s.g.log ++ [e] }⟩ from rfl)]
  have h : Opens (some e) s ⟨s.c, { s.g with log := s.g.log ++ [e] }⟩ := ⟨[e], rfl, rfl⟩
  exact (((runScript_adds hc _).bind fun _ => Quietly.attempt.adds.bind fun _ => callEachR_adds hc hev l) _).imp
    fun _ h' => h.longer h'

section register

variable {call : List CbList → Op K V → Impl.CM K V (Res K V)} {busy : List CbList}

theorem post_bindR {P Q : St (Cache K V) K V → Prop} {m : Impl.CM K V α} {f : α → Impl.CM K V β}
    (h : (m s).Post P) (hf : ∀ a s', m s = .ok a s' → P s' → (f a s').Post Q)
    (ht : ∀ s', P s' → Q s') : ((m >>= f) s).Post Q := by
  show (M.bind m f s).Post Q
  unfold M.bind
  cases hm : m s with
  | ok a s' => rw [hm] at h; exact hf a s' hm h
  | throw e s' => rw [hm] at h; exact ht _ h
  | _ => trivial

/-- Registering: the events of the two containers. -/
theorem two_opens {ca cb : Op K V → Impl.CM K V (Res K V)} (ha : ∀ op, Adds (ca op)) (hb : ∀ op, Adds (cb op))
    {ev : Nat → Impl.CM K V (Event K V)} (hev : ∀ i, Adds (ev i)) {ev' : Nat → Event K V} {l : List Nat}
    {first : Nat → Event K V} (hfirst : ∀ i, i ∈ l.head? → ev i s = .ok (first i) s) :
    ((do
      Impl.callEachR O F ca ev l
      let o ← Impl.getObs
      Impl.callEachR O F cb (fun i => pure (ev' i)) o.accCbs : Impl.CM K V Unit) s).Post
      (Opens (l.map first ++ s.c.obs.accCbs.map ev').head? s) := by
  cases l with
  | nil =>
    rw [bind_ok (show Impl.callEachR O F ca ev [] s = .ok () s from rfl),
      bind_ok (show Impl.getObs s = .ok s.c.obs s from rfl)]
    cases hl : s.c.obs.accCbs with
    | nil => exact ⟨[], by simp, rfl⟩
    | cons i rest => exact callEachR_opens hb (fun _ => .pure) rfl
  | cons i rest =>
    have hr : Adds (do
        let o ← Impl.getObs
        Impl.callEachR O F cb (fun i => pure (ev' i)) o.accCbs : Impl.CM K V Unit) :=
      Quietly.adds getObs_q |>.bind fun _ => callEachR_adds hb (fun _ => .pure) _
    exact post_bindR (callEachR_opens ha hev (hfirst i rfl))
      (fun _ s1 _ h1 => (hr s1).imp fun _ h2 => h1.longer h2) fun _ h => h

theorem registerMissR_opens (hc : ∀ b op, Adds (call b op)) :
    (Impl.registerMissR O F call busy k s).Post (Opens (dueCallbacks s.c.obs k (none : Option V)).head? s) := by
  unfold Impl.registerMissR
  rw [bind_ok (show Impl.getObs s = .ok s.c.obs s from rfl)]
  obtain ⟨s1, h1⟩ : ∃ s1, (countMiss s.c.obs k : Impl.CM K V Unit) s = .ok () s1 := by
    unfold countMiss
    cases s.c.obs.stats <;> exact ⟨_, rfl⟩
  rw [bind_ok h1]
  have hc1 := countMiss_still (o := s.c.obs) (k := k) s
  rw [h1] at hc1
  have := two_opens (O := O) (F := F) (s := s1) (hc (.miss :: busy)) (hc (.access :: busy))
    (ev := fun cb => pure (Event.miss cb k)) (fun _ => .pure) (ev' := fun cb => Event.access cb k false)
    (l := s.c.obs.missCbs) (first := fun cb => Event.miss cb k) (fun _ _ => rfl)
  rw [hc1.1] at this
  exact this.imp fun _ h => h.same (countMiss_log h1)

theorem registerHitR_opens (hc : ∀ b op, Adds (call b op)) (hf : Firm s.c) {n : MapNode K V} (hn : n ∈ s.c.map) :
    (Impl.registerHitR O F call busy k n.addr s).Post (Opens (dueCallbacks s.c.obs k (some n.info.value)).head? s) := by
  unfold Impl.registerHitR
  rw [bind_ok (show Impl.getObs s = .ok s.c.obs s from rfl)]
  obtain ⟨s1, h1⟩ : ∃ s1, (countHit s.c.obs k : Impl.CM K V Unit) s = .ok () s1 := by
    unfold countHit
    cases s.c.obs.stats <;> exact ⟨_, rfl⟩
  rw [bind_ok h1]
  have hc1 := countHit_still (o := s.c.obs) (k := k) s
  rw [h1] at hc1
  have := two_opens (O := O) (F := F) (s := s1) (hc (.hit :: busy)) (hc (.access :: busy))
    (ev := fun cb => do let m ← Impl.deref n.addr; pure (Event.hit cb k m.info.value))
    (fun _ => deref_q.adds.bind fun _ => .pure) (ev' := fun cb => Event.access cb k true)
    (l := s.c.obs.hitCbs) (first := fun cb => Event.hit cb k n.info.value)
    (fun _ _ => by rw [bind_ok (deref_mem (hc1.1 ▸ hf) (n := n) (hc1.1 ▸ hn))]; rfl)
  rw [hc1.1] at this
  exact this.imp fun _ h => h.same (countHit_log h1)

theorem registerMissR_adds (hc : ∀ b op, Adds (call b op)) : Adds (Impl.registerMissR O F call busy k) := by
  unfold Impl.registerMissR
  exact getObs_q.adds.bind fun _ => countMiss_adds.bind fun _ => (callEachR_adds (hc _) (fun _ => .pure) _).bind fun _ =>
    getObs_q.adds.bind fun _ => callEachR_adds (hc _) (fun _ => .pure) _

theorem registerHitR_adds (hc : ∀ b op, Adds (call b op)) {p : Ptr} : Adds (Impl.registerHitR O F call busy k p) := by
  unfold Impl.registerHitR
  exact getObs_q.adds.bind fun _ => countHit_adds.bind fun _ =>
    (callEachR_adds (hc _) (fun _ => deref_q.adds.bind fun _ => .pure) _).bind fun _ =>
    getObs_q.adds.bind fun _ => callEachR_adds (hc _) (fun _ => .pure) _

theorem touchR_adds {p : Ptr} : Adds (Impl.touchR p : Impl.CM K V Unit) :=
  (derefIt_q.bind fun _ => moveToFront_q.bind fun _ => setLast_q).adds

theorem lastAccessedIsOk_silent : Quietly (Impl.lastAccessedIsOk O) := by
  refine getKind_q.bind fun kind => ?_
  cases kind with
  | basic => exact .pure
  | timed ttl res => exact lastNode_q.bind fun _ => hasExpiredInfo_q.bind fun _ => .pure

theorem valueForLastAccessed_silent : Quietly (Impl.valueForLastAccessed O) := by
  refine lastNode_q.bind fun n => getKind_q.bind fun kind => ?_
  cases kind with
  | basic => exact .pure
  | timed ttl res =>
    refine hasExpiredInfo_q.bind fun b => ?_
    cases b with
    | true => exact .throw
    | false => exact .pure

theorem entryU_silent {it : Option Ptr} : Quietly (Impl.entryU O it) :=
  derefIt_q.bind fun _ => throwIfInvalidU_q.bind fun _ => .pure

theorem findR_adds (hc : ∀ b op, Adds (call b op)) : Adds (Impl.findR O F call busy k) := by
  unfold Impl.findR
  refine mapFind_q.adds.bind fun n => ?_
  cases n with
  | none => exact (registerMissR_adds hc).bind fun _ => .pure
  | some n =>
    exact hasExpiredInfo_q.adds.bind fun b => .ite ((registerMissR_adds hc).bind fun _ => .pure)
      ((registerHitR_adds hc).bind fun _ => touchR_adds.bind fun _ => .pure)

theorem containsR_adds (hc : ∀ b op, Adds (call b op)) : Adds (Impl.containsR O F call busy k) := by
  unfold Impl.containsR
  exact lastIs_q.adds.bind fun b => .ite (lastAccessedIsOk_silent.adds.bind fun b => .ite
    (lastNode_q.adds.bind fun _ => (registerHitR_adds hc).bind fun _ => .pure) .pure)
    ((findR_adds hc).bind fun _ => .pure)

theorem lookupR_adds (hc : ∀ b op, Adds (call b op)) : Adds (Impl.lookupR O F call busy k) := by
  unfold Impl.lookupR
  refine lastIs_q.adds.bind fun b => .ite (valueForLastAccessed_silent.adds.bind fun _ => (registerHitR_adds hc).bind fun _ =>
    deref_q.adds.bind fun _ => .pure) ((findR_adds hc).bind fun it => ?_)
  cases it with
  | none => exact Quietly.throw.adds
  | some p => exact entryU_silent.adds.bind fun _ => .pure

end register

theorem step_adds {op : Op K V} (ha : op.isAccess = false) : Adds (Impl.step O op) := by
  intro s
  cases h : Impl.step O op s with
  | ok r s' =>
    have := (performs_other (res := .ok r) (show Performs O op s (.ok r) s' from h) ha).1
    show s.g.log <+: s'.g.log
    rw [this]
    exact List.prefix_rfl
  | throw e s' =>
    have := (performs_other (res := .error e) (show Performs O op s (.error e) s' from h) ha).1
    show s.g.log <+: s'.g.log
    rw [this]
    exact List.prefix_rfl
  | _ => trivial

theorem stepR_adds (d : Nat) : ∀ (busy : List CbList) (op : Op K V), Adds (Impl.stepR O F d busy op) := by
  induction d with
  | zero => intro _ _ s; trivial
  | succ d ih =>
    intro busy op
    rw [Impl.stepR]
    refine .ite (fun _ => trivial) ?_
    by_cases ha : op.isAccess = false
    · have : Impl.dispatchR O F (Impl.stepR O F d) busy op = Impl.step O op := by
        cases op <;> first | rfl | cases ha
      rw [this]
      exact step_adds ha
    · cases op with
      | contains k => exact (containsR_adds ih).bind fun _ => .pure
      | find k => exact (findR_adds ih).bind fun _ => .pure
      | lookup k => exact (lookupR_adds ih).bind fun _ => .pure
      | _ => exact absurd rfl ha

variable {t : St (MCache K V) K V} {d : Nat} {busy : List CbList}

theorem findR_opens (hr : Rel s t) (ht : Ok t) (hk : s.c.kind = .basic) :
    (Impl.findR O F (Impl.stepR O F d) busy k s).Post (Opens (dueCallbacks s.c.obs k (stored? s.c k)).head? s) := by
  have hst : stored? s.c k = (t.c.ents.find? (fun x => keq x.key k)).map (·.node.info.value) := by
    unfold stored?
    rw [hr.entryFor]
    cases t.c.ents.find? (fun x => keq x.key k) <;> rfl
  unfold Impl.findR
  rw [bind_ok (show Impl.mapFind k s = .ok ((t.c.ents.find? (fun x => keq x.key k)).map Ent.node) s by
    unfold Impl.mapFind
    rw [hr.rep.find_key hr.awf]), hst]
  cases he : t.c.ents.find? (fun x => keq x.key k) with
  | none => exact post_bindR (registerMissR_opens (stepR_adds d)) (fun _ _ _ h => h) fun _ h => h
  | some e =>
    obtain ⟨hm, -⟩ := find_mem he
    simp only [Option.map_some]
    rw [bind_ok (show Impl.hasExpiredInfo O e.node.info.time s = .ok false s by
      unfold Impl.hasExpiredInfo
      rw [bind_ok (show Impl.getKind s = .ok .basic s by unfold Impl.getKind; rw [hk])]
      rfl)]
    have hn : e.node ∈ s.c.map := hr.rep.map.mem_iff.2 (List.mem_map.2 ⟨e, hm, rfl⟩)
    refine post_bindR (registerHitR_opens (stepR_adds d) (hr.firm ht) hn) (fun _ s1 _ h1 => ?_) fun _ h => h
    have hq : Quietly (do
        Impl.touchR e.node.addr
        pure (some e.node.addr) : Impl.CM K V (Option Ptr)) :=
      (derefIt_q.bind fun _ => moveToFront_q.bind fun _ => setLast_q).bind fun _ => .pure
    exact (hq s1).imp fun _ h2 => h1.then (Silent.log h2)

/-- The first event of an access. -/
theorem access_opens (hO : NoListFault O) (h : RReachable O F s) (hk : s.c.kind = .basic) {op : Op K V}
    (hop : op.Accesses k) :
    (Impl.stepR O F d [] op s).Post (Opens (dueCallbacks s.c.obs k (stored? s.c k)).head? s) := by
  obtain ⟨t, hr, ht⟩ := h.rel hO
  have hfirm := hr.firm ht
  cases d with
  | zero => trivial
  | succ d =>
    rw [Impl.stepR]
    simp only [List.any_nil, Bool.false_eq_true]
    obtain ⟨b, hb⟩ := lastIs_ok (k := k) hfirm
    have hstored : ∀ {n : MapNode K V}, n ∈ s.c.map → keq k n.key = true → stored? s.c k = some n.info.value := by
      intro n hn hkn
      obtain ⟨e, he, rfl⟩ := List.mem_map.1 (hr.rep.map.mem_iff.1 hn)
      unfold stored?
      rw [hr.entryFor, ht.findKey he (by rw [KeyEqual.symm]; exact hkn)]
      rfl
    rcases hop with rfl | rfl | rfl
    · refine post_bindR ?_ (fun _ _ _ h => h) fun _ h => h
      unfold Impl.containsR
      rw [bind_ok hb]
      cases b with
      | true =>
        obtain ⟨-, n, hn, hl, hkn⟩ := lastIs_true hfirm hb
        simp only [if_true]
        rw [bind_ok (show Impl.lastAccessedIsOk O s = .ok true s by
          unfold Impl.lastAccessedIsOk
          rw [bind_ok (show Impl.getKind s = .ok .basic s by unfold Impl.getKind; rw [hk])]
          rfl)]
        simp only [if_true]
        rw [bind_ok (lastNode_last hfirm hn hl), hstored hn hkn]
        exact post_bindR (registerHitR_opens (stepR_adds d) hfirm hn) (fun _ _ _ h => h) fun _ h => h
      | false => exact post_bindR (findR_opens hr ht hk) (fun _ _ _ h => h) fun _ h => h
    · exact post_bindR (findR_opens hr ht hk) (fun _ _ _ h => h) fun _ h => h
    · refine post_bindR ?_ (fun _ _ _ h => h) fun _ h => h
      unfold Impl.lookupR
      rw [bind_ok hb]
      cases b with
      | true =>
        obtain ⟨-, n, hn, hl, hkn⟩ := lastIs_true hfirm hb
        simp only [if_true]
        rw [bind_ok (show Impl.valueForLastAccessed O s = .ok n s by
          unfold Impl.valueForLastAccessed
          rw [bind_ok (lastNode_last hfirm hn hl),
            bind_ok (show Impl.getKind s = .ok .basic s by unfold Impl.getKind; rw [hk])]
          rfl), hstored hn hkn]
        refine post_bindR (registerHitR_opens (stepR_adds d) hfirm hn) (fun _ s1 _ h1 => ?_) fun _ h => h
        exact ((deref_q.bind fun _ => Quietly.pure) s1).imp fun _ h2 => h1.then (Silent.log h2)
      | false =>
        refine post_bindR (findR_opens hr ht hk) (fun it s1 _ h1 => ?_) fun _ h => h
        cases it with
        | none => exact h1
        | some p => exact ((entryU_silent.bind fun _ => Quietly.pure) s1).imp fun _ h2 => h1.then (Silent.log h2)

/-! ### Registering in the container that is being iterated over -/

theorem stepR_registers {op : Op K V} {c : CbList} (h : op.registers c = true) :
    Impl.stepR O F (d + 1) (c :: busy) op s = .ub := by
  rw [Impl.stepR, if_pos (by simp [h])]
  rfl

theorem callEachR_registers {c : CbList} {ev : Nat → Impl.CM K V (Event K V)} {cb : Nat} {l : List Nat} {e : Event K V}
    (he : ev cb s = .ok e s) {op : Op K V} {next : Except Err (Res K V) → Script K V} (hF : F e = .call op next)
    (hop : op.registers c = true) :
    Impl.callEachR O F (Impl.stepR O F (d + 1) (c :: busy)) ev (cb :: l) s = .ub := by
  rw [callEachR_cons, bind_ok he,
    bind_ok (show (emit e : Impl.CM K V Unit) s = .ok () ⟨s.c, { s.g with log := s.g.log ++ [e] }⟩ from rfl), hF]
  refine bind_ub ?_
  unfold Impl.runScript
  rw [stepR_registers hop]

theorem registerMissR_registers {e : Event K V} {op : Op K V} {next : Except Err (Res K V) → Script K V}
    (hd : (dueCallbacks s.c.obs k (none : Option V)).head? = some e) (hF : F e = .call op next)
    (hop : op.registers e.container = true) :
    Impl.registerMissR O F (Impl.stepR O F (d + 1)) busy k s = .ub := by
  unfold Impl.registerMissR
  rw [bind_ok (show Impl.getObs s = .ok s.c.obs s from rfl)]
  obtain ⟨s1, h1⟩ : ∃ s1, (countMiss s.c.obs k : Impl.CM K V Unit) s = .ok () s1 := by
    unfold countMiss
    cases s.c.obs.stats <;> exact ⟨_, rfl⟩
  rw [bind_ok h1]
  have hc1 := countMiss_still (o := s.c.obs) (k := k) s
  rw [h1] at hc1
  unfold dueCallbacks at hd
  cases hm : s.c.obs.missCbs with
  | nil =>
    rw [hm] at hd
    rw [bind_ok (show Impl.callEachR O F _ _ [] s1 = .ok () s1 from rfl),
      bind_ok (show Impl.getObs s1 = .ok s.c.obs s1 by unfold Impl.getObs; rw [hc1.1])]
    cases ha : s.c.obs.accCbs with
    | nil => rw [ha] at hd; cases hd
    | cons cb l =>
      rw [ha] at hd
      simp at hd
      subst hd
      exact callEachR_registers rfl hF hop
  | cons cb l =>
    rw [hm] at hd
    simp at hd
    subst hd
    exact bind_ub (callEachR_registers rfl hF hop)

theorem registerHitR_registers (hf : Firm s.c) {n : MapNode K V} (hn : n ∈ s.c.map) {e : Event K V} {op : Op K V}
    {next : Except Err (Res K V) → Script K V}
    (hd : (dueCallbacks s.c.obs k (some n.info.value)).head? = some e) (hF : F e = .call op next)
    (hop : op.registers e.container = true) :
    Impl.registerHitR O F (Impl.stepR O F (d + 1)) busy k n.addr s = .ub := by
  unfold Impl.registerHitR
  rw [bind_ok (show Impl.getObs s = .ok s.c.obs s from rfl)]
  obtain ⟨s1, h1⟩ : ∃ s1, (countHit s.c.obs k : Impl.CM K V Unit) s = .ok () s1 := by
    unfold countHit
    cases s.c.obs.stats <;> exact ⟨_, rfl⟩
  rw [bind_ok h1]
  have hc1 := countHit_still (o := s.c.obs) (k := k) s
  rw [h1] at hc1
  unfold dueCallbacks at hd
  cases hm : s.c.obs.hitCbs with
  | nil =>
    rw [hm] at hd
    rw [bind_ok (show Impl.callEachR O F _ _ [] s1 = .ok () s1 from rfl),
      bind_ok (show Impl.getObs s1 = .ok s.c.obs s1 by unfold Impl.getObs; rw [hc1.1])]
    cases ha : s.c.obs.accCbs with
    | nil => rw [ha] at hd; cases hd
    | cons cb l =>
      rw [ha] at hd
      simp at hd
      subst hd
      exact callEachR_registers rfl hF hop
  | cons cb l =>
    rw [hm] at hd
    simp at hd
    subst hd
    refine bind_ub (callEachR_registers ?_ hF hop)
    rw [bind_ok (deref_mem (hc1.1 ▸ hf) (n := n) (hc1.1 ▸ hn))]
    rfl

theorem findR_registers (hr : Rel s t) (ht : Ok t) (hk : s.c.kind = .basic) {e : Event K V} {op : Op K V}
    {next : Except Err (Res K V) → Script K V}
    (hd : (dueCallbacks s.c.obs k (stored? s.c k)).head? = some e) (hF : F e = .call op next)
    (hop : op.registers e.container = true) : Impl.findR O F (Impl.stepR O F (d + 1)) busy k s = .ub := by
  have hst : stored? s.c k = (t.c.ents.find? (fun x => keq x.key k)).map (·.node.info.value) := by
    unfold stored?
    rw [hr.entryFor]
    cases t.c.ents.find? (fun x => keq x.key k) <;> rfl
  rw [hst] at hd
  unfold Impl.findR
  rw [bind_ok (show Impl.mapFind k s = .ok ((t.c.ents.find? (fun x => keq x.key k)).map Ent.node) s by
    unfold Impl.mapFind
    rw [hr.rep.find_key hr.awf])]
  cases he : t.c.ents.find? (fun x => keq x.key k) with
  | none =>
    rw [he] at hd
    exact bind_ub (registerMissR_registers hd hF hop)
  | some x =>
    rw [he] at hd
    obtain ⟨hm, -⟩ := find_mem he
    simp only [Option.map_some]
    rw [bind_ok (show Impl.hasExpiredInfo O x.node.info.time s = .ok false s by
      unfold Impl.hasExpiredInfo
      rw [bind_ok (show Impl.getKind s = .ok .basic s by unfold Impl.getKind; rw [hk])]
      rfl)]
    have hn : x.node ∈ s.c.map := hr.rep.map.mem_iff.2 (List.mem_map.2 ⟨x, hm, rfl⟩)
    exact bind_ub (registerHitR_registers (hr.firm ht) hn hd hF hop)

/-- The first callback that is due begins by changing its own container. -/
theorem access_registers (hO : NoListFault O) (h : RReachable O F s) (hk : s.c.kind = .basic) {op : Op K V}
    (hop : op.Accesses k) {e : Event K V} {op' : Op K V} {next : Except Err (Res K V) → Script K V}
    (hd : (dueCallbacks s.c.obs k (stored? s.c k)).head? = some e) (hF : F e = .call op' next)
    (hop' : op'.registers e.container = true) : Impl.stepR O F 2 [] op s = .ub := by
  obtain ⟨t, hr, ht⟩ := h.rel hO
  have hfirm := hr.firm ht
  rw [Impl.stepR]
  simp only [List.any_nil, Bool.false_eq_true]
  obtain ⟨b, hb⟩ := lastIs_ok (k := k) hfirm
  have hstored : ∀ {n : MapNode K V}, n ∈ s.c.map → keq k n.key = true → stored? s.c k = some n.info.value := by
    intro n hn hkn
    obtain ⟨x, hx, rfl⟩ := List.mem_map.1 (hr.rep.map.mem_iff.1 hn)
    unfold stored?
    rw [hr.entryFor, ht.findKey hx (by rw [KeyEqual.symm]; exact hkn)]
    rfl
  rcases hop with rfl | rfl | rfl
  · refine bind_ub ?_
    unfold Impl.containsR
    rw [bind_ok hb]
    cases b with
    | true =>
      obtain ⟨-, n, hn, hl, hkn⟩ := lastIs_true hfirm hb
      simp only [if_true]
      rw [bind_ok (show Impl.lastAccessedIsOk O s = .ok true s by
        unfold Impl.lastAccessedIsOk
        rw [bind_ok (show Impl.getKind s = .ok .basic s by unfold Impl.getKind; rw [hk])]
        rfl)]
      simp only [if_true]
      rw [hstored hn hkn] at hd
      rw [bind_ok (lastNode_last hfirm hn hl)]
      exact bind_ub (registerHitR_registers hfirm hn hd hF hop')
    | false => exact bind_ub (findR_registers hr ht hk hd hF hop')
  · exact bind_ub (findR_registers hr ht hk hd hF hop')
  · refine bind_ub ?_
    unfold Impl.lookupR
    rw [bind_ok hb]
    cases b with
    | true =>
      obtain ⟨-, n, hn, hl, hkn⟩ := lastIs_true hfirm hb
      simp only [if_true]
      rw [bind_ok (show Impl.valueForLastAccessed O s = .ok n s by
        unfold Impl.valueForLastAccessed
        rw [bind_ok (lastNode_last hfirm hn hl),
          bind_ok (show Impl.getKind s = .ok .basic s by unfold Impl.getKind; rw [hk])]
        rfl)]
      rw [hstored hn hkn] at hd
      exact bind_ub (registerHitR_registers hfirm hn hd hF hop')
    | false => exact bind_ub (findR_registers hr ht hk hd hF hop')

end LRU
