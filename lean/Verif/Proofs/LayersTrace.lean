import Verif.Proofs.LayersEnd
import Verif.Proofs.ReenterLog
import Verif.Proofs.Record
import Verif.Spec.LayersTrace
/-!
# Callbacks that use other caches: what they were told and did
-/

set_option autoImplicit false
set_option linter.unusedSectionVars false

namespace LRU

variable {K V : Type} [KeyEqual K] [DecidableEq K] [DecidableEq V] {O : Oracle K V}
  {F : Nat → Event K V → WScript K V} {α β : Type} {i : Nat} {own : Nat → Bool} {w w' w1 w2 : World K V}
  {c c' : Cache K V} {k : K} {busy busy' : List (Nat × CbList)} {d : Nat}

/-! ### Time passes -/

theorem Passes.refl (w : World K V) : Passes w w := ⟨rfl, rfl, rfl, rfl, Nat.le_refl _, Nat.le_refl _⟩

theorem Passes.trans (h : Passes w w1) (h' : Passes w1 w2) : Passes w w2 :=
  ⟨h'.caches.trans h.caches, h'.log.trans h.log, h'.stats.trans h.stats, h'.nextStat.trans h.nextStat,
    Nat.le_trans h.next h'.next, Nat.le_trans h.ticks h'.ticks⟩

theorem onCache_passes {m : Impl.CM K V α} {a : α} (hs : Still m) (hq : Quietly m)
    (h : Impl.onCache i m w = .ok a w') : Passes w w' := by
  obtain ⟨c, s', hc, hm, rfl⟩ := onCache_ok h
  have h1 := hs (viewOf w i c)
  have h2 := hq (viewOf w i c)
  rw [hm] at h1 h2
  exact ⟨by rw [h1.1]; exact set_same hc, h2.log, h2.stats, h2.nextStat, h2.next, h2.ticks⟩

theorem WVia.first {l : WCalls K V} (h : Passes w w1) (h' : WVia O F w1 l w') : WVia O F w l w' := by
  cases h' with
  | nil h1 => exact .nil (h.trans h1)
  | call h1 h2 h3 => exact .call (h.trans h1) h2 h3

theorem WVia.last {l : WCalls K V} (h : WVia O F w l w1) (h' : Passes w1 w') : WVia O F w l w' := by
  induction h with
  | nil h1 => exact .nil (h1.trans h')
  | call h1 h2 _ ih => exact .call h1 h2 (ih h')

theorem Briefed.first {t : List (Event K V × WCalls K V)} (h : Passes w w1) (h' : Briefed O F i w1 t w') :
    Briefed O F i w t w' := by
  cases h' with
  | nil h1 => exact .nil (h.trans h1)
  | cons h1 h2 h3 h4 => exact .cons (h.trans h1) h2 h3 h4

theorem Briefed.last {t : List (Event K V × WCalls K V)} (h : Briefed O F i w t w1) (h' : Passes w1 w') :
    Briefed O F i w t w' := by
  induction h with
  | nil h1 => exact .nil (h1.trans h')
  | cons h1 h2 h3 _ ih => exact .cons h1 h2 h3 (ih h')

/-! ### Calls made by callbacks are like other calls -/

/-- `m'` does what `m` does unless `m` is undefined. -/
def Freer (m m' : M (World K V) α) : Prop := ∀ w, m w ≠ .ub → m' w = m w

theorem Freer.refl (m : M (World K V) α) : Freer m m := fun _ _ => rfl

theorem Freer.bind {m m' : M (World K V) α} {f f' : α → M (World K V) β} (h : Freer m m') (h' : ∀ a, Freer (f a) (f' a)) :
    Freer (m >>= f) (m' >>= f') := by
  intro w hw
  show M.bind m' f' w = M.bind m f w
  have hw' : M.bind m f w ≠ .ub := hw
  unfold M.bind at hw' ⊢
  cases hm : m w with
  | ub => rw [hm] at hw'; exact absurd rfl hw'
  | ok a w' => rw [h w (by rw [hm]; nofun), hm]; rw [hm] at hw'; exact h' a w' hw'
  | throw e w' => rw [h w (by rw [hm]; nofun), hm]
  | diverge => rw [h w (by rw [hm]; nofun), hm]
  | terminate => rw [h w (by rw [hm]; nofun), hm]

theorem Freer.ite {p : Prop} [Decidable p] {m m' n n' : M (World K V) α} (h : Freer m m') (h' : Freer n n') :
    Freer (if p then m else n) (if p then m' else n') := by
  split <;> assumption

theorem runW_freer {call call' : Nat → Op K V → M (World K V) (Res K V)} (hc : ∀ j op, Freer (call j op) (call' j op))
    {p : WScript K V} : Freer (Impl.runW call p) (Impl.runW call' p) := by
  induction p with
  | done => exact .refl _
  | call j op next ih =>
    intro w h
    unfold Impl.runW at h ⊢
    cases h1 : call j op w with
    | ub => rw [h1] at h; exact absurd rfl h
    | ok r w' => rw [hc j op w (by rw [h1]; nofun), h1] ; rw [h1] at h; exact ih _ _ h
    | throw e w' => rw [hc j op w (by rw [h1]; nofun), h1] ; rw [h1] at h; exact ih _ _ h
    | diverge => rw [hc j op w (by rw [h1]; nofun), h1]
    | terminate => rw [hc j op w (by rw [h1]; nofun), h1]

theorem callEachL_freer {call call' : Nat → Op K V → M (World K V) (Res K V)}
    (hc : ∀ j op, Freer (call j op) (call' j op)) {ev : Nat → Impl.CM K V (Event K V)} (l : List Nat) :
    Freer (Impl.callEachL O F i call ev l) (Impl.callEachL O F i call' ev l) := by
  induction l with
  | nil => exact .refl _
  | cons cb rest ih =>
    exact (Freer.refl _).bind fun e => (Freer.refl _).bind fun _ => (runW_freer hc).bind fun _ =>
      (Freer.refl _).bind fun _ => ih

section freer

variable {call : List (Nat × CbList) → Nat → Op K V → M (World K V) (Res K V)}
  (hc : ∀ b b' j op, (∀ x ∈ b', x ∈ b) → Freer (call b j op) (call b' j op)) (hb : ∀ x ∈ busy', x ∈ busy)
include hc hb

theorem registerHitL_freer {p : Ptr} :
    Freer (Impl.registerHitL O F call busy i k p) (Impl.registerHitL O F call busy' i k p) := by
  have h1 : ∀ l : CbList, ∀ j op, Freer (call ((i, l) :: busy) j op) (call ((i, l) :: busy') j op) := fun l j op =>
    hc _ _ j op (List.cons_subset_cons _ hb)
  exact (Freer.refl _).bind fun _ => (Freer.refl _).bind fun _ => (callEachL_freer (h1 _) _).bind fun _ =>
    (Freer.refl _).bind fun _ => callEachL_freer (h1 _) _

theorem registerMissL_freer : Freer (Impl.registerMissL O F call busy i k) (Impl.registerMissL O F call busy' i k) := by
  have h1 : ∀ l : CbList, ∀ j op, Freer (call ((i, l) :: busy) j op) (call ((i, l) :: busy') j op) := fun l j op =>
    hc _ _ j op (List.cons_subset_cons _ hb)
  exact (Freer.refl _).bind fun _ => (Freer.refl _).bind fun _ => (callEachL_freer (h1 _) _).bind fun _ =>
    (Freer.refl _).bind fun _ => callEachL_freer (h1 _) _

theorem findL_freer : Freer (Impl.findL O F call busy i k) (Impl.findL O F call busy' i k) := by
  refine (Freer.refl _).bind fun it => ?_
  cases it with
  | none => exact (registerMissL_freer hc hb).bind fun _ => .refl _
  | some n =>
    refine (Freer.refl _).bind fun b => .ite ?_ ?_
    · exact (registerMissL_freer hc hb).bind fun _ => .refl _
    · exact (registerHitL_freer hc hb).bind fun _ => .refl _

theorem containsL_freer : Freer (Impl.containsL O F call busy i k) (Impl.containsL O F call busy' i k) := by
  refine (Freer.refl _).bind fun b => .ite ?_ ((findL_freer hc hb).bind fun _ => .refl _)
  exact (Freer.refl _).bind fun b => .ite ((Freer.refl _).bind fun _ => (registerHitL_freer hc hb).bind fun _ => .refl _)
    (.refl _)

theorem lookupL_freer : Freer (Impl.lookupL O F call busy i k) (Impl.lookupL O F call busy' i k) := by
  refine (Freer.refl _).bind fun b => .ite ?_ ((findL_freer hc hb).bind fun _ => .refl _)
  exact (Freer.refl _).bind fun n => (registerHitL_freer hc hb).bind fun _ => .refl _

theorem dispatchL_freer (op : Op K V) : Freer (Impl.dispatchL O F call busy i op) (Impl.dispatchL O F call busy' i op) := by
  cases op <;> first
    | exact .refl _
    | exact (containsL_freer hc hb).bind fun _ => .refl _
    | exact (findL_freer hc hb).bind fun _ => .refl _
    | exact (lookupL_freer hc hb).bind fun _ => .refl _

end freer

/-- Fewer containers that are being iterated over make no difference to calls that are not undefined. -/
theorem stepL_freer (d : Nat) (b b' : List (Nat × CbList)) (i : Nat) (op : Op K V) (hb : ∀ x ∈ b', x ∈ b) :
    Freer (Impl.stepL O F d b i op) (Impl.stepL O F d b' i op) := by
  induction d generalizing b b' i op with
  | zero => exact .refl _
  | succ d ih =>
    rw [Impl.stepL, Impl.stepL]
    intro w hw
    by_cases h : b.any (fun y => y.1 == i && op.registers y.2) = true
    · rw [if_pos h] at hw; exact absurd rfl hw
    · have h' : ¬ b'.any (fun y => y.1 == i && op.registers y.2) = true := by
        intro h1
        obtain ⟨x, hx, h2⟩ := List.any_eq_true.1 h1
        exact h (List.any_eq_true.2 ⟨x, hb x hx, h2⟩)
      rw [if_neg h] at hw ⊢
      rw [if_neg h']
      exact dispatchL_freer (fun b b' j op h => ih b b' j op h) hb op w hw

theorem runW_did {p : WScript K V} (h : Impl.runW (Impl.stepL O F d busy) p w = .ok () w') :
    ∃ l, p.Did l ∧ WVia O F w l w' := by
  induction p generalizing w with
  | done =>
    have h' : (Out.ok () w : Out (World K V) Unit) = .ok () w' := h
    injection h' with _ h'
    subst h'
    exact ⟨[], rfl, .nil (.refl _)⟩
  | call j op next ih =>
    unfold Impl.runW at h
    have free := stepL_freer (O := O) (F := F) d busy [] j op nofun w
    cases ho : Impl.stepL O F d busy j op w with
    | ok r w1 =>
      rw [ho] at h free
      obtain ⟨l, h1, h2⟩ := ih (.ok r) h
      exact ⟨_, ⟨.ok r, l, rfl, h1⟩, .call (.refl _) ⟨d, free nofun⟩ h2⟩
    | throw e w1 =>
      rw [ho] at h free
      obtain ⟨l, h1, h2⟩ := ih (.error e) h
      exact ⟨_, ⟨.error e, l, rfl, h1⟩, .call (.refl _) ⟨d, free nofun⟩ h2⟩
    | _ => rw [ho] at h; cases h

/-! ### The callbacks of a container -/

/-- `Q` says what a callback is told. -/
theorem callEachL_briefed {ev : Nat → Impl.CM K V (Event K V)} {Q : Nat → St (Cache K V) K V → Event K V → Prop}
    (hev : ∀ cb s e s', ev cb s = .ok e s' → s' = s ∧ Q cb s e) {l : List Nat}
    (h : Impl.callEachL O F i (Impl.stepL O F d busy) ev l w = .ok () w') :
    ∃ t, Briefed O F i w t w' ∧ t.length = l.length ∧ ∀ n cb, l[n]? = some cb → ∃ wn cn e,
      Briefed O F i w (t.take n) wn ∧ wn.caches[i]? = some (some cn) ∧ Q cb (viewOf wn i cn) e ∧
      (t.map (·.1))[n]? = some e := by
  induction l generalizing w with
  | nil =>
    have h' : (Out.ok () w : Out (World K V) Unit) = .ok () w' := h
    injection h' with _ h'
    subst h'
    exact ⟨[], .nil (.refl _), rfl, nofun⟩
  | cons cb rest ih =>
    have hu : (do
      let e ← Impl.onCache i (ev cb)
      Impl.onCache i (emit e)
      Impl.runW (Impl.stepL O F d busy) (F i e)
      Impl.onCache i (attempt O (.callback cb))
      Impl.callEachL O F i (Impl.stepL O F d busy) ev rest : M (World K V) Unit) w = .ok () w' := h
    obtain ⟨e, w1, h1, h2⟩ := bind_ok_inv hu
    obtain ⟨_, w2, h3, h4⟩ := bind_ok_inv h2
    obtain ⟨_, w3, h5, h6⟩ := bind_ok_inv h4
    obtain ⟨_, w4, h7, h8⟩ := bind_ok_inv h6
    obtain ⟨c, s1, hc, he, rfl⟩ := onCache_ok h1
    obtain ⟨rfl, hq⟩ := hev _ _ _ _ he
    have hp1 : Passes w (⟨w.caches.set i (some (viewOf w i c).c), (viewOf w i c).g⟩ : World K V) :=
      ⟨set_same hc, rfl, rfl, rfl, Nat.le_refl _, Nat.le_refl _⟩
    have hp2 : Passes (World.tell (⟨w.caches.set i (some (viewOf w i c).c), (viewOf w i c).g⟩ : World K V) e) w2 := by
      obtain ⟨c2, s2, hc2, he2, rfl⟩ := onCache_ok h3
      have he2' : (Out.ok () ⟨c2, { (viewOf (⟨w.caches.set i (some (viewOf w i c).c), (viewOf w i c).g⟩ : World K V) i c2).g with
        log := w.g.log ++ [e] }⟩ : Out (St (Cache K V) K V) Unit) = .ok () s2 := he2
      injection he2' with _ he2'
      subst he2'
      exact ⟨set_same hc2, rfl, rfl, rfl, Nat.le_refl _, Nat.le_refl _⟩
    obtain ⟨l, hl, hv⟩ := runW_did h5
    have hp4 : Passes w3 w4 := onCache_passes attempt_still .attempt h7
    obtain ⟨t, ht, hn, hi⟩ := ih h8
    have hv' := WVia.first hp2 hv
    refine ⟨(e, l) :: t, .cons hp1 hl hv' (.first hp4 ht), by simp [hn], ?_⟩
    intro n cb' hcb
    cases n with
    | zero =>
      injection hcb with hcb
      subst hcb
      exact ⟨w, c, e, .nil (.refl _), hc, hq, rfl⟩
    | succ n =>
      obtain ⟨wn, cn, e', a, b, c', d'⟩ := hi n cb' hcb
      exact ⟨wn, cn, e', .cons hp1 hl hv' (.first hp4 a), b, c', d'⟩

/-- The same for callbacks that are told what is known beforehand. -/
theorem callEachL_told {ev : Nat → Event K V} {l : List Nat}
    (h : Impl.callEachL O F i (Impl.stepL O F d busy) (fun cb => pure (ev cb)) l w = .ok () w') :
    ∃ t, Briefed O F i w t w' ∧ t.map (·.1) = l.map ev := by
  obtain ⟨t, h1, h2, h3⟩ := callEachL_briefed (Q := fun cb _ e => e = ev cb)
    (fun cb s e s' h => by
      have h' : (Out.ok (ev cb) s : Out (St (Cache K V) K V) _) = .ok e s' := h
      injection h' with h4 h5
      exact ⟨h5.symm, h4.symm⟩) h
  refine ⟨t, h1, List.ext_getElem? fun n => ?_⟩
  cases hn : l[n]? with
  | none =>
    have hl := List.getElem?_eq_none_iff.1 hn
    rw [List.getElem?_eq_none (by rw [List.length_map, h2]; exact hl), List.getElem?_eq_none (by rw [List.length_map]; exact hl)]
  | some cb =>
    obtain ⟨_, _, e, _, _, rfl, h4⟩ := h3 n cb hn
    rw [h4, List.getElem?_map, hn]
    rfl

/-! ### Registering accesses -/

theorem OneCounted.first {hit : Bool} (h : Passes w w1) (h' : OneCounted i k hit w1 w2) : OneCounted i k hit w w2 where
  caches := h'.caches.trans h.caches
  log := h'.log.trans h.log
  nextStat := h'.nextStat.trans h.nextStat
  next := Nat.le_trans h.next h'.next
  ticks := Nat.le_trans h.ticks h'.ticks
  counted := fun c n hc hn => h.stats ▸ h'.counted c n (h.caches ▸ hc) hn
  others := fun c n hc hn => h.stats ▸ h'.others c n (h.caches ▸ hc) hn

theorem countHit_tallied {o : Obs} (hc : w.caches[i]? = some (some c)) (ho : o = c.obs)
    (h : Impl.onCache i (countHit o k) w = .ok () w') : OneCounted i k true w w' := by
  obtain ⟨c1, s1, hc1, h1, rfl⟩ := onCache_ok h
  obtain rfl : c1 = c := by rw [hc] at hc1; injection hc1 with hc1; injection hc1 with hc1; exact hc1.symm
  unfold countHit at h1
  subst ho
  cases hs : c1.obs.stats with
  | none =>
    rw [hs] at h1
    have h2 : (Out.ok () (viewOf w i c1) : Out (St (Cache K V) K V) Unit) = .ok () s1 := h1
    injection h2 with _ h2
    subst h2
    refine ⟨set_same hc, rfl, rfl, Nat.le_refl _, Nat.le_refl _, ?_, fun _ _ _ _ => rfl⟩
    intro c2 n hc2 hn
    rw [hc] at hc2; injection hc2 with hc2; injection hc2 with hc2
    subst hc2
    rw [hs] at hn
    cases hn
  | some m =>
    rw [hs] at h1
    have h2 : (Out.ok () ⟨c1, { (viewOf w i c1).g with
      stats := fun j => if j = m then (w.g.stats j).registerHit k else w.g.stats j }⟩ :
        Out (St (Cache K V) K V) Unit) = .ok () s1 := h1
    injection h2 with _ h2
    subst h2
    refine ⟨set_same hc, rfl, rfl, Nat.le_refl _, Nat.le_refl _, ?_, ?_⟩
    all_goals
      intro c2 n hc2 hn
      rw [hc] at hc2; injection hc2 with hc2; injection hc2 with hc2
      subst hc2
      rw [hs] at hn
    · injection hn with hn
      subst hn
      show Counted k true _ (if m = m then _ else _)
      rw [if_pos rfl]
      exact counted_hit _ _
    · show (if n = m then _ else _) = _
      rw [if_neg fun h => hn (by rw [h])]

theorem countMiss_tallied {o : Obs} (hc : w.caches[i]? = some (some c)) (ho : o = c.obs)
    (h : Impl.onCache i (countMiss o k) w = .ok () w') : OneCounted i k false w w' := by
  obtain ⟨c1, s1, hc1, h1, rfl⟩ := onCache_ok h
  obtain rfl : c1 = c := by rw [hc] at hc1; injection hc1 with hc1; injection hc1 with hc1; exact hc1.symm
  unfold countMiss at h1
  subst ho
  cases hs : c1.obs.stats with
  | none =>
    rw [hs] at h1
    have h2 : (Out.ok () (viewOf w i c1) : Out (St (Cache K V) K V) Unit) = .ok () s1 := h1
    injection h2 with _ h2
    subst h2
    refine ⟨set_same hc, rfl, rfl, Nat.le_refl _, Nat.le_refl _, ?_, fun _ _ _ _ => rfl⟩
    intro c2 n hc2 hn
    rw [hc] at hc2; injection hc2 with hc2; injection hc2 with hc2
    subst hc2
    rw [hs] at hn
    cases hn
  | some m =>
    rw [hs] at h1
    have h2 : (Out.ok () ⟨c1, { (viewOf w i c1).g with
      stats := fun j => if j = m then (w.g.stats j).registerMiss k else w.g.stats j }⟩ :
        Out (St (Cache K V) K V) Unit) = .ok () s1 := h1
    injection h2 with _ h2
    subst h2
    refine ⟨set_same hc, rfl, rfl, Nat.le_refl _, Nat.le_refl _, ?_, ?_⟩
    all_goals
      intro c2 n hc2 hn
      rw [hc] at hc2; injection hc2 with hc2; injection hc2 with hc2
      subst hc2
      rw [hs] at hn
    · injection hn with hn
      subst hn
      show Counted k false _ (if m = m then _ else _)
      rw [if_pos rfl]
      exact counted_miss _ _
    · show (if n = m then _ else _) = _
      rw [if_neg fun h => hn (by rw [h])]

theorem getObsL {o : Obs} (h : Impl.onCache i Impl.getObs w = .ok o w') :
    ∃ c, w.caches[i]? = some (some c) ∧ o = c.obs ∧ Passes w w' := by
  have hp := onCache_passes getObs_still getObs_q h
  obtain ⟨c, s', hc, h1, rfl⟩ := onCache_ok h
  have h2 : (Out.ok c.obs (viewOf w i c) : Out (St (Cache K V) K V) Obs) = .ok o s' := h1
  injection h2 with h2 _
  exact ⟨c, hc, h2.symm, hp⟩

/-- What is known of a miss. -/
def MissHeard (O : Oracle K V) (F : Nat → Event K V → WScript K V) (i : Nat) (k : K) (w w' : World K V) : Prop :=
  ∃ c c1 t1 t2 w0 w1, w.caches[i]? = some (some c) ∧ OneCounted i k false w w0 ∧ Briefed O F i w0 t1 w1 ∧
    t1.map (·.1) = c.obs.missCbs.map (fun cb => .miss cb k) ∧ w1.caches[i]? = some (some c1) ∧
    Briefed O F i w1 t2 w' ∧ t2.map (·.1) = c1.obs.accCbs.map (fun cb => .access cb k false)

theorem MissHeard.first (h : Passes w w1) (h' : MissHeard O F i k w1 w') : MissHeard O F i k w w' := by
  obtain ⟨c, c1, t1, t2, w0, w2, a, b, r⟩ := h'
  exact ⟨c, c1, t1, t2, w0, w2, h.caches ▸ a, b.first h, r⟩

theorem registerMissL_heard (h : Impl.registerMissL O F (Impl.stepL O F d) busy i k w = .ok () w') :
    MissHeard O F i k w w' := by
  unfold Impl.registerMissL at h
  obtain ⟨o, w1, h1, h2⟩ := bind_ok_inv h
  obtain ⟨c, hc, ho, hp⟩ := getObsL h1
  obtain ⟨_, w2, h3, h4⟩ := bind_ok_inv h2
  obtain ⟨_, w3, h5, h6⟩ := bind_ok_inv h4
  obtain ⟨o', w4, h7, h8⟩ := bind_ok_inv h6
  obtain ⟨c1, hc1, ho1, hp1⟩ := getObsL h7
  subst ho1
  obtain ⟨t1, a, b⟩ := callEachL_told (ev := fun cb => .miss cb k) h5
  obtain ⟨t2, a', b'⟩ := callEachL_told (ev := fun cb => .access cb k false) h8
  refine ⟨c, c1, t1, t2, w2, w3, hc, (countMiss_tallied (hp.caches ▸ hc) ho h3).first hp, a, ?_, hc1, .first hp1 a', b'⟩
  rw [b, ho]

/-- What is known of a hit on the entry at `p`. -/
def HitHeard (O : Oracle K V) (F : Nat → Event K V → WScript K V) (i : Nat) (k : K) (p : Ptr) (w w' : World K V) : Prop :=
  ∃ c c1 t1 t2 w0 w1, w.caches[i]? = some (some c) ∧ OneCounted i k true w w0 ∧ Briefed O F i w0 t1 w1 ∧
    t1.length = c.obs.hitCbs.length ∧
    (∀ n cb, c.obs.hitCbs[n]? = some cb → ∃ (wn : World K V) (j : Nat) (cj : Cache K V) (y : MapNode K V), Briefed O F i w0 (t1.take n) wn ∧
      wn.caches[j]? = some (some cj) ∧ y ∈ cj.map ∧ y.addr = p ∧ (t1.map (·.1))[n]? = some (.hit cb k y.info.value)) ∧
    w1.caches[i]? = some (some c1) ∧ Briefed O F i w1 t2 w' ∧ t2.map (·.1) = c1.obs.accCbs.map (fun cb => .access cb k true)

theorem HitHeard.first {p : Ptr} (h : Passes w w1) (h' : HitHeard O F i k p w1 w') : HitHeard O F i k p w w' := by
  obtain ⟨c, c1, t1, t2, w0, w2, a, b, r⟩ := h'
  exact ⟨c, c1, t1, t2, w0, w2, h.caches ▸ a, b.first h, r⟩

theorem registerHitL_heard {p : Ptr} (h : Impl.registerHitL O F (Impl.stepL O F d) busy i k p w = .ok () w') :
    HitHeard O F i k p w w' := by
  unfold Impl.registerHitL at h
  obtain ⟨o, w1, h1, h2⟩ := bind_ok_inv h
  obtain ⟨c, hc, ho, hp⟩ := getObsL h1
  obtain ⟨_, w2, h3, h4⟩ := bind_ok_inv h2
  obtain ⟨_, w3, h5, h6⟩ := bind_ok_inv h4
  obtain ⟨o', w4, h7, h8⟩ := bind_ok_inv h6
  obtain ⟨c1, hc1, ho1, hp1⟩ := getObsL h7
  subst ho1
  obtain ⟨t1, a, b, b1⟩ := callEachL_briefed
    (Q := fun cb s e => ∃ y, (y ∈ s.c.map ∨ y ∈ s.g.ext) ∧ y.addr = p ∧ e = .hit cb k y.info.value)
    (fun cb s e s' h => by
      obtain ⟨n, s1, h9, h10⟩ := bind_ok_inv h
      have h11 : (Out.ok (Event.hit cb k n.info.value) s1 : Out (St (Cache K V) K V) _) = .ok e s' := h10
      injection h11 with h12 h13
      subst h12 h13
      unfold Impl.deref at h9
      split at h9
      · next y hy =>
        injection h9 with h14 h15
        subst h14
        exact ⟨h15.symm, y, .inl (List.mem_of_find?_eq_some hy), by simpa using List.find?_some hy, rfl⟩
      · split at h9
        · next y hy =>
          injection h9 with h14 h15
          subst h14
          exact ⟨h15.symm, y, .inr (List.mem_of_find?_eq_some hy), by simpa using List.find?_some hy, rfl⟩
        · cases h9) h5
  obtain ⟨t2, a', b'⟩ := callEachL_told (ev := fun cb => .access cb k true) h8
  refine ⟨c, c1, t1, t2, w2, w3, hc, (countHit_tallied (hp.caches ▸ hc) ho h3).first hp, a, by rw [b, ho], ?_, hc1,
    .first hp1 a', b'⟩
  intro n cb hcb
  obtain ⟨wn, cn, e, h9, h10, ⟨y, h11, h12, rfl⟩, h13⟩ := b1 n cb (by rw [ho]; exact hcb)
  rcases h11 with h11 | h11
  · exact ⟨wn, i, cn, y, h9, h10, h11, h12, h13⟩
  · obtain ⟨j, cj, h14, h15⟩ := mem_allNodes.1 h11
    by_cases hj : i = j
    · subst hj
      rw [List.getElem?_set_self (List.getElem?_eq_some_iff.1 h10).1] at h14
      cases h14
    · rw [List.getElem?_set_ne hj] at h14
      exact ⟨wn, j, cj, y, h9, h14, h15, h12, h13⟩

/-! ### Misses -/

theorem findL_missed (h : Impl.findL O F (Impl.stepL O F d) busy i k w = .ok none w') : MissHeard O F i k w w' := by
  unfold Impl.findL at h
  obtain ⟨it, w1, h1, h2⟩ := bind_ok_inv h
  have hp := onCache_passes mapFind_still mapFind_q h1
  cases it with
  | none =>
    obtain ⟨_, w2, h3, h4⟩ := bind_ok_inv h2
    cases h4
    exact (registerMissL_heard h3).first hp
  | some n =>
    obtain ⟨b, w2, h3, h4⟩ := bind_ok_inv h2
    have hp2 := onCache_passes hasExpiredInfo_still hasExpiredInfo_q h3
    cases b with
    | true =>
      obtain ⟨_, w3, h5, h6⟩ := bind_ok_inv h4
      cases h6
      exact (registerMissL_heard h5).first (hp.trans hp2)
    | false =>
      obtain ⟨_, w3, _, h6⟩ := bind_ok_inv h4
      obtain ⟨_, w4, _, h8⟩ := bind_ok_inv h6
      cases h8

theorem onCache_throw {m : Impl.CM K V α} {e : Err} (h : Impl.onCache i m w = .throw e w') :
    ∃ c s', w.caches[i]? = some (some c) ∧ m (viewOf w i c) = .throw e s' := by
  by_cases hd : ∃ c, w.caches[i]? = some (some c)
  · obtain ⟨c, hc⟩ := hd
    rw [onCache_of hc] at h
    cases hm : m (viewOf w i c) with
    | throw e' s' => rw [hm] at h; injection h with h1; exact ⟨c, s', hc, by rw [← h1, hm]⟩
    | _ => rw [hm] at h; cases h
  · rw [onCache_dead (fun c hc => hd ⟨c, hc⟩)] at h
    cases h

variable {E : Err}

/-- The program does not throw `E`. -/
def FindsW (E : Err) (m : M (World K V) α) : Prop := ∀ w w', m w ≠ .throw E w'

theorem FindsW.bind {m : M (World K V) α} {f : α → M (World K V) β} (h : FindsW E m) (h' : ∀ a, FindsW E (f a)) :
    FindsW E (m >>= f) := by
  intro w w' hw
  rcases bind_throw_inv hw with h1 | ⟨a, w1, _, h1⟩
  · exact h _ _ h1
  · exact h' _ _ _ h1

theorem Finds.onCache {m : Impl.CM K V α} (h : Finds E m) : FindsW E (Impl.onCache i m) := by
  intro w w' hw
  obtain ⟨c, s', _, h1⟩ := onCache_throw hw
  exact h _ _ h1

theorem runW_findsW {call : Nat → Op K V → M (World K V) (Res K V)} {p : WScript K V} : FindsW E (Impl.runW call p) := by
  intro w w' h
  induction p generalizing w with
  | done => cases h
  | call j op next ih =>
    unfold Impl.runW at h
    cases ho : call j op w with
    | ok r w1 => rw [ho] at h; exact ih _ _ h
    | throw e w1 => rw [ho] at h; exact ih _ _ h
    | _ => rw [ho] at h; cases h

theorem callEachL_findsW [NotUser E] {call : Nat → Op K V → M (World K V) (Res K V)} {ev : Nat → Impl.CM K V (Event K V)}
    (he : ∀ cb, Finds E (ev cb)) (l : List Nat) : FindsW E (Impl.callEachL O F i call ev l) := by
  induction l with
  | nil => intro w w' h; cases h
  | cons cb rest ih =>
    exact (he cb).onCache.bind fun e => (Finds.onCache (.run fun _ => ⟨_, _, rfl⟩)).bind fun _ =>
      runW_findsW.bind fun _ => attempt_finds.onCache.bind fun _ => ih

theorem registerHitL_findsW [NotUser E] {call : List (Nat × CbList) → Nat → Op K V → M (World K V) (Res K V)} {p : Ptr} :
    FindsW E (Impl.registerHitL O F call busy i k p) :=
  (Finds.onCache (.run fun _ => ⟨_, _, rfl⟩)).bind fun _ => countHit_finds.onCache.bind fun _ =>
    (callEachL_findsW (fun _ => deref_finds.bind fun _ => .pure) _).bind fun _ =>
    (Finds.onCache (.run fun _ => ⟨_, _, rfl⟩)).bind fun _ => callEachL_findsW (fun _ => .pure) _

theorem registerMissL_findsW [NotUser E] {call : List (Nat × CbList) → Nat → Op K V → M (World K V) (Res K V)} :
    FindsW E (Impl.registerMissL O F call busy i k) :=
  (Finds.onCache (.run fun _ => ⟨_, _, rfl⟩)).bind fun _ => countMiss_finds.onCache.bind fun _ =>
    (callEachL_findsW (fun _ => .pure) _).bind fun _ =>
    (Finds.onCache (.run fun _ => ⟨_, _, rfl⟩)).bind fun _ => callEachL_findsW (fun _ => .pure) _

theorem findL_findsW [NotUser E] {call : List (Nat × CbList) → Nat → Op K V → M (World K V) (Res K V)} :
    FindsW E (Impl.findL O F call busy i k) := by
  refine (Finds.onCache (.run fun _ => ⟨_, _, rfl⟩)).bind fun it => ?_
  have miss : FindsW E (do Impl.registerMissL O F call busy i k; pure none : M (World K V) (Option Ptr)) :=
    registerMissL_findsW.bind fun _ => by intro w w' h; cases h
  cases it with
  | none => exact miss
  | some n =>
    refine hasExpiredInfo_finds.onCache.bind fun b => ?_
    cases b with
    | true => exact miss
    | false =>
      refine registerHitL_findsW.bind fun _ => (Finds.onCache touchR_finds).bind fun _ => ?_
      intro w w' h; cases h

/-- The accesses that report a miss. -/
theorem missed_heard {op : Op K V} {res : Except Err (Res K V)} (hm : Missed k op res)
    (hk : op = .contains k → ∀ c, w.caches[i]? = some (some c) → c.kind = .basic) (hp : LPerforms O F i op w res w') :
    MissHeard O F i k w w' := by
  obtain ⟨d, hp⟩ := hp
  cases d with
  | zero => rcases hm with ⟨rfl, rfl⟩ | ⟨rfl, rfl⟩ | ⟨rfl, rfl⟩ <;> cases hp
  | succ d =>
    rcases hm with ⟨rfl, rfl⟩ | ⟨rfl, rfl⟩ | ⟨rfl, rfl⟩
    · obtain ⟨a, w1, h1, h2⟩ := bind_ok_inv (m := Impl.findL O F (Impl.stepL O F d) [] i k) hp
      cases h2
      exact findL_missed h1
    · obtain ⟨b, w1, ha, h0⟩ := bind_ok_inv (m := Impl.containsL O F (Impl.stepL O F d) [] i k) hp
      cases h0
      unfold Impl.containsL at ha
      obtain ⟨l, w2, h1, h2⟩ := bind_ok_inv ha
      have hp1 := onCache_passes lastIs_still lastIs_q h1
      cases l with
      | true =>
        simp only [if_true] at h2
        obtain ⟨b, w3, h3, h4⟩ := bind_ok_inv h2
        cases b with
        | true =>
          obtain ⟨_, w4, _, h6⟩ := bind_ok_inv h4
          obtain ⟨_, w5, _, h8⟩ := bind_ok_inv h6
          cases h8
        | false =>
          exfalso
          obtain ⟨c, s', hc, h5, -⟩ := onCache_ok h3
          have hb := hk rfl c (hp1.caches ▸ hc)
          unfold Impl.lastAccessedIsOk at h5
          rw [bind_ok (show Impl.getKind (viewOf w2 i c) = .ok .basic (viewOf w2 i c) by
            unfold Impl.getKind; rw [show (viewOf w2 i c).c.kind = c.kind from rfl, hb])] at h5
          cases h5
      | false =>
        obtain ⟨it, w3, h3, h4⟩ := bind_ok_inv h2
        have h4' : (Out.ok it.isSome w3 : Out (World K V) Bool) = .ok false w' := h4
        injection h4' with h5 h6
        subst h6
        cases it with
        | some p => cases h5
        | none => exact (findL_missed h3).first hp1
    · rcases bind_throw_inv (m := Impl.lookupL O F (Impl.stepL O F d) [] i k) hp with ho | ⟨_, _, _, h⟩
      · unfold Impl.lookupL at ho
        rcases bind_throw_inv ho with ho | ⟨l, w1, h1, h2⟩
        · exact absurd ho (Finds.onCache lastIs_finds _ _)
        · have hp1 := onCache_passes lastIs_still lastIs_q h1
          cases l with
          | true =>
            refine absurd h2 (FindsW.bind (Finds.onCache (valueForLastAccessed_finds (E := .keyNotFound) (fun h => nomatch h)))
              (fun n => registerHitL_findsW.bind fun _ => (Finds.onCache deref_finds).bind fun _ => ?_) _ _)
            intro w w' h; cases h
          | false =>
            rcases bind_throw_inv (m := Impl.findL O F (Impl.stepL O F d) [] i k) h2 with h3 | ⟨it, w2, h3, h4⟩
            · exact absurd h3 (findL_findsW _ _)
            · cases it with
              | none =>
                have h4' : (Out.throw .keyNotFound w2 : Out (World K V) (Ptr × V)) = .throw .keyNotFound w' := h4
                injection h4' with _ h4'
                subst h4'
                exact (findL_missed h3).first hp1
              | some p =>
                refine absurd h4 (FindsW.bind (Finds.onCache (entryU_finds (E := .keyNotFound) (fun h => nomatch h))) (fun _ => ?_) _ _)
                intro w w' h; cases h
      · cases h

theorem access_findsW [NotUser E] {op : Op K V} (hop : op.Accesses k)
    (hE : op = .lookup k → E ≠ .keyNotFound ∧ E ≠ .keyExpired) : FindsW E (Impl.stepL O F d busy i op) := by
  cases d with
  | zero => intro s s' h; cases h
  | succ d =>
    have hpure : ∀ {α : Type} (a : α), FindsW E (pure a : M (World K V) α) := by
      intro α a w w' h; cases h
    have hnode : Finds E (Impl.lastNode : Impl.CM K V _) := by
      refine Finds.bind (.run fun _ => ⟨_, _, rfl⟩) fun p => ?_
      cases p with
      | none => intro s s' h; cases h
      | some p => exact deref_finds
    have hlast : FindsW E (Impl.onCache i (Impl.lastIs k : Impl.CM K V Bool)) := lastIs_finds.onCache
    have hfind : FindsW E (Impl.findL O F (Impl.stepL O F d) busy i k) := findL_findsW
    have hite : ∀ {α : Type} {p : Prop} [Decidable p] {m m' : M (World K V) α}, FindsW E m → FindsW E m' →
        FindsW E (if p then m else m') := by
      intro α p _ m m' h h'; split <;> assumption
    rw [Impl.stepL]
    refine hite (fun w w' h => by cases h) ?_
    rcases hop with rfl | rfl | rfl
    · refine FindsW.bind (m := Impl.containsL O F (Impl.stepL O F d) busy i k) ?_ fun _ => hpure _
      refine hlast.bind fun b => hite ?_ (hfind.bind fun _ => hpure _)
      refine FindsW.bind (Finds.onCache ?_) fun b =>
        hite (hnode.onCache.bind fun _ => registerHitL_findsW.bind fun _ => hpure _) (hpure _)
      refine Finds.bind (.run fun _ => ⟨_, _, rfl⟩) fun kind => ?_
      cases kind with
      | basic => exact .pure
      | timed ttl res => exact hnode.bind fun _ => hasExpiredInfo_finds.bind fun _ => .pure
    · exact hfind.bind fun _ => hpure _
    · obtain ⟨h1, h2⟩ := hE rfl
      refine FindsW.bind (m := Impl.lookupL O F (Impl.stepL O F d) busy i k) ?_ fun _ => hpure _
      refine hlast.bind fun b => hite ((valueForLastAccessed_finds h2).onCache.bind fun _ =>
        registerHitL_findsW.bind fun _ => (Finds.onCache deref_finds).bind fun _ => hpure _) (hfind.bind fun it => ?_)
      cases it with
      | none => intro s s' h; injection h with h; exact h1 h.symm
      | some p => exact (Finds.onCache (entryU_finds h2)).bind fun _ => hpure _

/-! ### Hits -/

theorem WVia.inv (hO : NoListFault O) {l : WCalls K V} (h : WVia O F w l w') (hw : WInv w own) : WInv w' own := by
  induction h with
  | nil h1 => exact hw.shared hO h1.caches h1.next
  | call h1 h2 _ ih => exact ih (h2.inv hO (hw.shared hO h1.caches h1.next))

theorem Briefed.inv (hO : NoListFault O) {t : List (Event K V × WCalls K V)} (h : Briefed O F i w t w')
    (hw : WInv w own) : WInv w' own := by
  induction h with
  | nil h1 => exact hw.shared hO h1.caches h1.next
  | cons h1 _ h3 _ ih =>
    exact ih (h3.inv hO ((hw.shared hO h1.caches h1.next).shared hO rfl (Nat.le_refl _)))

theorem HitHeard.inv (hO : NoListFault O) {p : Ptr} (h : HitHeard O F i k p w w') (hw : WInv w own) : WInv w' own := by
  obtain ⟨c, c1, t1, t2, w0, w1, -, h1, h2, -, -, -, h3, -⟩ := h
  exact h3.inv hO (h2.inv hO (hw.shared hO h1.caches h1.next))

theorem HitHeard.last {p : Ptr} (h : HitHeard O F i k p w w1) (h' : Passes w1 w') : HitHeard O F i k p w w' := by
  obtain ⟨c, c1, t1, t2, w0, w2, a, b, c', d, e, f, g, r⟩ := h
  exact ⟨c, c1, t1, t2, w0, w2, a, b, c', d, e, f, g.last h', r⟩

/-- The entry at `p` of cache `i` was made the most recently used one. Nothing else happened. -/
def TouchedL (i : Nat) (p : Ptr) (w w' : World K V) : Prop :=
  ∃ c c' y, w.caches[i]? = some (some c) ∧ w'.caches = w.caches.set i (some c') ∧ y ∈ elements c ∧ y.addr = p ∧
    elements c' = (elements c).filter (fun z => z.addr != p) ++ [y] ∧ w'.g.log = w.g.log ∧ w'.g.stats = w.g.stats

theorem TouchedL.last {p : Ptr} (h : TouchedL i p w w1) (h' : Passes w1 w') : TouchedL i p w w' := by
  obtain ⟨c, c', y, a, b, c1, d, e, f, g⟩ := h
  exact ⟨c, c', y, a, h'.caches.trans b, c1, d, e, h'.log.trans f, h'.stats.trans g⟩

theorem findL_hit (hO : NoListFault O) (hw : WInv w own) (hi : own i = true) (hc : w.caches[i]? = some (some c)) {p : Ptr}
    (h : Impl.findL O F (Impl.stepL O F d) busy i k w = .ok (some p) w') :
    ∃ x w2, entryFor c k = some x ∧ x.addr = p ∧ HitHeard O F i k p w w2 ∧ TouchedL i p w2 w' := by
  obtain ⟨t, hr, ht⟩ := hw.pair.view hc (hw.own i c hc hi).1
  unfold Impl.findL at h
  obtain ⟨it, w1, h1, h2⟩ := bind_ok_inv h
  have hp := onCache_passes mapFind_still mapFind_q h1
  obtain ⟨c1, s1, hc1, h1', -⟩ := onCache_ok h1
  obtain rfl : c1 = c := by rw [hc] at hc1; injection hc1 with hc1; injection hc1 with hc1; exact hc1.symm
  have hf : Impl.mapFind k (viewOf w i c1) = .ok ((t.c.ents.find? (fun x => keq x.key k)).map Ent.node) (viewOf w i c1) := by
    unfold Impl.mapFind
    rw [hr.rep.find_key hr.awf]
  rw [hf] at h1'
  injection h1' with hit _
  cases it with
  | none =>
    obtain ⟨_, w2, _, h4⟩ := bind_ok_inv h2
    cases h4
  | some n =>
    obtain ⟨b, w2, h3, h4⟩ := bind_ok_inv h2
    have hp2 := onCache_passes hasExpiredInfo_still hasExpiredInfo_q h3
    cases b with
    | true =>
      obtain ⟨_, w3, _, h6⟩ := bind_ok_inv h4
      cases h6
    | false =>
      obtain ⟨_, w3, h5, h6⟩ := bind_ok_inv h4
      obtain ⟨_, w4, h7, h8⟩ := bind_ok_inv h6
      have h8' : (Out.ok (some n.addr) w4 : Out (World K V) (Option Ptr)) = .ok (some p) w' := h8
      injection h8' with h9 h10
      injection h9 with h9
      subst h9 h10
      have hh : HitHeard O F i k n.addr w w3 := (registerHitL_heard h5).first (hp.trans hp2)
      refine ⟨n, w3, ?_, rfl, hh, ?_⟩
      · have := hr.entryFor (k := k)
        rw [show (viewOf w i c1).c = c1 from rfl] at this
        rw [this, hit]
      · have hw3 := hh.inv hO hw
        obtain ⟨c3, s3, hc3, h11, rfl⟩ := onCache_ok h7
        obtain ⟨t3, hr3, ht3⟩ := hw3.pair.view hc3 (hw3.own i c3 hc3 hi).1
        obtain ⟨y, hy, ha, he⟩ := touchR_elements hr3 ht3 h11
        have hq : Quietly (Impl.touchR n.addr : Impl.CM K V Unit) :=
          derefIt_q.bind fun _ => moveToFront_q.bind fun _ => setLast_q
        have hq := hq (viewOf w3 i c3)
        rw [h11] at hq
        exact ⟨c3, s3.c, y, hc3, rfl, hy, ha, he, Silent.log hq, Silent.stats hq⟩

/-- The accesses that report a hit. -/
theorem found_heard (hO : NoListFault O) (hw : WInv w own) (hi : own i = true) (hc : w.caches[i]? = some (some c))
    {op : Op K V} {r : Res K V} (hop : op.Accesses k) (hf : found (.ok r) = true) (hp : LPerforms O F i op w (.ok r) w') :
    ∃ x w2, entryFor c k = some x ∧ HitHeard O F i k x.addr w w2 ∧
      (op = .find k ∨ c.last ≠ some x.addr → TouchedL i x.addr w2 w') ∧
      (op ≠ .find k → c.last = some x.addr → Passes w2 w') := by
  obtain ⟨t, hr, ht⟩ := hw.pair.view hc (hw.own i c hc hi).1
  have hfirm : Firm c := hr.firm ht
  obtain ⟨d, hd⟩ := hp
  cases d with
  | zero => cases hd
  | succ d =>
    -- a hit by the shortcut
    have key : ∀ {n : MapNode K V} {w1 w3 : World K V}, n ∈ c.map → keq n.key k = true → c.last = some n.addr →
        Passes w w1 → Impl.registerHitL O F (Impl.stepL O F d) [] i k n.addr w1 = .ok () w3 → op ≠ .find k → Passes w3 w' →
        ∃ x w2, entryFor c k = some x ∧ HitHeard O F i k x.addr w w2 ∧
          (op = .find k ∨ c.last ≠ some x.addr → TouchedL i x.addr w2 w') ∧
          (op ≠ .find k → c.last = some x.addr → Passes w2 w') := by
      intro n w1 w3 hn hkn hl hpw h1 hne hpl
      obtain ⟨e, he, rfl⟩ := List.mem_map.1 (hr.rep.map.mem_iff.1 hn)
      refine ⟨e.node, w3, ?_, (registerHitL_heard h1).first hpw, ?_, fun _ _ => hpl⟩
      · have := hr.entryFor (k := k)
        rw [show (viewOf w i c).c = c from rfl] at this
        rw [this, ht.findKey he hkn]; rfl
      · rintro (h2 | h2)
        · exact absurd h2 hne
        · exact absurd hl h2
    -- a hit by `find`
    have key' : ∀ {p : Ptr} {w1 w3 : World K V}, Passes w w1 →
        (op ≠ .find k → ∀ x ∈ c.map, keq x.key k = true → c.last ≠ some x.addr) →
        Impl.findL O F (Impl.stepL O F d) [] i k w1 = .ok (some p) w3 → Passes w3 w' →
        ∃ x w2, entryFor c k = some x ∧ HitHeard O F i k x.addr w w2 ∧
          (op = .find k ∨ c.last ≠ some x.addr → TouchedL i x.addr w2 w') ∧
          (op ≠ .find k → c.last = some x.addr → Passes w2 w') := by
      intro p w1 w3 hpw hl h1 hpl
      obtain ⟨x, w2, h2, rfl, h3, h4⟩ := findL_hit hO (hw.shared hO hpw.caches hpw.next) hi (hpw.caches ▸ hc) h1
      refine ⟨x, w2, h2, h3.first hpw, fun _ => h4.last hpl, fun h6 h7 => ?_⟩
      have hx := List.mem_of_find?_eq_some h2
      have hel : elements c = t.c.ents.map Ent.node := hr.elements
      rw [hel] at hx
      exact absurd h7 (hl h6 x (hr.rep.map.mem_iff.2 hx) (List.find?_some (p := fun n : MapNode K V => keq n.key k) h2))
    rcases hop with rfl | rfl | rfl
    · obtain ⟨b, w1, ha, h0⟩ := bind_ok_inv (m := Impl.containsL O F (Impl.stepL O F d) [] i k) hd
      have h0' : (Out.ok (.bool b) w1 : Out (World K V) (Res K V)) = .ok r w' := h0
      injection h0' with h01 h02
      subst h01 h02
      have hb : b = true := hf
      subst hb
      unfold Impl.containsL at ha
      obtain ⟨l, w2, h1, h2⟩ := bind_ok_inv ha
      have hp1 := onCache_passes lastIs_still lastIs_q h1
      obtain ⟨c1, s1, hc1, h1', -⟩ := onCache_ok h1
      obtain rfl : c1 = c := by rw [hc] at hc1; injection hc1 with hc1; injection hc1 with hc1; exact hc1.symm
      cases l with
      | true =>
        obtain ⟨-, n, hn, hl, hkn⟩ := lastIs_true (s := viewOf w i c1) hfirm h1'
        simp only [if_true] at h2
        obtain ⟨b, w3, h3, h4⟩ := bind_ok_inv h2
        have hp3 := hp1.trans (onCache_passes lastAccessedIsOk_still lastAccessedIsOk_silent h3)
        cases b with
        | false => cases h4
        | true =>
          simp only [if_true] at h4
          obtain ⟨m, w4, h5, h6⟩ := bind_ok_inv h4
          have hp4 := hp3.trans (onCache_passes lastNode_still lastNode_q h5)
          obtain ⟨c2, s2, hc2, h5', -⟩ := onCache_ok h5
          obtain rfl : c2 = c1 := by
            rw [hp3.caches, hc] at hc2; injection hc2 with hc2; injection hc2 with hc2; exact hc2.symm
          rw [lastNode_last (s := viewOf w3 i c2) hfirm hn hl] at h5'
          injection h5' with h7 _
          subst h7
          obtain ⟨_, w5, h8, h9⟩ := bind_ok_inv h6
          cases h9
          exact key hn (by rw [KeyEqual.symm]; exact hkn) hl hp4 h8 (by nofun) (.refl _)
      | false =>
        obtain ⟨it, w3, h3, h4⟩ := bind_ok_inv h2
        have h4' : (Out.ok it.isSome w3 : Out (World K V) Bool) = .ok true w1 := h4
        injection h4' with h5 h6
        subst h6
        cases it with
        | none => cases h5
        | some p =>
          exact key' hp1 (fun _ x hx hkx => lastIs_false (s := viewOf w i c1) hfirm h1' hx hkx) h3 (.refl _)
    · obtain ⟨a, w1, ha, h0⟩ := bind_ok_inv (m := Impl.findL O F (Impl.stepL O F d) [] i k) hd
      have h0' : (Out.ok (.pos a) w1 : Out (World K V) (Res K V)) = .ok r w' := h0
      injection h0' with h01 h02
      subst h01 h02
      cases a with
      | none => cases hf
      | some p => exact key' (.refl _) (fun h => absurd rfl h) ha (.refl _)
    · obtain ⟨⟨p, v⟩, w1, ha, h0⟩ := bind_ok_inv (m := Impl.lookupL O F (Impl.stepL O F d) [] i k) hd
      have h0' : (Out.ok (.ref p v) w1 : Out (World K V) (Res K V)) = .ok r w' := h0
      injection h0' with h01 h02
      subst h01 h02
      unfold Impl.lookupL at ha
      obtain ⟨l, w2, h1, h2⟩ := bind_ok_inv ha
      have hp1 := onCache_passes lastIs_still lastIs_q h1
      obtain ⟨c1, s1, hc1, h1', -⟩ := onCache_ok h1
      obtain rfl : c1 = c := by rw [hc] at hc1; injection hc1 with hc1; injection hc1 with hc1; exact hc1.symm
      cases l with
      | true =>
        obtain ⟨-, n, hn, hl, hkn⟩ := lastIs_true (s := viewOf w i c1) hfirm h1'
        simp only [if_true] at h2
        obtain ⟨m, w3, h3, h4⟩ := bind_ok_inv h2
        have hp3 := hp1.trans (onCache_passes valueForLastAccessed_still valueForLastAccessed_silent h3)
        obtain ⟨c2, s2, hc2, h3', -⟩ := onCache_ok h3
        obtain rfl : c2 = c1 := by
          rw [hp1.caches, hc] at hc2; injection hc2 with hc2; injection hc2 with hc2; exact hc2.symm
        have hmn : m = n := valueForLastAccessed_last (s := viewOf w2 i c2) hfirm hn hl h3'
        subst hmn
        obtain ⟨_, w4, h5, h6⟩ := bind_ok_inv h4
        obtain ⟨m', w5, h7, h8⟩ := bind_ok_inv h6
        cases h8
        exact key hn (by rw [KeyEqual.symm]; exact hkn) hl hp3 h5 (by nofun) (onCache_passes deref_still deref_q h7)
      | false =>
        obtain ⟨it, w3, h3, h4⟩ := bind_ok_inv h2
        cases it with
        | none => cases h4
        | some q =>
          obtain ⟨m, w4, h5, h6⟩ := bind_ok_inv h4
          cases h6
          exact key' hp1 (fun _ x hx hkx => lastIs_false (s := viewOf w i c1) hfirm h1' hx hkx) h3
            (onCache_passes entryU_still entryU_silent h5)

end LRU
