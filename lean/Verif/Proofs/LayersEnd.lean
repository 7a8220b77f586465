import Verif.Proofs.LayersSame
/-!
# Callbacks that use other caches: calls end
-/

set_option autoImplicit false
set_option linter.unusedSectionVars false

namespace LRU

variable {K V : Type} [KeyEqual K] [DecidableEq K] [DecidableEq V] {O : Oracle K V}
  {F : Nat → Event K V → WScript K V} {α β : Type} {i : Nat} {own U : Nat → Bool} {w w' : World K V} {rank : Nat → Nat}
  {c c' : Cache K V} {k : K} {busy : List (Nat × CbList)} {d : Nat} {Q Q' : World K V → Prop}

/-- The caches in `U` are live, hold no copies, and have a capacity. -/
structure Usable (U own : Nat → Bool) (w : World K V) : Prop where
  inv : WInv w own
  live : ∀ j, U j = true → own j = true ∧ ∃ c, w.caches[j]? = some (some c) ∧ c.capacity ≠ none

/-- The call ends in a state with `Q`. -/
def EndsW (Q : World K V → Prop) : Out (World K V) α → Prop
  | .ok _ w => Q w
  | .throw _ w => Q w
  | _ => False

theorem EndsW.imp {o : Out (World K V) α} (h : EndsW Q o) (hq : ∀ w, Q w → Q' w) : EndsW Q' o := by
  cases o <;> first | exact hq _ h | exact h

theorem EndsW.bind {m : M (World K V) α} {f : α → M (World K V) β} (h : EndsW Q (m w)) (hq : ∀ w, Q w → Q' w)
    (h' : ∀ a w', m w = .ok a w' → Q w' → EndsW Q' (f a w')) : EndsW Q' ((m >>= f) w) := by
  show EndsW Q' (M.bind m f w)
  unfold M.bind
  cases hm : m w with
  | ok a w' => rw [hm] at h; exact h' a w' hm h
  | throw e w' => rw [hm] at h; exact hq _ h
  | _ => rw [hm] at h; exact h.elim

theorem EndsW.completes {o : Out (World K V) α} (h : EndsW Q o) : (∃ a w', o = .ok a w') ∨ ∃ e w', o = .throw e w' := by
  cases o with
  | ok a w => exact .inl ⟨a, w, rfl⟩
  | throw e w => exact .inr ⟨e, w, rfl⟩
  | _ => exact h.elim

theorem EndsW.and {P : World K V → Prop} {o : Out (World K V) α} (h : EndsW Q o) (h' : o.Post P) :
    EndsW (fun w => Q w ∧ P w) o := by
  cases o <;> first | exact ⟨h, h'⟩ | exact h

/-- The same with cache `i` in state `c`. -/
structure Parked (U own : Nat → Bool) (i : Nat) (c : Cache K V) (w : World K V) : Prop where
  ready : Usable U own w
  at_ : w.caches[i]? = some (some c)

theorem Usable.view (h : Usable U own w) (hi : U i = true) (hc : w.caches[i]? = some (some c)) : Live (viewOf w i c) := by
  obtain ⟨t, hr, ht⟩ := h.inv.pair.view hc (h.inv.own i c hc (h.live i hi).1).1
  refine ⟨t, hr, ht, ?_⟩
  obtain ⟨-, c', hc', hn⟩ := h.live i hi
  rw [hc] at hc'
  injection hc' with hc'
  injection hc' with hc'
  subst hc'
  rw [← hr.rep.cap]
  exact hn

theorem Parked.live (h : Parked U own i c w) (hi : U i = true) : Live (viewOf w i c) := h.ready.view hi h.at_

theorem Parked.firm (h : Parked U own i c w) (hi : U i = true) : Firm c := (h.live hi).firm

theorem Usable.at_ (h : Usable U own w) (hi : U i = true) : ∃ c, Parked U own i c w := by
  obtain ⟨-, c, hc, -⟩ := h.live i hi
  exact ⟨c, h, hc⟩

/-- Programs that leave the cache alone. -/
theorem onCache_at (hO : NoListFault O) {m : Impl.CM K V α} (hm : Still m) (h : Parked U own i c w)
    (hc : Completes (m (viewOf w i c))) : EndsW (Parked U own i c) (Impl.onCache i m w) := by
  have h1 := onCache_still (i := i) hm w
  have h2 : ∀ w' : World K V, (w'.caches = w.caches ∧ w.g.next ≤ w'.g.next ∧ w.g.ticks ≤ w'.g.ticks) → Parked U own i c w' := by
    rintro w' ⟨e, hn, -⟩
    exact ⟨⟨h.ready.inv.shared hO e hn, by rw [e]; exact h.ready.live⟩, by rw [e]; exact h.at_⟩
  rw [onCache_of h.at_] at h1 ⊢
  rcases hc with ⟨a, s', hc⟩ | ⟨e, s', hc⟩
  · rw [hc] at h1 ⊢; exact h2 _ h1
  · rw [hc] at h1 ⊢; exact h2 _ h1

theorem Fin.at_ (hO : NoListFault O) {m : Impl.CM K V α} (hm : Still m) (hf : Fin m) (hi : U i = true) (h : Parked U own i c w) :
    EndsW (Parked U own i c) (Impl.onCache i m w) := onCache_at hO hm h (hf _ (h.live hi)).completes

/-- Member functions. -/
theorem onCache_ready (hO : NoListFault O) {m : Impl.CM K V α} {m' : Mid.CM K V α} (hs : Sim m m') (hk : Keeps m')
    (hr : Raw m) (h : Parked U own i c w) (hm : Ends (m (viewOf w i c))) : EndsW (Usable U own) (Impl.onCache i m w) := by
  have h1 := h.ready.inv.member (i := i) hO hs hk hr
  have key : ∀ s', Live s' → WInv (⟨w.caches.set i (some s'.c), s'.g⟩ : World K V) own →
      Usable U own (⟨w.caches.set i (some s'.c), s'.g⟩ : World K V) := by
    intro s' hl hw
    refine ⟨hw, fun j hj => ⟨(h.ready.live j hj).1, ?_⟩⟩
    by_cases hji : j = i
    · subst hji
      exact ⟨s'.c, get_set_self h.at_, hl.cap⟩
    · obtain ⟨-, d, hd, hn⟩ := h.ready.live j hj
      exact ⟨d, (get_set_other (Ne.symm hji)).trans hd, hn⟩
  rw [onCache_of h.at_] at h1 ⊢
  cases ho : m (viewOf w i c) with
  | ok a s' => rw [ho] at h1 hm; exact key s' hm h1.1
  | throw e s' => rw [ho] at h1 hm; exact key s' hm h1.1
  | _ => rw [ho] at hm; exact hm.elim

theorem runW_ends {call : Nat → Op K V → M (World K V) (Res K V)} {P : Nat → Op K V → Prop} {p : WScript K V}
    (hp : p.Only P) (hc : ∀ j op, P j op → ∀ w, Q w → EndsW Q (call j op w)) (hw : Q w) :
    EndsW Q (Impl.runW call p w) := by
  induction p generalizing w with
  | done => exact hw
  | call j op next ih =>
    unfold Impl.runW
    have h1 := hc j op hp.1 w hw
    cases h : call j op w with
    | ok r w' => rw [h] at h1; exact ih _ (hp.2 _) h1
    | throw e w' => rw [h] at h1; exact ih _ (hp.2 _) h1
    | _ => rw [h] at h1; exact h1.elim

theorem plain_registers {op : Op K V} (h : op.Plain) (busy : List (Nat × CbList)) :
    busy.any (fun b => b.1 == i && op.registers b.2) = false := by
  rw [List.any_eq_false]
  rintro ⟨j, x⟩ _
  rcases h with h | ⟨k, rfl | rfl | rfl⟩
  · cases op <;> first | exact h.elim | (cases x <;> simp [Op.registers])
  all_goals cases x <;> simp [Op.registers]

theorem stepL_manages {op : Op K V} (h : op.Manages) (hd : 0 < d) :
    Impl.stepL O F d busy i op = Impl.onCache i (Impl.step O op) := by
  obtain ⟨d, rfl⟩ := Nat.exists_eq_succ_of_ne_zero (Nat.ne_of_gt hd)
  rw [Impl.stepL, plain_registers (.inl h)]
  cases op <;> first | rfl | exact h.elim

theorem Op.Inspects.manages {op : Op K V} (h : op.Inspects) : op.Manages := by
  cases op <;> first | trivial | exact h.elim

/-- `find` leaves the entry it has found as the last accessed one. -/
theorem findL_last {call : List (Nat × CbList) → Nat → Op K V → M (World K V) (Res K V)} {p : Ptr}
    (h : Impl.findL O F call busy i k w = .ok (some p) w') :
    ∃ c', w'.caches[i]? = some (some c') ∧ c'.last = some p := by
  unfold Impl.findL at h
  obtain ⟨it, w1, -, h1⟩ := bind_ok_inv h
  cases it with
  | none =>
    obtain ⟨_, w2, -, h2⟩ := bind_ok_inv h1
    cases h2
  | some n =>
    obtain ⟨b, w2, -, h2⟩ := bind_ok_inv h1
    cases b with
    | true =>
      obtain ⟨_, w3, -, h3⟩ := bind_ok_inv h2
      cases h3
    | false =>
      obtain ⟨_, w3, -, h3⟩ := bind_ok_inv h2
      obtain ⟨_, w4, h4, h5⟩ := bind_ok_inv h3
      cases h5
      obtain ⟨c1, s1, hc1, h6, rfl⟩ := onCache_ok h4
      refine ⟨s1.c, get_set_self hc1, ?_⟩
      unfold Impl.touchR at h6
      obtain ⟨_, s2, -, h7⟩ := bind_ok_inv h6
      obtain ⟨_, s3, -, h8⟩ := bind_ok_inv h7
      cases h8
      rfl

theorem Orderly.tiered (h : Orderly U rank F) :
    ∀ i, U i = true → ∀ e, (F i e).Only fun j _ => U j = true ∧ (j = i ∨ rank j < rank i) := by
  intro i hi e
  by_cases he : e.Hits
  · exact ((h i hi e).1 he).mono fun j op h => ⟨h.1, h.2.imp (·.1) (·.1)⟩
  · exact ((h i hi e).2 he).mono fun j op h => ⟨h.1, h.2.imp (·.1) (·.1)⟩

theorem inside {rank : Nat → Nat} (hb : ∀ x ∈ busy, rank i ≤ rank x.1) (l : CbList) :
    ∀ x ∈ (i, l) :: busy, rank i ≤ rank x.1 := by
  intro x hx
  rcases List.mem_cons.1 hx with rfl | hx
  · exact Nat.le_refl _
  · exact hb x hx

theorem registers_fin (hO : NoListFault O) {op : Op K V} (hm : op.Registers) : Fin (Impl.step O op) := by
  obtain ⟨l, hm⟩ := hm
  rintro s ⟨t, hr, ht, hn⟩
  have h1 := step_completes (op := op) hO hr ht (by cases op <;> first | trivial | (cases l <;> cases hm))
    (by rintro ⟨rfl | rfl, -⟩ <;> cases l <;> cases hm)
  have h2 : Goes (fun t t' : St (MCache K V) K V => t.c.cap ≠ none → t'.c.cap ≠ none) (Impl.step O op) :=
    .of_sim (step_sim hO op) (step_within (cap_elem (O := O)) hO op)
  rcases h1 with ⟨r, s', h1⟩ | ⟨e, s', h1⟩
  · obtain ⟨t', hr', ht', hn'⟩ := h2.ok hr ht h1
    rw [h1]
    exact ⟨t', hr', ht', hn' hn⟩
  · obtain ⟨t', hr', ht', hn'⟩ := h2.throw hr ht h1
    rw [h1]
    exact ⟨t', hr', ht', hn' hn⟩

/-- Callbacks of a cache none of whose containers is being iterated over. -/
theorem stepL_registers {op : Op K V} (h : op.Registers) (hb : ∀ x ∈ busy, x.1 ≠ i) :
    Impl.stepL O F (d + 1) busy i op = Impl.onCache i (Impl.step O op) := by
  have h1 : busy.any (fun b => b.1 == i && op.registers b.2) = false := by
    rw [List.any_eq_false]
    intro x hx
    simp [hb x hx]
  rw [Impl.stepL, h1]
  obtain ⟨l, h⟩ := h
  cases op <;> first | rfl | (cases l <;> cases h)

section calls

variable (hO : NoListFault O) (hU : Orderly U rank F) (hd : 0 < d)
  (hcall : ∀ b j op, U j = true → op.Plain ∨ op.Registers → rank j < rank i → (∀ x ∈ b, rank j < rank x.1) →
    ∀ w : World K V, Usable U own w → EndsW (Usable U own) (Impl.stepL O F d b j op w)) (hi : U i = true)
  (hb : ∀ x ∈ busy, rank i ≤ rank x.1)
include hO hU hd hcall hi hb

/-- Callbacks told of a hit. -/
theorem callEachL_hits {ev : Nat → Impl.CM K V (Event K V)} (he : ∀ cb, Still (ev cb))
    (hE : ∀ cb s e s', ev cb s = .ok e s' → e.Hits)
    (hev : ∀ cb w, Parked U own i c w → Completes (ev cb (viewOf w i c))) (l : List Nat) (hw : Parked U own i c w) :
    EndsW (Parked U own i c) (Impl.callEachL O F i (Impl.stepL O F d busy) ev l w) := by
  induction l generalizing w with
  | nil => exact hw
  | cons cb rest ih =>
    refine (onCache_at hO (he cb) hw (hev cb w hw)).bind (fun _ h => h) fun e w1 h1 hw1 => ?_
    refine (emit_fin.at_ hO emit_still hi hw1).bind (fun _ h => h) fun _ w2 _ hw2 => ?_
    refine EndsW.bind (Q := Parked U own i c) ?_ (fun _ h => h) fun _ w3 _ hw3 => ?_
    · refine runW_ends ((hU i hi e).1 (onCache_event (hE cb) h1)) (fun j op hp w hw => ?_) hw2
      rcases hp with ⟨hj, ⟨rfl, hop⟩ | ⟨hr, hop⟩⟩
      · rw [stepL_manages hop.manages hd]
        have hcap : (viewOf w j c).c.capacity ≠ none := (hw.live hi).cap
        rcases inspects_inert (O := O) hop hcap with ⟨r, h⟩ | ⟨e, h⟩
        all_goals
          rw [onCache_of hw.at_, h]
          simp only [EndsW]
          rw [show (viewOf w j c).c = c from rfl, set_same hw.at_]
          exact ⟨⟨hw.ready.inv.shared hO rfl (Nat.le_refl _), hw.ready.live⟩, hw.at_⟩
      · have h2 := hcall busy j op hj hop hr (fun x hx => Nat.lt_of_lt_of_le hr (hb x hx)) w hw.ready
        have h3 := stepL_tiered hO hU.tiered d busy j hj op w hw.ready.inv
        exact (h2.and h3).imp fun w' h => ⟨h.1, ((h.2.2.from hr).2 i (Nat.le_refl _)).trans hw.at_⟩
    · exact (attempt_fin.at_ hO attempt_still hi hw3).bind (fun _ h => h) fun _ w4 _ hw4 => ih hw4

omit hU hd hcall hb in
theorem Fin.ready {m : Impl.CM K V α} (hm : Still m) (hf : Fin m) (hw : Usable U own w) : EndsW (Usable U own) (Impl.onCache i m w) := by
  obtain ⟨c, hc⟩ := hw.at_ hi
  exact (hf.at_ hO hm hi hc).imp fun _ h => h.ready

/-- Callbacks told of a miss. -/
theorem callEachL_misses {ev : Nat → Event K V} (hE : ∀ cb, ¬ (ev cb).Hits) (l : List Nat) (hw : Usable U own w) :
    EndsW (Usable U own) (Impl.callEachL O F i (Impl.stepL O F d busy) (fun cb => pure (ev cb)) l w) := by
  induction l generalizing w with
  | nil => exact hw
  | cons cb rest ih =>
    refine EndsW.bind (Q := Usable U own) (Fin.ready hO hi .pure .pure hw) (fun _ h => h) fun e w1 h1 hw1 => ?_
    refine (Fin.ready hO hi emit_still emit_fin hw1).bind (fun _ h => h) fun _ w2 _ hw2 => ?_
    refine EndsW.bind (Q := Usable U own) ?_ (fun _ h => h) fun _ w3 _ hw3 => ?_
    · have he : ¬ e.Hits := onCache_event (E := fun e => ¬ e.Hits) (fun _ _ _ h => by cases h; exact hE cb) h1
      refine runW_ends ((hU i hi e).2 he) (fun j op hp w hw => ?_) hw2
      rcases hp with ⟨hj, ⟨rfl, hop⟩ | ⟨hr, hop⟩⟩
      · rw [stepL_manages hop hd]
        obtain ⟨c, hc⟩ := hw.at_ hi
        exact onCache_ready hO (step_sim hO op) (step_keeps hO op) (step_raw op) hc (step_fin hO hop _ (hc.live hi))
      · exact hcall busy j op hj hop hr (fun x hx => Nat.lt_of_lt_of_le hr (hb x hx)) w hw
    · exact (Fin.ready hO hi attempt_still attempt_fin hw3).bind (fun _ h => h) fun _ w4 _ hw4 => ih hw4

theorem registerHitL_ends {n : MapNode K V} (hn : n ∈ c.map) (hw : Parked U own i c w) :
    EndsW (Parked U own i c) (Impl.registerHitL O F (Impl.stepL O F d) busy i k n.addr w) := by
  refine (getObs_fin.at_ hO getObs_still hi hw).bind (fun _ h => h) fun o w1 _ hw1 => ?_
  refine (countHit_fin.at_ hO countHit_still hi hw1).bind (fun _ h => h) fun _ w2 _ hw2 => ?_
  refine (callEachL_hits hO hU hd hcall hi (inside hb _) (fun cb => deref_still.bind fun _ => .pure)
    (fun cb _ _ _ h => hit_event h) (fun cb w hw => ?_) _ hw2).bind
    (fun _ h => h) fun _ w3 _ hw3 => ?_
  · exact .inl ⟨_, _, bind_ok (deref_mem (s := viewOf w i c) (hw.firm hi) hn)⟩
  · refine (getObs_fin.at_ hO getObs_still hi hw3).bind (fun _ h => h) fun o w4 _ hw4 => ?_
    exact callEachL_hits hO hU hd hcall hi (inside hb _) (fun cb => .pure) (fun cb _ _ _ h => by cases h; trivial) (fun cb w _ => .inl ⟨_, _, rfl⟩) _ hw4

theorem registerMissL_ends (hw : Usable U own w) :
    EndsW (Usable U own) (Impl.registerMissL O F (Impl.stepL O F d) busy i k w) := by
  refine (Fin.ready hO hi getObs_still getObs_fin hw).bind (fun _ h => h) fun o w1 _ hw1 => ?_
  refine (Fin.ready hO hi countMiss_still countMiss_fin hw1).bind (fun _ h => h) fun _ w2 _ hw2 => ?_
  refine (callEachL_misses (ev := fun cb => .miss cb k) hO hU hd hcall hi (inside hb _) (fun cb h => h) _ hw2).bind (fun _ h => h) fun _ w3 _ hw3 => ?_
  refine (Fin.ready hO hi getObs_still getObs_fin hw3).bind (fun _ h => h) fun o w4 _ hw4 => ?_
  exact callEachL_misses (ev := fun cb => .access cb k false) hO hU hd hcall hi (inside hb _) (fun cb h => h) _ hw4

omit hU hd hcall hb in
theorem touchR_ends {n : MapNode K V} (hn : n ∈ c.map) (hw : Parked U own i c w) :
    EndsW (Usable U own) (Impl.onCache i (Impl.touchR n.addr) w) := by
  refine onCache_ready hO touchR_sim touchR_keeps touchR_raw hw ?_
  obtain ⟨t, hr, ht, hcap⟩ := hw.live hi
  obtain ⟨e, he, rfl⟩ := List.mem_map.1 (hr.rep.map.mem_iff.1 hn)
  have hsim := touchR_sim (p := e.node.addr) _ t hr trivial
  have h1 : Mid.touchR e.node.addr t = _ := touchR_own ht he
  rw [h1] at hsim
  cases h4 : Impl.touchR e.node.addr (viewOf w i c) with
  | ok a s3 => rw [h4] at hsim; exact ⟨_, hsim.2.1, ht.touch he, hcap⟩
  | _ => rw [h4] at hsim; exact hsim.elim

theorem findL_ends (hw : Parked U own i c w) :
    EndsW (Usable U own) (Impl.findL O F (Impl.stepL O F d) busy i k w) := by
  unfold Impl.findL
  have h0 : Impl.onCache i (Impl.mapFind k) w = .ok (c.map.find? (fun n => keq n.key k)) ⟨w.caches, (viewOf w i c).g⟩ :=
    onCache_quiet hw.at_ rfl
  have hw0 : Parked U own i c (⟨w.caches, (viewOf w i c).g⟩ : World K V) :=
    ⟨⟨hw.ready.inv.shared hO rfl (Nat.le_refl _), hw.ready.live⟩, hw.at_⟩
  rw [bind_ok h0]
  cases hf : c.map.find? (fun n => keq n.key k) with
  | none => exact (registerMissL_ends hO hU hd hcall hi hb hw0.ready).bind (fun _ h => h) fun _ _ _ h => h
  | some n =>
    have hm := List.mem_of_find?_eq_some hf
    refine (hasExpiredInfo_fin.at_ hO hasExpiredInfo_still hi hw0).bind (fun _ h => h.ready) fun b w1 _ hw1 => ?_
    cases b with
    | true => exact (registerMissL_ends hO hU hd hcall hi hb hw1.ready).bind (fun _ h => h) fun _ _ _ h => h
    | false =>
      refine (registerHitL_ends hO hU hd hcall hi hb hm hw1).bind (fun _ h => h.ready) fun _ w2 _ hw2 => ?_
      exact (touchR_ends hO hi hm hw2).bind (fun _ h => h) fun _ _ _ h => h

theorem containsL_ends (hw : Parked U own i c w) :
    EndsW (Usable U own) (Impl.containsL O F (Impl.stepL O F d) busy i k w) := by
  unfold Impl.containsL
  have hfirm := hw.firm hi
  obtain ⟨b, hl'⟩ := lastIs_ok (k := k) (s := viewOf w i c) hfirm
  have hw0 : Parked U own i c (⟨w.caches, (viewOf w i c).g⟩ : World K V) :=
    ⟨⟨hw.ready.inv.shared hO rfl (Nat.le_refl _), hw.ready.live⟩, hw.at_⟩
  rw [bind_ok (onCache_quiet (g := (viewOf w i c).g) hw.at_ hl')]
  cases b with
  | true =>
    obtain ⟨-, n, hn, hl, -⟩ := lastIs_true (s := viewOf w i c) hfirm hl'
    refine (onCache_at hO lastAccessedIsOk_still hw0 (lastAccessedIsOk_fin (hw0.live hi) hn hl).completes).bind
      (fun _ h => h.ready) fun b w1 _ hw1 => ?_
    cases b with
    | true =>
      simp only [if_true]
      have hw1' : Parked U own i c (⟨w1.caches, (viewOf w1 i c).g⟩ : World K V) :=
        ⟨⟨hw1.ready.inv.shared hO rfl (Nat.le_refl _), hw1.ready.live⟩, hw1.at_⟩
      rw [bind_ok (onCache_quiet (g := (viewOf w1 i c).g) hw1.at_ (lastNode_last (s := viewOf w1 i c) hfirm hn hl))]
      exact (registerHitL_ends hO hU hd hcall hi hb hn hw1').bind (fun _ h => h.ready) fun _ _ _ h => h.ready
    | false => exact hw1.ready
  | false => exact (findL_ends hO hU hd hcall hi hb hw0).bind (fun _ h => h) fun _ _ _ h => h

theorem lookupL_ends (hw : Parked U own i c w) :
    EndsW (Usable U own) (Impl.lookupL O F (Impl.stepL O F d) busy i k w) := by
  unfold Impl.lookupL
  have hfirm := hw.firm hi
  obtain ⟨b, hl'⟩ := lastIs_ok (k := k) (s := viewOf w i c) hfirm
  have hw0 : Parked U own i c (⟨w.caches, (viewOf w i c).g⟩ : World K V) :=
    ⟨⟨hw.ready.inv.shared hO rfl (Nat.le_refl _), hw.ready.live⟩, hw.at_⟩
  rw [bind_ok (onCache_quiet (g := (viewOf w i c).g) hw.at_ hl')]
  cases b with
  | true =>
    obtain ⟨-, n, hn, hl, -⟩ := lastIs_true (s := viewOf w i c) hfirm hl'
    refine (onCache_at hO valueForLastAccessed_still hw0 (valueForLastAccessed_fin (hw0.live hi) hn hl).completes).bind
      (fun _ h => h.ready) fun m w1 h1 hw1 => ?_
    obtain ⟨c1, s1, e1, h1, -⟩ := onCache_ok h1
    obtain rfl : c = c1 := by rw [hw0.at_] at e1; injection e1 with e1; injection e1
    have hm := valueForLastAccessed_mem (s := viewOf ⟨w.caches, (viewOf w i c).g⟩ i c) hfirm h1
    refine (registerHitL_ends hO hU hd hcall hi hb hm hw1).bind (fun _ h => h.ready) fun _ w2 _ hw2 => ?_
    exact (onCache_at hO deref_still hw2 (.inl ⟨_, _, deref_mem (s := viewOf w2 i c) hfirm hm⟩)).bind (fun _ h => h.ready)
      fun _ _ _ h => h.ready
  | false =>
    refine (findL_ends hO hU hd hcall hi hb hw0).bind (fun _ h => h) fun it w1 h1 hw1 => ?_
    cases it with
    | none => exact hw1
    | some p =>
      obtain ⟨c', hc', hlast⟩ := findL_last h1
      have hw1' : Parked U own i c' w1 := ⟨hw1, hc'⟩
      have hfirm' := hw1'.firm hi
      obtain ⟨x, hx, rfl⟩ := hfirm'.last p hlast
      refine (onCache_at hO entryU_still hw1' ?_).bind (fun _ h => h.ready) fun _ _ _ h => h.ready
      rw [entryU_run O (s := viewOf w1 i c') hfirm' hx]
      split
      · exact .inr ⟨_, _, rfl⟩
      · exact .inl ⟨_, _, rfl⟩

end calls

theorem stepL_ends (hO : NoListFault O) (hU : Orderly U rank F) (d : Nat) (busy : List (Nat × CbList))
    (i : Nat) (op : Op K V) (hi : U i = true) (hp : op.Plain ∨ op.Registers) (hd : rank i + 1 < d)
    (hb : ∀ x ∈ busy, rank i < rank x.1) (hw : Usable U own w) :
    EndsW (Usable U own) (Impl.stepL O F d busy i op w) := by
  induction d generalizing busy i op w with
  | zero => omega
  | succ d ih =>
    obtain ⟨c, hc⟩ := hw.at_ hi
    have hd' : 0 < d := by omega
    have hcall : ∀ b j op, U j = true → op.Plain ∨ op.Registers → rank j < rank i → (∀ x ∈ b, rank j < rank x.1) →
        ∀ w : World K V, Usable U own w → EndsW (Usable U own) (Impl.stepL O F d b j op w) :=
      fun b j op hj hp hr hb w hw => ih b j op hj hp (by omega) hb hw
    have hb' : ∀ x ∈ busy, rank i ≤ rank x.1 := fun x hx => Nat.le_of_lt (hb x hx)
    rcases hp with (hm | hp) | hg
    · rw [stepL_manages hm (Nat.succ_pos d)]
      exact onCache_ready hO (step_sim hO op) (step_keeps hO op) (step_raw op) hc (step_fin hO hm _ (hc.live hi))
    · rw [Impl.stepL, plain_registers (.inr hp)]
      simp only [Bool.false_eq_true, if_false]
      obtain ⟨k, rfl | rfl | rfl⟩ := hp
      · exact (containsL_ends hO hU hd' hcall hi hb' hc).bind (fun _ h => h) fun _ _ _ h => h
      · exact (findL_ends hO hU hd' hcall hi hb' hc).bind (fun _ h => h) fun _ _ _ h => h
      · exact (lookupL_ends hO hU hd' hcall hi hb' hc).bind (fun _ h => h) fun _ _ _ h => h
    · rw [stepL_registers hg fun x hx h => by have := hb x hx; rw [h] at this; omega]
      exact onCache_ready hO (step_sim hO op) (step_keeps hO op) (step_raw op) hc (registers_fin hO hg _ (hc.live hi))

/-! ### The bound on nested calls -/

/-- `m'` does what `m` does unless `m` exceeds its bound. -/
def Deeper (m m' : M (World K V) α) : Prop := ∀ w, m w ≠ .diverge → m' w = m w

theorem Deeper.refl (m : M (World K V) α) : Deeper m m := fun _ _ => rfl

theorem Deeper.bind {m m' : M (World K V) α} {f f' : α → M (World K V) β} (h : Deeper m m') (h' : ∀ a, Deeper (f a) (f' a)) :
    Deeper (m >>= f) (m' >>= f') := by
  intro w hw
  show M.bind m' f' w = M.bind m f w
  have hw' : M.bind m f w ≠ .diverge := hw
  unfold M.bind at hw' ⊢
  cases hm : m w with
  | diverge => rw [hm] at hw'; exact absurd rfl hw'
  | ok a w' => rw [h w (by rw [hm]; nofun), hm]; rw [hm] at hw'; exact h' a w' hw'
  | throw e w' => rw [h w (by rw [hm]; nofun), hm]
  | ub => rw [h w (by rw [hm]; nofun), hm]
  | terminate => rw [h w (by rw [hm]; nofun), hm]

theorem Deeper.ite {p : Prop} [Decidable p] {m m' n n' : M (World K V) α} (h : Deeper m m') (h' : Deeper n n') :
    Deeper (if p then m else n) (if p then m' else n') := by
  split <;> assumption

theorem runW_deeper {call call' : Nat → Op K V → M (World K V) (Res K V)} (hc : ∀ j op, Deeper (call j op) (call' j op))
    {p : WScript K V} : Deeper (Impl.runW call p) (Impl.runW call' p) := by
  induction p with
  | done => exact .refl _
  | call j op next ih =>
    intro w h
    unfold Impl.runW at h ⊢
    cases h1 : call j op w with
    | diverge => rw [h1] at h; exact absurd rfl h
    | ok r w' => rw [hc j op w (by rw [h1]; nofun), h1] ; rw [h1] at h; exact ih _ _ h
    | throw e w' => rw [hc j op w (by rw [h1]; nofun), h1] ; rw [h1] at h; exact ih _ _ h
    | ub => rw [hc j op w (by rw [h1]; nofun), h1]
    | terminate => rw [hc j op w (by rw [h1]; nofun), h1]

section deeper

variable {call call' : List (Nat × CbList) → Nat → Op K V → M (World K V) (Res K V)}
  (hc : ∀ b j op, Deeper (call b j op) (call' b j op))
include hc

theorem callEachL_deeper {b : List (Nat × CbList)} {ev : Nat → Impl.CM K V (Event K V)} (l : List Nat) :
    Deeper (Impl.callEachL O F i (call b) ev l) (Impl.callEachL O F i (call' b) ev l) := by
  induction l with
  | nil => exact .refl _
  | cons cb rest ih =>
    exact (Deeper.refl _).bind fun e => (Deeper.refl _).bind fun _ => (runW_deeper (hc b)).bind fun _ =>
      (Deeper.refl _).bind fun _ => ih

theorem registerHitL_deeper {p : Ptr} :
    Deeper (Impl.registerHitL O F call busy i k p) (Impl.registerHitL O F call' busy i k p) :=
  (Deeper.refl _).bind fun _ => (Deeper.refl _).bind fun _ => (callEachL_deeper hc _).bind fun _ =>
    (Deeper.refl _).bind fun _ => callEachL_deeper hc _

theorem registerMissL_deeper : Deeper (Impl.registerMissL O F call busy i k) (Impl.registerMissL O F call' busy i k) :=
  (Deeper.refl _).bind fun _ => (Deeper.refl _).bind fun _ => (callEachL_deeper hc _).bind fun _ =>
    (Deeper.refl _).bind fun _ => callEachL_deeper hc _

theorem findL_deeper : Deeper (Impl.findL O F call busy i k) (Impl.findL O F call' busy i k) := by
  refine (Deeper.refl _).bind fun it => ?_
  cases it with
  | none => exact (registerMissL_deeper hc).bind fun _ => .refl _
  | some n =>
    refine (Deeper.refl _).bind fun b => .ite ?_ ?_
    · exact (registerMissL_deeper hc).bind fun _ => .refl _
    · exact (registerHitL_deeper hc).bind fun _ => .refl _

theorem containsL_deeper : Deeper (Impl.containsL O F call busy i k) (Impl.containsL O F call' busy i k) := by
  refine (Deeper.refl _).bind fun b => .ite ?_ ((findL_deeper hc).bind fun _ => .refl _)
  exact (Deeper.refl _).bind fun b => .ite ((Deeper.refl _).bind fun _ => (registerHitL_deeper hc).bind fun _ => .refl _)
    (.refl _)

theorem lookupL_deeper : Deeper (Impl.lookupL O F call busy i k) (Impl.lookupL O F call' busy i k) := by
  refine (Deeper.refl _).bind fun b => .ite ?_ ((findL_deeper hc).bind fun _ => .refl _)
  exact (Deeper.refl _).bind fun n => (registerHitL_deeper hc).bind fun _ => .refl _

theorem dispatchL_deeper (op : Op K V) : Deeper (Impl.dispatchL O F call busy i op) (Impl.dispatchL O F call' busy i op) := by
  cases op <;> first
    | exact .refl _
    | exact (containsL_deeper hc).bind fun _ => .refl _
    | exact (findL_deeper hc).bind fun _ => .refl _
    | exact (lookupL_deeper hc).bind fun _ => .refl _

end deeper

/-- A higher bound makes no difference to calls that end. -/
theorem stepL_deeper (d : Nat) (busy : List (Nat × CbList)) (i : Nat) (op : Op K V) :
    Deeper (Impl.stepL O F d busy i op) (Impl.stepL O F (d + 1) busy i op) := by
  induction d generalizing busy i op with
  | zero => exact fun _ h => absurd rfl h
  | succ d ih =>
    rw [Impl.stepL, Impl.stepL]
    exact .ite (.refl _) (dispatchL_deeper ih op)

theorem stepL_depth (e : Nat) {op : Op K V} (h : Impl.stepL O F d busy i op w ≠ .diverge) :
    Impl.stepL O F (d + e) busy i op w = Impl.stepL O F d busy i op w := by
  induction e with
  | zero => rfl
  | succ e ih => rw [← Nat.add_assoc, stepL_deeper _ _ _ _ _ (by rw [ih]; exact h), ih]

end LRU
