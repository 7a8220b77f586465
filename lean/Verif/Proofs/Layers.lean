import Verif.Proofs.ReenterMiss
import Verif.Proofs.Overloads
import Verif.Proofs.Own
import Verif.Spec.Layers
/-!
# Callbacks that use other caches: the invariant of programs, and what is left alone
-/

set_option autoImplicit false
set_option linter.unusedSectionVars false

namespace LRU

variable {K V : Type} [KeyEqual K] [DecidableEq K] [DecidableEq V] {O : Oracle K V}
  {F : Nat → Event K V → WScript K V} {α β : Type} {i : Nat} {own : Nat → Bool} {w w' : World K V}

/-! ### Running programs on one cache -/

theorem onCache_dead {m : Impl.CM K V α} (h : ∀ c, w.caches[i]? ≠ some (some c)) : Impl.onCache i m w = .ub := by
  unfold Impl.onCache
  rcases hc : w.caches[i]? with _ | _ | c
  · rfl
  · rfl
  · exact absurd hc (h c)

theorem set_same {α : Type} {l : List α} {i : Nat} {x : α} (h : l[i]? = some x) : l.set i x = l := by
  obtain ⟨h1, rfl⟩ := List.getElem?_eq_some_iff.1 h
  exact List.set_getElem_self h1

/-- Programs that leave the cache alone. -/
theorem onCache_still {m : Impl.CM K V α} (h : Still m) (w : World K V) :
    (Impl.onCache i m w).Post fun w' => w'.caches = w.caches ∧ w.g.next ≤ w'.g.next ∧ w.g.ticks ≤ w'.g.ticks := by
  by_cases hd : ∃ c, w.caches[i]? = some (some c)
  · obtain ⟨c, hc⟩ := hd
    rw [onCache_of hc]
    have h1 := h (viewOf w i c)
    cases hm : m (viewOf w i c) with
    | ok a s => rw [hm] at h1; exact ⟨by rw [h1.1]; exact set_same hc, h1.2.next, h1.2.ticks⟩
    | throw e s => rw [hm] at h1; exact ⟨by rw [h1.1]; exact set_same hc, h1.2.next, h1.2.ticks⟩
    | _ => trivial
  · rw [onCache_dead (fun c hc => hd ⟨c, hc⟩)]
    trivial

/-- Any program changes only its cache. -/
theorem onCache_local (m : Impl.CM K V α) (w : World K V) :
    (Impl.onCache i m w).Post fun w' => ∀ j, j ≠ i → w'.caches[j]? = w.caches[j]? := by
  by_cases hd : ∃ c, w.caches[i]? = some (some c)
  · obtain ⟨c, hc⟩ := hd
    rw [onCache_of hc]
    cases m (viewOf w i c) with
    | ok a s => exact fun j hj => get_set_other (Ne.symm hj)
    | throw e s => exact fun j hj => get_set_other (Ne.symm hj)
    | _ => trivial
  · rw [onCache_dead (fun c hc => hd ⟨c, hc⟩)]
    trivial

/-! ### The invariant -/

/-- The invariant of programs. -/
abbrev WInv (w : World K V) (own : Nat → Bool) : Prop := OInv (fun _ _ => True) w own

theorem OInv.weaken {P : Cache K V → Nat → Prop} {own' : Nat → Bool} (h : OInv P w own') (ho : ∀ k, own k = true → own' k = true) :
    OInv P w own := ⟨h.pair, fun i c hc hi => h.own i c hc (ho i hi)⟩

theorem WInv.shared (hO : NoListFault O) (h : WInv w own) (hc : w'.caches = w.caches) (hn : w.g.next ≤ w'.g.next) :
    WInv w' own := by
  have h1 := (copies_ok hO).shared h.pair (g' := w'.g) hn
  rw [← hc] at h1
  exact ⟨h1, fun i c hi ho => ⟨(h.own i c (hc ▸ hi) ho).1.mono hn, trivial⟩⟩

theorem touchR_raw {p : Ptr} : Raw (Impl.touchR p : Impl.CM K V Unit) :=
  derefIt_raw.bind fun _ => moveToFront_raw.bind fun _ => setLast_raw

theorem touchR_keeps {p : Ptr} : Keeps (Mid.touchR p : Mid.CM K V Unit) := by
  intro t ht
  by_cases h : p ∈ t.c.ents.map (·.id)
  · obtain ⟨e, he, rfl⟩ := List.mem_map.1 h
    rw [touchR_own ht he]
    exact Step.touch ht he rfl (Nat.le_refl _)
  · rw [touchR_not h]
    trivial

/-- Member functions keep the invariant. -/
theorem WInv.member (hO : NoListFault O) {m : Impl.CM K V α} {m' : Mid.CM K V α} (hs : Sim m m') (hk : Keeps m')
    (hw : Raw m) (h : WInv w own) : (Impl.onCache i m w).Post fun w' => WInv w' own ∧ w.g.ticks ≤ w'.g.ticks := by
  by_cases hd : ∃ c, w.caches[i]? = some (some c)
  · obtain ⟨c, hc⟩ := hd
    rw [onCache_of hc]
    obtain ⟨t, hr⟩ := h.pair.rel hc
    have key : ∀ s', RawStep (viewOf w i c) s' → (∃ t', Rel s' t') → (own i = true → ∃ t', Rel s' t' ∧ Ok t') →
        WInv (⟨w.caches.set i (some s'.c), s'.g⟩ : World K V) own ∧ w.g.ticks ≤ s'.g.ticks := by
      rintro s' h4 ⟨t', hr'⟩ hown
      have hext : ∀ (j : Nat) (d : Cache K V), j ≠ i → w.caches[j]? = some (some d) → ∀ x ∈ d.map, x ∈ t'.g.ext := by
        intro j d hj hd x hx
        rw [← hr'.g, h4.ext]
        exact mem_others.2 ⟨j, d, hj, hd, hx⟩
      refine ⟨⟨(copies_ok hO).replace h.pair h4.next hr'.lwf fun j d hj hd => ?_, ?_⟩, h4.ticks⟩
      · have hap : Apart s'.c d := by
          intro x hx y hy e
          obtain ⟨z, hz, rfl⟩ := List.mem_map.1 (hr'.rep.map.mem_iff.1 hx)
          exact hr'.awf.extDisj z hz y (hext j d hj hd y hy) e.symm
        refine ⟨⟨hap, ?_⟩, ⟨fun x hx y hy e => hap y hy x hx e.symm, ?_⟩⟩
        · intro p n q hp hown hn hnp hq
          have := hr'.awf.foreign p n q (hr'.rep.last ▸ hp) (hr'.rep.not_own_iff hown) (hext j d hj hd n hn) hnp hq
          exact hr'.rep.slot_not this.1
        · intro p n q hp hown hn hnp hq
          rcases h4.nodes n hn with ⟨y, hy, e1, e2⟩ | hlt
          · exact (h.pair.pair j i d c hj hd hc).astray p y q hp hown hy (e1.trans hnp) (e2.trans hq)
          · have h5 := (h.pair.each j d hd).lastLt p hp
            rw [← hnp] at h5
            exact absurd (Nat.lt_of_lt_of_le h5 hlt) (Nat.lt_irrefl _)
      · intro k d hk ho
        rcases get_set hk with ⟨rfl, h1⟩ | ⟨hne, h1⟩
        · injection h1 with h1
          subst h1
          obtain ⟨t2, hr2, ht2⟩ := hown ho
          exact ⟨hr2.lok ht2, trivial⟩
        · exact ⟨(h.own k d h1 ho).1.mono h4.next, trivial⟩
    have h1 := hs _ t hr trivial
    have h2 := hw _ hr.bounded
    have h3 : own i = true → (m (viewOf w i c)).Post fun s' => ∃ t', Rel s' t' ∧ Step t' t' := by
      intro ho
      obtain ⟨t2, hr2, ht2⟩ := h.pair.view hc (h.own i c hc ho).1
      exact (member_keeps hs hk hr2 ht2).imp fun _ ⟨t', h5, h6⟩ => ⟨t', h5, .refl h6.ok⟩
    cases hm : m (viewOf w i c) with
    | ok a s' =>
      rw [hm] at h1 h2 h3
      refine key s' h2 ?_ fun ho => ?_
      · cases hm' : m' t <;> rw [hm'] at h1 <;> first | exact h1.elim | exact ⟨_, h1.2.1⟩
      · obtain ⟨t', h5, h6⟩ := h3 ho
        exact ⟨t', h5, h6.ok⟩
    | throw e s' =>
      rw [hm] at h1 h2 h3
      refine key s' h2 ?_ fun ho => ?_
      · cases hm' : m' t <;> rw [hm'] at h1 <;> first | exact h1.elim | exact ⟨_, h1.2⟩
      · obtain ⟨t', h5, h6⟩ := h3 ho
        exact ⟨t', h5, h6.ok⟩
    | _ => trivial
  · rw [onCache_dead (fun c hc => hd ⟨c, hc⟩)]
    trivial

/-! ### Statements about all outcomes -/

/-- `m` keeps `I` and relates the states before and after by `R`. -/
def Spans (I : World K V → Prop) (R : World K V → World K V → Prop) (m : M (World K V) α) : Prop :=
  ∀ w, I w → (m w).Post fun w' => I w' ∧ R w w'

/-- A preorder. -/
structure Pre (R : World K V → World K V → Prop) : Prop where
  refl : ∀ w, R w w
  trans : ∀ {a b c}, R a b → R b c → R a c

variable {I : World K V → Prop} {R : World K V → World K V → Prop}

theorem Spans.bind (hR : Pre R) {m : M (World K V) α} {f : α → M (World K V) β} (h : Spans I R m)
    (h' : ∀ a, Spans I R (f a)) : Spans I R (m >>= f) := by
  intro w hw
  have h1 := h w hw
  show Out.Post _ (M.bind m f w)
  unfold M.bind
  cases hm : m w with
  | ok a w' =>
    rw [hm] at h1
    exact (h' a w' h1.1).imp fun _ h2 => ⟨h2.1, hR.trans h1.2 h2.2⟩
  | throw e w' => rw [hm] at h1; exact h1
  | _ => trivial

theorem Spans.bind_of (hR : Pre R) {m : M (World K V) α} {f : α → M (World K V) β} (h : Spans I R m)
    (h' : ∀ a w w', m w = .ok a w' → Spans I R (f a)) : Spans I R (m >>= f) := by
  intro w hw
  have h1 := h w hw
  show Out.Post _ (M.bind m f w)
  unfold M.bind
  cases hm : m w with
  | ok a w' =>
    rw [hm] at h1
    exact (h' a _ _ hm w' h1.1).imp fun _ h2 => ⟨h2.1, hR.trans h1.2 h2.2⟩
  | throw e w' => rw [hm] at h1; exact h1
  | _ => trivial

theorem Spans.pure (hR : Pre R) {a : α} : Spans I R (Pure.pure a) := fun w hw => ⟨hw, hR.refl w⟩

theorem Spans.throw (hR : Pre R) {e : Err} : Spans I R (M.throw e : M (World K V) α) := fun w hw => ⟨hw, hR.refl w⟩

theorem Spans.ite {c : Prop} [Decidable c] {m m' : M (World K V) α} (h : Spans I R m) (h' : Spans I R m') :
    Spans I R (if c then m else m') := by
  split <;> assumption

theorem Spans.ret (hR : Pre R) {m : M (World K V) α} {f : α → Res K V} (h : Spans I R m) : Spans I R (Impl.ret m f) :=
  h.bind hR fun _ => .pure hR

theorem runW_spans (hR : Pre R) {call : Nat → Op K V → M (World K V) (Res K V)} {P : Nat → Op K V → Prop}
    (hc : ∀ j op, P j op → Spans I R (call j op)) {p : WScript K V} (hp : p.Only P) : Spans I R (Impl.runW call p) := by
  induction p with
  | done => exact .pure hR
  | call j op next ih =>
    intro w hw
    have h1 := hc j op hp.1 w hw
    unfold Impl.runW
    cases hm : call j op w with
    | ok r w' =>
      rw [hm] at h1
      exact (ih _ (hp.2 _) w' h1.1).imp fun _ h2 => ⟨h2.1, hR.trans h1.2 h2.2⟩
    | throw e w' =>
      rw [hm] at h1
      exact (ih _ (hp.2 _) w' h1.1).imp fun _ h2 => ⟨h2.1, hR.trans h1.2 h2.2⟩
    | _ => trivial

section calls

variable {call : List (Nat × CbList) → Nat → Op K V → M (World K V) (Res K V)} {busy : List (Nat × CbList)} {k : K}
  {P : Nat → Op K V → Prop}

/-- The event a callback is told of. -/
theorem onCache_event {ev : Impl.CM K V (Event K V)} {E : Event K V → Prop} (he : ∀ s e s', ev s = .ok e s' → E e)
    {e : Event K V} (h : Impl.onCache i ev w = .ok e w') : E e := by
  obtain ⟨c, s', -, h1, -⟩ := onCache_ok h
  exact he _ _ _ h1

theorem hit_event {cb : Nat} {p : Ptr} {s s' : St (Cache K V) K V} {e : Event K V}
    (h : (do let n ← Impl.deref p; pure (.hit cb k n.info.value) : Impl.CM K V (Event K V)) s = .ok e s') : e.Hits := by
  obtain ⟨n, s1, -, h2⟩ := bind_ok_inv h
  cases h2
  trivial

theorem callEachL_spans (hR : Pre R) {E : Event K V → Prop} {call : Nat → Op K V → M (World K V) (Res K V)}
    (hS : ∀ {α : Type} {m : Impl.CM K V α}, Still m → Spans I R (Impl.onCache i m))
    (hF : ∀ e, E e → (F i e).Only P) (hc : ∀ j op, P j op → Spans I R (call j op))
    {ev : Nat → Impl.CM K V (Event K V)} (he : ∀ cb, Still (ev cb))
    (hev : ∀ cb s e s', ev cb s = .ok e s' → E e) (l : List Nat) :
    Spans I R (Impl.callEachL O F i call ev l) := by
  induction l with
  | nil => exact .pure hR
  | cons cb rest ih =>
    refine (hS (he cb)).bind_of hR fun e _ _ h => (hS emit_still).bind hR fun _ => ?_
    exact (runW_spans hR hc (hF e (onCache_event (hev cb) h))).bind hR fun _ => (hS attempt_still).bind hR fun _ => ih

theorem registerHitL_spans (hR : Pre R)
    (hS : ∀ {α : Type} {m : Impl.CM K V α}, Still m → Spans I R (Impl.onCache i m))
    (hF : ∀ e, e.Hits → (F i e).Only P) (hc : ∀ b j op, P j op → Spans I R (call b j op)) {p : Ptr} :
    Spans I R (Impl.registerHitL O F call busy i k p) := by
  refine (hS getObs_still).bind hR fun o => (hS countHit_still).bind hR fun _ => ?_
  refine (callEachL_spans hR hS hF (hc _) (fun cb => deref_still.bind fun _ => .pure)
    (fun cb _ _ _ h => hit_event h) _).bind hR fun _ => ?_
  exact (hS getObs_still).bind hR fun o => callEachL_spans hR hS hF (hc _) (fun cb => .pure)
    (fun cb _ _ _ h => by cases h; trivial) _

theorem registerMissL_spans (hR : Pre R)
    (hS : ∀ {α : Type} {m : Impl.CM K V α}, Still m → Spans I R (Impl.onCache i m))
    (hF : ∀ e, ¬ e.Hits → (F i e).Only P) (hc : ∀ b j op, P j op → Spans I R (call b j op)) :
    Spans I R (Impl.registerMissL O F call busy i k) := by
  refine (hS getObs_still).bind hR fun o => (hS countMiss_still).bind hR fun _ => ?_
  refine (callEachL_spans hR hS hF (hc _) (fun cb => .pure)
    (fun cb _ _ _ h => by cases h; exact fun h => h) _).bind hR fun _ => ?_
  exact (hS getObs_still).bind hR fun o => callEachL_spans hR hS hF (hc _) (fun cb => .pure)
    (fun cb _ _ _ h => by cases h; exact fun h => h) _

theorem findL_spans (hR : Pre R)
    (hS : ∀ {α : Type} {m : Impl.CM K V α}, Still m → Spans I R (Impl.onCache i m))
    (hT : ∀ p, Spans I R (Impl.onCache i (Impl.touchR p)))
    (hF : ∀ e, (F i e).Only P) (hc : ∀ b j op, P j op → Spans I R (call b j op)) :
    Spans I R (Impl.findL O F call busy i k) := by
  refine (hS mapFind_still).bind hR fun it => ?_
  cases it with
  | none => exact (registerMissL_spans hR hS (fun e _ => hF e) hc).bind hR fun _ => .pure hR
  | some n =>
    refine (hS hasExpiredInfo_still).bind hR fun b => .ite ?_ ?_
    · exact (registerMissL_spans hR hS (fun e _ => hF e) hc).bind hR fun _ => .pure hR
    · exact (registerHitL_spans hR hS (fun e _ => hF e) hc).bind hR fun _ => (hT _).bind hR fun _ => .pure hR

theorem containsL_spans (hR : Pre R)
    (hS : ∀ {α : Type} {m : Impl.CM K V α}, Still m → Spans I R (Impl.onCache i m))
    (hT : ∀ p, Spans I R (Impl.onCache i (Impl.touchR p)))
    (hF : ∀ e, (F i e).Only P) (hc : ∀ b j op, P j op → Spans I R (call b j op)) :
    Spans I R (Impl.containsL O F call busy i k) := by
  refine (hS lastIs_still).bind hR fun b => .ite ?_ ?_
  · refine (hS lastAccessedIsOk_still).bind hR fun b => .ite ?_ (.pure hR)
    refine (hS lastNode_still).bind hR fun n => ?_
    exact (registerHitL_spans hR hS (fun e _ => hF e) hc).bind hR fun _ => .pure hR
  · exact (findL_spans hR hS hT hF hc).bind hR fun _ => .pure hR

theorem lookupL_spans (hR : Pre R)
    (hS : ∀ {α : Type} {m : Impl.CM K V α}, Still m → Spans I R (Impl.onCache i m))
    (hT : ∀ p, Spans I R (Impl.onCache i (Impl.touchR p)))
    (hF : ∀ e, (F i e).Only P) (hc : ∀ b j op, P j op → Spans I R (call b j op)) :
    Spans I R (Impl.lookupL O F call busy i k) := by
  refine (hS lastIs_still).bind hR fun b => .ite ?_ ?_
  · refine (hS valueForLastAccessed_still).bind hR fun n => ?_
    refine (registerHitL_spans hR hS (fun e _ => hF e) hc).bind hR fun _ => ?_
    exact (hS deref_still).bind hR fun _ => .pure hR
  · refine (findL_spans hR hS hT hF hc).bind hR fun it => ?_
    cases it with
    | none => exact .throw hR
    | some p => exact (hS entryU_still).bind hR fun _ => .pure hR

theorem dispatchL_spans (hR : Pre R)
    (hS : ∀ {α : Type} {m : Impl.CM K V α}, Still m → Spans I R (Impl.onCache i m))
    (hT : ∀ p, Spans I R (Impl.onCache i (Impl.touchR p)))
    (hF : ∀ e, (F i e).Only P) (hc : ∀ b j op, P j op → Spans I R (call b j op)) (op : Op K V)
    (ho : Spans I R (Impl.onCache i (Impl.step O op))) : Spans I R (Impl.dispatchL O F call busy i op) := by
  cases op <;> first
    | exact ho
    | exact (containsL_spans hR hS hT hF hc).ret hR
    | exact (findL_spans hR hS hT hF hc).ret hR
    | exact (lookupL_spans hR hS hT hF hc).ret hR

end calls

theorem WScript.Only.mono {P Q : Nat → Op K V → Prop} {p : WScript K V} (h : p.Only P) (hpq : ∀ j op, P j op → Q j op) :
    p.Only Q := by
  induction p with
  | done => trivial
  | call j op next ih => exact ⟨hpq _ _ h.1, fun r => ih r (h.2 r)⟩

theorem WScript.only_true (p : WScript K V) : p.Only fun _ _ => True := by
  induction p with
  | done => trivial
  | call j op next ih => exact ⟨trivial, fun r => ih r⟩

theorem pre_true : Pre (fun _ _ : World K V => True) := ⟨fun _ => trivial, fun _ _ => trivial⟩

/-- Calls keep the invariant, whatever the callbacks do. -/
theorem stepL_inv (hO : NoListFault O) (d : Nat) (busy : List (Nat × CbList)) (i : Nat) (op : Op K V) :
    Spans (fun w => WInv w own) (fun _ _ => True) (Impl.stepL O F d busy i op) := by
  induction d generalizing busy i op with
  | zero => exact fun _ _ => trivial
  | succ d ih =>
    unfold Impl.stepL
    refine .ite (fun _ _ => trivial) ?_
    refine dispatchL_spans (P := fun _ _ => True) pre_true ?_ ?_ (fun e => WScript.only_true _)
      (fun b j op _ => ih b j op) op ?_
    · intro α m hm w hw
      exact (onCache_still hm w).imp fun w' h => ⟨hw.shared hO h.1 h.2.1, trivial⟩
    · intro p w hw
      exact (hw.member hO touchR_sim touchR_keeps touchR_raw).imp fun _ h => ⟨h.1, trivial⟩
    · intro w hw
      exact (hw.member hO (step_sim hO op) (step_keeps hO op) (step_raw op)).imp fun _ h => ⟨h.1, trivial⟩

theorem LPerforms.inv (hO : NoListFault O) {op : Op K V} {res : Except Err (Res K V)} (h : WInv w own)
    (hp : LPerforms O F i op w res w') : WInv w' own := by
  obtain ⟨d, hp⟩ := hp
  have h1 := stepL_inv (F := F) hO d [] i op w h
  cases res <;> (simp only at hp; rw [hp] at h1; exact h1.1)

theorem LProg.inv (hO : NoListFault O) (h : LProg O F w own) : WInv w own := by
  induction h with
  | init => exact trivial_own.prog hO .init
  | step op _ hs ih => exact trivial_own.wstep hO ih (res := .ok _) hs
  | throw op _ hs ih => exact trivial_own.wstep hO ih (res := .error _) hs
  | call _ hp ih => exact hp.inv hO ih

theorem LProg.view (hO : NoListFault O) (h : LProg O F w own) {c : Cache K V} (hi : own i = true)
    (hc : w.caches[i]? = some (some c)) : ∃ t, Rel (viewOf w i c) t ∧ Ok t :=
  (h.inv hO).pair.view hc ((h.inv hO).own i c hc hi).1

/-! ### Layers: what a call leaves alone -/

variable {rank : Nat → Nat}

/-- The caches of rank `r` and above are the same. -/
def SameFrom (rank : Nat → Nat) (r : Nat) (w w' : World K V) : Prop :=
  w.g.ticks ≤ w'.g.ticks ∧ ∀ j, r ≤ rank j → w'.caches[j]? = w.caches[j]?

/-- All caches of the rank of `i` and above except `i` are the same. -/
def SameBut (rank : Nat → Nat) (i : Nat) (w w' : World K V) : Prop :=
  w.g.ticks ≤ w'.g.ticks ∧ ∀ j, j ≠ i → rank i ≤ rank j → w'.caches[j]? = w.caches[j]?

theorem sameFrom_pre {r : Nat} : Pre (SameFrom (K := K) (V := V) rank r) :=
  ⟨fun _ => ⟨Nat.le_refl _, fun _ _ => rfl⟩,
    fun h h' => ⟨Nat.le_trans h.1 h'.1, fun j hj => (h'.2 j hj).trans (h.2 j hj)⟩⟩

theorem sameBut_pre : Pre (SameBut (K := K) (V := V) rank i) :=
  ⟨fun _ => ⟨Nat.le_refl _, fun _ _ _ => rfl⟩,
    fun h h' => ⟨Nat.le_trans h.1 h'.1, fun j hj hr => (h'.2 j hj hr).trans (h.2 j hj hr)⟩⟩

theorem SameBut.from (h : SameBut rank i w w') {r : Nat} (hr : rank i < r) : SameFrom rank r w w' :=
  ⟨h.1, fun j hj => h.2 j (by rintro rfl; omega) (by omega)⟩

theorem SameFrom.but (h : SameFrom rank (rank i) w w') : SameBut rank i w w' := ⟨h.1, fun j _ hj => h.2 j hj⟩

theorem still_sameFrom (hO : NoListFault O) {r : Nat} {m : Impl.CM K V α} (hm : Still m) :
    Spans (fun w => WInv w own) (SameFrom rank r) (Impl.onCache i m) := by
  intro w hw
  exact (onCache_still hm w).imp fun w' h => ⟨hw.shared hO h.1 h.2.1, h.2.2, fun j _ => by rw [h.1]⟩

theorem member_sameBut (hO : NoListFault O) {m : Impl.CM K V α} {m' : Mid.CM K V α} (hs : Sim m m') (hk : Keeps m')
    (hr : Raw m) : Spans (fun w => WInv w own) (SameBut rank i) (Impl.onCache i m) := by
  intro w hw
  have h1 := hw.member (i := i) hO hs hk hr
  have h2 := onCache_local (i := i) m w
  cases h : Impl.onCache i m w with
  | ok a w' => rw [h] at h1 h2; exact ⟨h1.1, h1.2, fun j hj _ => h2 j hj⟩
  | throw e w' => rw [h] at h1 h2; exact ⟨h1.1, h1.2, fun j hj _ => h2 j hj⟩
  | _ => trivial

theorem Spans.weaken {R' : World K V → World K V → Prop} {m : M (World K V) α} (h : Spans I R m)
    (hr : ∀ w w', R w w' → R' w w') : Spans I R' m :=
  fun w hw => (h w hw).imp fun _ h => ⟨h.1, hr _ _ h.2⟩

/-- A call changes the cache it is made on and caches of lower rank. -/
theorem stepL_tiered (hO : NoListFault O) {U : Nat → Bool}
    (hT : ∀ i, U i = true → ∀ e, (F i e).Only fun j _ => U j = true ∧ (j = i ∨ rank j < rank i)) (d : Nat)
    (busy : List (Nat × CbList)) (i : Nat) (hi : U i = true) (op : Op K V) :
    Spans (fun w => WInv w own) (SameBut rank i) (Impl.stepL O F d busy i op) := by
  induction d generalizing busy i op with
  | zero => exact fun _ _ => trivial
  | succ d ih =>
    unfold Impl.stepL
    refine .ite (fun _ _ => trivial) ?_
    refine dispatchL_spans (P := fun j _ => U j = true ∧ (j = i ∨ rank j < rank i)) sameBut_pre ?_ ?_ (fun e => hT i hi e)
      (fun b j op hj => ?_) op ?_
    · exact fun hm => (still_sameFrom hO hm).weaken fun _ _ h => h.but
    · exact fun p => member_sameBut hO touchR_sim touchR_keeps touchR_raw
    · rcases hj with ⟨hu, rfl | hj⟩
      · exact ih b j hi op
      · exact (ih b j hu op).weaken fun _ _ h => (h.from hj).but
    · exact member_sameBut hO (step_sim hO op) (step_keeps hO op) (step_raw op)

theorem stepL_layered (hO : NoListFault O) (hL : Layered rank F) (d : Nat) (busy : List (Nat × CbList)) (i : Nat)
    (op : Op K V) : Spans (fun w => WInv w own) (SameBut rank i) (Impl.stepL O F d busy i op) :=
  stepL_tiered (U := fun _ => true) hO (fun i _ e => (hL i e).mono fun _ _ h => ⟨rfl, .inr h⟩) d busy i rfl op

section register

variable {busy : List (Nat × CbList)} {k : K} {d : Nat}

/-- Registering an access leaves the cache alone. -/
theorem registerHitL_layered (hO : NoListFault O) (hL : Layered rank F) {p : Ptr} :
    Spans (fun w => WInv w own) (SameFrom rank (rank i)) (Impl.registerHitL O F (Impl.stepL O F d) busy i k p) :=
  registerHitL_spans (P := fun j _ => rank j < rank i) sameFrom_pre (fun hm => still_sameFrom hO hm) (fun e _ => hL i e)
    fun b j op hj => (stepL_layered hO hL d b j op).weaken fun _ _ h => h.from hj

theorem registerMissL_layered (hO : NoListFault O) (hL : Layered rank F) :
    Spans (fun w => WInv w own) (SameFrom rank (rank i)) (Impl.registerMissL O F (Impl.stepL O F d) busy i k) :=
  registerMissL_spans (P := fun j _ => rank j < rank i) sameFrom_pre (fun hm => still_sameFrom hO hm) (fun e _ => hL i e)
    fun b j op hj => (stepL_layered hO hL d b j op).weaken fun _ _ h => h.from hj

end register

end LRU
