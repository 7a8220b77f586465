import Verif.Proofs.LayersEnd
/-!
# Callbacks that use other caches: two caches in front of each other, and caches that miss in a circle
-/

set_option autoImplicit false
set_option linter.unusedSectionVars false

namespace LRU

variable {K V : Type} [KeyEqual K] [DecidableEq K] [DecidableEq V] {O : Oracle K V}
  {F : Nat → Event K V → WScript K V} {α β : Type} {i : Nat} {own : Nat → Bool} {w w' : World K V} {c c' : Cache K V} {k : K}
  {busy : List (Nat × CbList)} {d : Nat} {call : List (Nat × CbList) → Nat → Op K V → M (World K V) (Res K V)}

/-! ### Programs that return and leave the caches alone -/

/-- Whenever cache `i` is `c`, `m` returns and leaves all caches alone. -/
def Mute (i : Nat) (c : Cache K V) (m : M (World K V) α) : Prop :=
  ∀ w, w.caches[i]? = some (some c) → ∃ a w', m w = .ok a w' ∧ w'.caches = w.caches ∧ w.g.next ≤ w'.g.next

theorem Mute.bind {m : M (World K V) α} {f : α → M (World K V) β} (h : Mute i c m) (h' : ∀ a, Mute i c (f a)) :
    Mute i c (m >>= f) := by
  intro w hw
  obtain ⟨a, w1, h1, h2, h3⟩ := h w hw
  obtain ⟨b, w2, h4, h5, h6⟩ := h' a w1 (by rw [h2]; exact hw)
  exact ⟨b, w2, (bind_ok h1).trans h4, h5.trans h2, Nat.le_trans h3 h6⟩

theorem Mute.bind_of {m : M (World K V) α} {f : α → M (World K V) β} (h : Mute i c m)
    (h' : ∀ a w w', w.caches[i]? = some (some c) → m w = .ok a w' → Mute i c (f a)) : Mute i c (m >>= f) := by
  intro w hw
  obtain ⟨a, w1, h1, h2, h3⟩ := h w hw
  obtain ⟨b, w2, h4, h5, h6⟩ := h' a _ _ hw h1 w1 (by rw [h2]; exact hw)
  exact ⟨b, w2, (bind_ok h1).trans h4, h5.trans h2, Nat.le_trans h3 h6⟩

theorem Mute.pure {a : α} : Mute i c (Pure.pure a : M (World K V) α) := fun w _ => ⟨a, w, rfl, rfl, Nat.le_refl _⟩

theorem onCache_mute {m : Impl.CM K V α} (hm : Still m) (hok : ∀ s, s.c = c → ∃ a s', m s = .ok a s') :
    Mute i c (Impl.onCache i m) := by
  intro w hw
  obtain ⟨a, s', h⟩ := hok (viewOf w i c) rfl
  have h1 := hm (viewOf w i c)
  rw [h] at h1
  refine ⟨a, ⟨w.caches, s'.g⟩, ?_, rfl, h1.2.next⟩
  refine onCache_quiet hw ?_
  rw [h, ← show s'.c = c from h1.1]

theorem getObs_mute : Mute i c (Impl.onCache i Impl.getObs : M (World K V) Obs) :=
  onCache_mute getObs_still fun s _ => ⟨_, _, rfl⟩

theorem emit_mute {e : Event K V} : Mute i c (Impl.onCache i (emit e)) := onCache_mute emit_still fun s _ => ⟨_, _, rfl⟩

theorem attempt_mute (hC : Calm O) {site : Site} : Mute i c (Impl.onCache i (attempt O site) : M (World K V) Unit) :=
  onCache_mute attempt_still fun s _ => by obtain ⟨s', h, -⟩ := attempt_calm hC site s; exact ⟨_, _, h⟩

theorem countHit_mute {o : Obs} : Mute i c (Impl.onCache i (countHit o k) : M (World K V) Unit) :=
  onCache_mute countHit_still fun s _ => by unfold countHit; cases o.stats <;> exact ⟨_, _, rfl⟩

theorem countMiss_mute {o : Obs} : Mute i c (Impl.onCache i (countMiss o k) : M (World K V) Unit) :=
  onCache_mute countMiss_still fun s _ => by unfold countMiss; cases o.stats <;> exact ⟨_, _, rfl⟩

/-- Callbacks that do nothing. -/
theorem callEachL_mute (hC : Calm O) {E : Event K V → Prop} (hF : ∀ e, E e → F i e = .done)
    {call : Nat → Op K V → M (World K V) (Res K V)} {ev : Nat → Impl.CM K V (Event K V)}
    (he : ∀ cb, Mute i c (Impl.onCache i (ev cb))) (hE : ∀ cb s e s', ev cb s = .ok e s' → E e) (l : List Nat) :
    Mute i c (Impl.callEachL O F i call ev l) := by
  induction l with
  | nil => exact .pure
  | cons cb rest ih =>
    refine (he cb).bind_of fun e w w' _ h => emit_mute.bind fun _ => ?_
    rw [hF e (onCache_event (hE cb) h)]
    exact Mute.bind (m := Impl.runW call .done) .pure fun _ => (attempt_mute hC).bind fun _ => ih

theorem registerHitL_mute (hC : Calm O) (hF : ∀ e, F i e = .done) (hfirm : Firm c) {n : MapNode K V} (hn : n ∈ c.map) :
    Mute i c (Impl.registerHitL O F call busy i k n.addr) := by
  refine getObs_mute.bind fun o => countHit_mute.bind fun _ => ?_
  refine (callEachL_mute hC (E := fun _ => True) (fun e _ => hF e) (fun cb => ?_) (fun _ _ _ _ _ => trivial) _).bind fun _ => ?_
  · exact onCache_mute (deref_still.bind fun _ => .pure) fun s hs => ⟨_, _, bind_ok (deref_mem (hs ▸ hfirm) (hs ▸ hn))⟩
  · exact getObs_mute.bind fun o => callEachL_mute hC (E := fun _ => True) (fun e _ => hF e)
      (fun cb => onCache_mute .pure fun s _ => ⟨_, _, rfl⟩) (fun _ _ _ _ _ => trivial) _

theorem registerMissL_mute (hC : Calm O) (hF : ∀ e, F i e = .done) :
    Mute i c (Impl.registerMissL O F call busy i k) := by
  refine getObs_mute.bind fun o => countMiss_mute.bind fun _ => ?_
  refine (callEachL_mute hC (E := fun _ => True) (fun e _ => hF e)
    (fun cb => onCache_mute .pure fun s _ => ⟨_, _, rfl⟩) (fun _ _ _ _ _ => trivial) _).bind fun _ => ?_
  exact getObs_mute.bind fun o => callEachL_mute hC (E := fun _ => True) (fun e _ => hF e)
    (fun cb => onCache_mute .pure fun s _ => ⟨_, _, rfl⟩) (fun _ _ _ _ _ => trivial) _

/-! ### A lookup in a cache whose callbacks do nothing -/

theorem WInv.rel (h : WInv w own) (hi : own i = true) (hc : w.caches[i]? = some (some c)) :
    ∃ t, Rel (viewOf w i c) t ∧ Ok t := h.pair.view hc (h.own i c hc hi).1

theorem basic_fresh (hk : c.kind = .basic) {s : St (Cache K V) K V} (hs : s.c = c) {time : Int} :
    expiredAt O s.c.kind s.g time = false := by
  rw [hs, hk]
  rfl

theorem lookupL_mute (hC : Calm O) (hF : ∀ e, F i e = .done) (hw : WInv w own) (hi : own i = true)
    (hc : w.caches[i]? = some (some c)) (hk : c.kind = .basic) {n : MapNode K V}
    (hf : c.map.find? (fun x => keq x.key k) = some n) :
    ∃ w' c', Impl.lookupL O F call busy i k w = .ok (n.addr, n.info.value) w' ∧ w'.caches = w.caches.set i (some c') ∧
      WInv w' own ∧ (elements c').Perm (elements c) ∧ c'.last = some n.addr ∧ c'.capacity = c.capacity ∧
      c'.obs = c.obs ∧ c'.kind = c.kind := by
  have hO := hC.noListFault
  have hfirm := hw.firm hi hc
  have hm := List.mem_of_find?_eq_some hf
  obtain ⟨b, hb⟩ := lastIs_any (k := k) (s := viewOf w i c) hfirm
  unfold Impl.lookupL
  rw [bind_ok (onCache_quiet (g := (viewOf w i c).g) hc (hb _))]
  have hw0 : WInv (⟨w.caches, (viewOf w i c).g⟩ : World K V) own := hw.shared hO rfl (Nat.le_refl _)
  generalize hw0' : (⟨w.caches, (viewOf w i c).g⟩ : World K V) = w0 at hw0
  have hcs : w0.caches = w.caches := by rw [← hw0']
  have hc0 : w0.caches[i]? = some (some c) := by rw [hcs]; exact hc
  cases b with
  | true =>
    simp only [if_true]
    obtain ⟨-, n', hn', hl, hkn⟩ := lastIs_true (s := viewOf w i c) hfirm (hb _)
    obtain ⟨t, hr, ht⟩ := hw.rel hi hc
    have hnn : n' = n := by
      have h1 : c.map.find? (fun x => keq x.key k) = some n' := by
        refine find?_of_unique hn' (by rw [KeyEqual.symm]; exact hkn) fun y hy hyk => ?_
        obtain ⟨e, he, rfl⟩ := List.mem_map.1 (hr.rep.map.mem_iff.1 hy)
        obtain ⟨e', he', rfl⟩ := List.mem_map.1 (hr.rep.map.mem_iff.1 hn')
        rw [key_inj_of_pairwise' ht.awf.keys e he e' he' hyk (by rw [KeyEqual.symm]; exact hkn)]
      rw [hf] at h1
      injection h1 with h1
      exact h1.symm
    subst hnn
    have h1 : Impl.onCache i (Impl.valueForLastAccessed O) w0 = .ok n' ⟨w0.caches, (viewOf w0 i c).g⟩ := by
      refine onCache_quiet hc0 ?_
      rw [valueForLastAccessed_run O (s := viewOf w0 i c) hfirm hn' hl, if_neg (by rw [basic_fresh hk rfl]; simp)]
      rw [show (viewOf w0 i c).c.kind = .basic from hk]
      rfl
    rw [bind_ok h1]
    obtain ⟨_, w2, h2, h3, h4⟩ := registerHitL_mute (call := call) (busy := busy) (k := k) hC hF hfirm hn'
      (⟨w0.caches, (viewOf w0 i c).g⟩ : World K V) hc0
    rw [bind_ok h2]
    have hc2 : w2.caches[i]? = some (some c) := by rw [h3]; exact hc0
    rw [bind_ok (onCache_quiet (g := (viewOf w2 i c).g) hc2 (deref_mem (s := viewOf w2 i c) hfirm hn'))]
    refine ⟨_, c, rfl, ?_, ?_, .refl _, hl, rfl, rfl, rfl⟩
    · show w2.caches = _
      rw [set_same hc, h3, hcs]
    · exact (hw0.shared (w' := w2) hO h3 h4).shared hO rfl (Nat.le_refl _)
  | false =>
    simp only [Bool.false_eq_true, if_false]
    unfold Impl.findL
    have h1 : Impl.onCache i (Impl.mapFind k) w0 = .ok (some n) ⟨w0.caches, (viewOf w0 i c).g⟩ := by
      refine onCache_quiet hc0 ?_
      show Out.ok (c.map.find? _) _ = _
      rw [hf]
      rfl
    rw [bind_bind, bind_ok h1]
    have h2 : Impl.onCache i (Impl.hasExpiredInfo O n.info.time) (⟨w0.caches, (viewOf w0 i c).g⟩ : World K V) =
        .ok false ⟨w0.caches, (viewOf w0 i c).g⟩ := by
      refine onCache_quiet (c := c) hc0 ?_
      rw [hasExpiredInfo_run, basic_fresh hk rfl]
      unfold viewOf
      simp only [hk]
      rfl
    simp only
    rw [bind_bind, bind_ok h2]
    simp only [Bool.false_eq_true, if_false]
    obtain ⟨_, w3, h3, h4, h5⟩ := registerHitL_mute (call := call) (busy := busy) (k := k) hC hF hfirm hm
      (⟨w0.caches, (viewOf w0 i c).g⟩ : World K V) hc0
    have hw3 : WInv w3 own := hw0.shared (w' := w3) hO h4 h5
    have hc3 : w3.caches[i]? = some (some c) := by rw [h4]; exact hc0
    rw [bind_bind, bind_ok h3]
    obtain ⟨t, hr, ht⟩ := hw3.rel hi hc3
    obtain ⟨e, he, rfl⟩ := List.mem_map.1 (hr.rep.map.mem_iff.1 hm)
    have hsim := touchR_sim (p := e.node.addr) _ t hr trivial
    have h6 : Mid.touchR e.node.addr t = _ := touchR_own ht he
    rw [h6] at hsim
    obtain ⟨s4, h7, hr4⟩ : ∃ s4, Impl.touchR e.node.addr (viewOf w3 i c) = .ok () s4 ∧ Rel s4 ⟨t.c.touch e, t.g⟩ := by
      cases h7 : Impl.touchR e.node.addr (viewOf w3 i c) with
      | ok a s4 => rw [h7] at hsim; exact ⟨s4, rfl, hsim.2.1⟩
      | _ => rw [h7] at hsim; exact hsim.elim
    have ht4 : Ok (⟨t.c.touch e, t.g⟩ : St (MCache K V) K V) := ht.touch he
    have h8 : Impl.onCache i (Impl.touchR e.node.addr) w3 = .ok () ⟨w3.caches.set i (some s4.c), s4.g⟩ := by
      rw [onCache_of hc3, h7]
    rw [bind_bind, bind_ok h8]
    have hw4 : WInv (⟨w3.caches.set i (some s4.c), s4.g⟩ : World K V) own := by
      have := hw3.member (i := i) hO touchR_sim touchR_keeps touchR_raw (m := Impl.touchR e.node.addr)
      rw [h8] at this
      exact this.1
    have hc4 : (⟨w3.caches.set i (some s4.c), s4.g⟩ : World K V).caches[i]? = some (some s4.c) := get_set_self hc3
    generalize hw4' : (⟨w3.caches.set i (some s4.c), s4.g⟩ : World K V) = w4 at hw4 hc4 ⊢
    have hcs4 : w4.caches = w3.caches.set i (some s4.c) := by rw [← hw4']
    have hk4 : s4.c.kind = .basic := by
      rw [hr4.rep.kind]
      show t.c.kind = _
      rw [← hr.rep.kind]
      exact hk
    have hm4 : e.node ∈ s4.c.map := by
      rw [hr4.rep.map.mem_iff]
      exact List.mem_map.2 ⟨e, (toEnd_perm ht he).mem_iff.2 he, rfl⟩
    have h9 : Impl.onCache i (Impl.entryU O (some e.node.addr)) w4 = .ok e.node ⟨w4.caches, (viewOf w4 i s4.c).g⟩ := by
      refine onCache_quiet hc4 ?_
      rw [entryU_run O (s := viewOf w4 i s4.c) (hw4.firm hi hc4) hm4, if_neg (by rw [basic_fresh hk4 (s := viewOf w4 i s4.c) rfl]; simp)]
      rw [show (viewOf w4 i s4.c).c.kind = .basic from hk4]
      rfl
    show ∃ w' c', (Impl.onCache i (Impl.entryU O (some e.node.addr)) >>= fun n =>
      pure (n.addr, n.info.value)) w4 = .ok (e.node.addr, e.node.info.value) w' ∧ _
    refine ⟨_, s4.c, bind_ok h9, ?_, hw4.shared hO rfl (Nat.le_refl _), ?_, ?_, ?_, ?_, ?_⟩
    · show w4.caches = _
      rw [hcs4, h4, hcs]
    · rw [hr4.elements, show elements c = _ from hr.elements]
      exact (toEnd_perm ht he).map _
    · exact hr4.rep.last
    · exact hr4.rep.cap.trans hr.rep.cap.symm
    · exact hr4.rep.obs.trans hr.rep.obs.symm
    · exact hr4.rep.kind.trans hr.rep.kind.symm

/-! ### A cache in front of another -/

section load

/-- `insert` of a key that is not stored. -/
theorem insert_new (hC : Calm O) {s : St (Cache K V) K V} {t : St (MCache K V) K V} (hr : Rel s t) (ht : Ok t) {n : Nat} {v : V}
    (hf : t.c.ents.find? (fun x => keq x.key k) = none) (hcap : t.c.cap = some (n + 1)) :
    ∃ b p s' t' x, Impl.insert O k v s = .ok (b, p) s' ∧ Rel s' t' ∧ Ok t' ∧ x.key = k ∧ x.val = v ∧
      t'.c.ents = t.c.ents.drop (t.c.ents.length - n) ++ [x] := by
  have ho := insert_out (O := O) ht hC.noListFault k v
  have hi : ∃ b p t3 x, Mid.insert O k v t = .ok (b, p) t3 ∧ x.key = k ∧ x.val = v ∧
      t3.c.ents = t.c.ents.drop (t.c.ents.length - n) ++ [x] := by
    generalize Mid.insert O k v t = o at ho
    cases ho with
    | unset h => rw [hcap] at h; cases h
    | zero h => rw [hcap] at h; cases h
    | fault g' site m _ _ _ _ h => rw [hC] at h; cases h
    | full g' e r m hf hcm hl hrn q =>
      rw [hcap] at hcm
      injection hcm with hcm
      have : m = n := by omega
      subst this
      refine ⟨_, _, _, ⟨t.g.next, e.slot, k, v, t.c.kind.stamp (O.clock t.g.ticks), some e.slot⟩, rfl, rfl, rfl, ?_⟩
      rw [hl]
      simp [hrn]
    | room g' m q hf hcm hl qu =>
      rw [hcap] at hcm
      injection hcm with hcm
      refine ⟨_, _, _, ⟨t.g.next, q, k, v, t.c.kind.stamp (O.clock t.g.ticks), some q⟩, rfl, rfl, rfl, ?_⟩
      rw [show t.c.ents.length - n = 0 by omega]
      rfl
    | update g' e m hfe => rw [hf] at hfe; cases hfe
    | updateFault g' e m m' hfe => rw [hf] at hfe; cases hfe
  obtain ⟨b, p, t3, x, hi, hk, hv, he⟩ := hi
  have hsim := insert_sim hC.noListFault (k := k) (v := v) s t hr trivial
  have hkeep := insert_keeps hC.noListFault (k := k) (v := v) t ht
  rw [hi] at hsim hkeep
  cases hx : Impl.insert O k v s with
  | ok a s3 =>
    rw [hx] at hsim
    exact ⟨b, p, s3, t3, x, by rw [show a = (b, p) from hsim.1], hsim.2.1, hkeep.ok, hk, hv, he⟩
  | _ => rw [hx] at hsim; exact hsim.elim

variable {a b : Nat} {ca cb : Cache K V}

/-- A miss in `a` of a key stored in `b`. -/
theorem registerMissL_load (hC : Calm O) (hab : a ≠ b) (hw : WInv w own) (ha : own a = true) (hb : own b = true)
    (hca : w.caches[a]? = some (some ca)) (hcb : w.caches[b]? = some (some cb)) {x n : Nat} {m : MapNode K V}
    (hcbs : ca.obs.missCbs = [x]) (hcap : ca.capacity = some (n + 1)) (hs : ¬ Stored ca k) (hk : cb.kind = .basic)
    (hm : entryFor cb k = some m) (d : Nat) :
    ∃ w' ca' cb' y, Impl.registerMissL O (readThrough a b) (Impl.stepL O (readThrough a b) (d + 1)) busy a k w = .ok () w' ∧
      w'.caches = (w.caches.set b (some cb')).set a (some ca') ∧ Holds y k m.info.value ∧
      elements ca' = (elements ca).drop (count ca - n) ++ [y] ∧ (elements cb').Perm (elements cb) ∧
      cb'.last = some m.addr := by
  have hO := hC.noListFault
  unfold Impl.registerMissL
  rw [bind_ok (onCache_quiet (g := (viewOf w a ca).g) hca (show Impl.getObs (viewOf w a ca) = .ok ca.obs _ from rfl))]
  have hw0 : WInv (⟨w.caches, (viewOf w a ca).g⟩ : World K V) own := hw.shared hO rfl (Nat.le_refl _)
  obtain ⟨_, w1, h1, h2, h3⟩ := countMiss_mute (i := a) (c := ca) (k := k) (o := ca.obs) (⟨w.caches, (viewOf w a ca).g⟩ : World K V) hca
  have hw1 : WInv w1 own := hw0.shared hO h2 h3
  have h2 : w1.caches = w.caches := h2
  rw [bind_ok h1, hcbs]
  rw [Impl.callEachL]
  have hca1 : w1.caches[a]? = some (some ca) := by rw [h2]; exact hca
  rw [bind_bind, bind_ok (onCache_quiet (g := (viewOf w1 a ca).g) hca1
    (show (pure (Event.miss x k) : Impl.CM K V _) (viewOf w1 a ca) = .ok (.miss x k) _ from rfl))]
  obtain ⟨_, w2, h4, h5, h6⟩ := emit_mute (i := a) (c := ca) (e := .miss x k) (⟨w1.caches, (viewOf w1 a ca).g⟩ : World K V) hca1
  have hw2 : WInv w2 own := (hw1.shared (w' := ⟨w1.caches, (viewOf w1 a ca).g⟩) hO rfl (Nat.le_refl _)).shared hO h5 h6
  have h5 : w2.caches = w1.caches := h5
  rw [bind_bind, bind_ok h4]
  have hca2 : w2.caches[a]? = some (some ca) := by rw [h5]; exact hca1
  have hcb2 : w2.caches[b]? = some (some cb) := by rw [h5, h2]; exact hcb
  obtain ⟨tb, hrb, htb⟩ := hw.rel hb hcb
  have hfb : cb.map.find? (fun x => keq x.key k) = some m := by
    exact (hrb.rep.find_key hrb.awf k).trans ((hrb.entryFor k).symm.trans hm)
  have hdone : ∀ e : Event K V, readThrough a b b e = .done := by
    rintro (_ | _ | _)
    · rfl
    · exact if_neg (Ne.symm hab)
    · rfl
  obtain ⟨w3, cb', h7, h8, hw3, hperm, hlast, -⟩ := lookupL_mute (call := Impl.stepL O (readThrough a b) d)
    (busy := (a, .miss) :: busy) hC hdone hw2 hb hcb2 hk hfb
  have hca3 : w3.caches[a]? = some (some ca) := by rw [h8, get_set_other (Ne.symm hab)]; exact hca2
  obtain ⟨t, hr, ht⟩ := hw3.rel ha hca3
  obtain ⟨f, p, s4, t4, y, h9, hr4, ht4, hyk, hyv, hel⟩ := insert_new (v := m.info.value) hC hr ht (hr.not_stored.1 hs)
    (hr.rep.cap ▸ hcap)
  have h10 : Impl.stepL O (readThrough a b) (d + 1) ((a, .miss) :: busy) a (.insert k m.info.value) w3 =
      .ok (.inserted f p) ⟨w3.caches.set a (some s4.c), s4.g⟩ := by
    rw [stepL_manages (op := .insert k m.info.value) trivial (Nat.succ_pos d), onCache_of hca3,
      show Impl.step O (.insert k m.info.value) (viewOf w3 a ca) = .ok (.inserted f p) s4 from bind_ok h9]
  have hrun : Impl.runW (Impl.stepL O (readThrough a b) (d + 1) ((a, .miss) :: busy)) (readThrough a b a (.miss x k)) w2 =
      .ok () ⟨w3.caches.set a (some s4.c), s4.g⟩ := by
    have h11 : Impl.stepL O (readThrough a b) (d + 1) ((a, .miss) :: busy) b (.lookup k) w2 =
        .ok (.ref m.addr m.info.value) w3 := by
      rw [Impl.stepL, plain_registers (.inr ⟨k, .inr (.inr rfl)⟩)]
      exact bind_ok h7
    show Impl.runW _ (if a = a then _ else _) w2 = _
    rw [if_pos rfl]
    unfold Impl.runW
    rw [h11]
    simp only
    unfold Impl.runW
    rw [h10]
    rfl
  rw [bind_bind, bind_ok hrun]
  have hca4 : (⟨w3.caches.set a (some s4.c), s4.g⟩ : World K V).caches[a]? = some (some s4.c) := get_set_self hca3
  obtain ⟨_, w5, h12, h13, -⟩ := attempt_mute (i := a) (c := s4.c) hC (site := .callback x) _ hca4
  rw [bind_bind, bind_ok h12]
  have hca5 : w5.caches[a]? = some (some s4.c) := by rw [h13]; exact hca4
  rw [bind_ok (show Impl.callEachL O (readThrough a b) a _ _ [] w5 = .ok () w5 from rfl),
    bind_ok (onCache_quiet (g := (viewOf w5 a s4.c).g) hca5 (show Impl.getObs (viewOf w5 a s4.c) = .ok s4.c.obs _ from rfl))]
  obtain ⟨_, w6, h14, h15, -⟩ := callEachL_mute (i := a) (c := s4.c) (F := readThrough a b) hC
    (E := fun e => ∃ cb b, e = .access cb k b) (by rintro _ ⟨_, _, rfl⟩; rfl)
    (call := Impl.stepL O (readThrough a b) (d + 1) ((a, .access) :: busy))
    (ev := fun cb => pure (.access cb k false)) (fun cb => onCache_mute .pure fun s _ => ⟨_, _, rfl⟩)
    (fun cb _ _ _ h => by cases h; exact ⟨_, _, rfl⟩) s4.c.obs.accCbs (⟨w5.caches, (viewOf w5 a s4.c).g⟩ : World K V) hca5
  refine ⟨w6, s4.c, cb', y.node, h14, ?_, ⟨hyk, hyv⟩, ?_, hperm, hlast⟩
  · rw [h15]
    show w5.caches = _
    rw [h13]
    show w3.caches.set a _ = _
    rw [h8, h5, h2]
  · rw [hr4.elements, hel, show elements ca = _ from hr.elements, show count ca = _ from hr.count, List.map_append, List.map_drop]
    rfl

theorem findL_load (hC : Calm O) (hab : a ≠ b) (hw : WInv w own) (ha : own a = true) (hb : own b = true)
    (hca : w.caches[a]? = some (some ca)) (hcb : w.caches[b]? = some (some cb)) {x n : Nat} {m : MapNode K V}
    (hcbs : ca.obs.missCbs = [x]) (hcap : ca.capacity = some (n + 1)) (hs : ¬ Stored ca k) (hk : cb.kind = .basic)
    (hm : entryFor cb k = some m) (d : Nat) :
    ∃ w' ca' cb' y, Impl.findL O (readThrough a b) (Impl.stepL O (readThrough a b) (d + 1)) busy a k w = .ok none w' ∧
      w'.caches = (w.caches.set b (some cb')).set a (some ca') ∧ Holds y k m.info.value ∧
      elements ca' = (elements ca).drop (count ca - n) ++ [y] ∧ (elements cb').Perm (elements cb) ∧
      cb'.last = some m.addr := by
  obtain ⟨t, hr, ht⟩ := hw.rel ha hca
  unfold Impl.findL
  have h1 : Impl.onCache a (Impl.mapFind k) w = .ok none ⟨w.caches, (viewOf w a ca).g⟩ := by
    refine onCache_quiet hca ?_
    show Out.ok (ca.map.find? _) _ = _
    have h0 : ca.map.find? (fun x => keq x.key k) = none := by
      refine (hr.rep.find_key hr.awf k).trans ?_
      rw [hr.not_stored.1 hs]
      rfl
    rw [h0]
    rfl
  rw [bind_ok h1]
  obtain ⟨w', ca', cb', y, h2, h3⟩ := registerMissL_load (busy := busy) hC hab
    (w := ⟨w.caches, (viewOf w a ca).g⟩) (hw.shared hC.noListFault rfl (Nat.le_refl _)) ha hb hca hcb hcbs hcap hs hk hm d
  exact ⟨w', ca', cb', y, bind_ok h2, h3⟩

end load

/-! ### Caches that miss in a circle -/

section circle

theorem lastIs_absent (hw : WInv w own) (hi : own i = true) (hc : w.caches[i]? = some (some c)) (hs : ¬ Stored c k) (g : Shared K V) :
    Impl.lastIs k ⟨c, g⟩ = .ok false ⟨c, g⟩ := by
  obtain ⟨t, hr, ht⟩ := hw.rel hi hc
  have hfirm := hr.firm ht
  obtain ⟨b, hb⟩ := lastIs_any (k := k) (s := viewOf w i c) hfirm
  cases b with
  | true =>
    obtain ⟨-, n, hn, -, hkn⟩ := lastIs_true (s := viewOf w i c) hfirm (hb _)
    refine absurd ⟨n, ?_, by rw [KeyEqual.symm]; exact hkn⟩ hs
    rw [show elements c = _ from hr.elements]
    exact hr.rep.map.mem_iff.1 hn
  | false => exact hb g

variable {S : Nat → Prop} {cs : List (Option (Cache K V))}

theorem bind_forever {m : M (World K V) α} {f : α → M (World K V) β} (h : m w = .diverge) : (m >>= f) w = .diverge :=
  bind_diverge h

/-- The first miss callback of each cache in `S` accesses the key in a cache in `S`; none of them stores it. -/
theorem stepL_circle
    (hS : ∀ i, S i → ∃ c cb rest j op next, cs[i]? = some (some c) ∧ c.obs.missCbs = cb :: rest ∧
      c.map.find? (fun x => keq x.key k) = none ∧ (∀ g, Impl.lastIs k ⟨c, g⟩ = .ok false ⟨c, g⟩) ∧
      F i (.miss cb k) = .call j op next ∧ S j ∧ op.Accesses k)
    (d : Nat) (busy : List (Nat × CbList)) (i : Nat) (op : Op K V) (hi : S i) (hop : op.Accesses k) (hw : w.caches = cs) :
    Impl.stepL O F d busy i op w = .diverge := by
  induction d generalizing busy i op w with
  | zero => rfl
  | succ d ih =>
    rw [Impl.stepL, plain_registers (.inr ⟨k, hop⟩)]
    simp only [Bool.false_eq_true, if_false]
    obtain ⟨c, cb, rest, j, op', next, hc, hcb, hf, hlast, hF, hj, hop'⟩ := hS i hi
    have hat : ∀ w : World K V, w.caches = cs → w.caches[i]? = some (some c) := fun w hw => by rw [hw]; exact hc
    have hfind : ∀ w : World K V, w.caches = cs → Impl.findL O F (Impl.stepL O F d) busy i k w = .diverge := by
      intro w hw
      unfold Impl.findL
      have h1 : Impl.onCache i (Impl.mapFind k) w = .ok none ⟨w.caches, (viewOf w i c).g⟩ := by
        refine onCache_quiet (hat w hw) ?_
        show Out.ok (c.map.find? _) _ = _
        rw [hf]
        rfl
      rw [bind_ok h1]
      refine bind_forever ?_
      unfold Impl.registerMissL
      rw [bind_ok (onCache_quiet (w := ⟨w.caches, (viewOf w i c).g⟩) (g := (viewOf w i c).g) (hat w hw)
        (show Impl.getObs _ = .ok c.obs _ from rfl))]
      obtain ⟨_, w1, h2, h3, -⟩ := countMiss_mute (i := i) (c := c) (k := k) (o := c.obs)
        (⟨w.caches, (viewOf w i c).g⟩ : World K V) (hat w hw)
      have h3 : w1.caches = cs := h3.trans hw
      rw [bind_ok h2, hcb]
      refine bind_forever ?_
      rw [Impl.callEachL]
      rw [bind_ok (onCache_quiet (g := (viewOf w1 i c).g) (hat w1 h3)
        (show (pure (Event.miss cb k) : Impl.CM K V _) (viewOf w1 i c) = .ok (.miss cb k) _ from rfl))]
      obtain ⟨_, w2, h4, h5, -⟩ := emit_mute (i := i) (c := c) (e := .miss cb k) (⟨w1.caches, (viewOf w1 i c).g⟩ : World K V)
        (hat w1 h3)
      rw [bind_ok h4]
      refine bind_forever ?_
      rw [hF]
      unfold Impl.runW
      rw [ih _ j op' hj hop' (h5.trans h3)]
    have hl : Impl.onCache i (Impl.lastIs k) w = .ok false ⟨w.caches, (viewOf w i c).g⟩ :=
      onCache_quiet (hat w hw) (hlast _)
    rcases hop with rfl | rfl | rfl
    · refine bind_forever ?_
      unfold Impl.containsL
      rw [bind_ok hl]
      exact bind_forever (hfind _ hw)
    · exact bind_forever (hfind _ hw)
    · refine bind_forever ?_
      unfold Impl.lookupL
      rw [bind_ok hl]
      exact bind_forever (hfind _ hw)

end circle

end LRU
