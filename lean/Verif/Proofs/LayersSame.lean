import Verif.Proofs.Layers
/-!
# Callbacks that use other caches: what happens to the cache itself
-/

set_option autoImplicit false
set_option linter.unusedSectionVars false

namespace LRU

variable {K V : Type} [KeyEqual K] [DecidableEq K] [DecidableEq V] {O : Oracle K V}
  {F : Nat → Event K V → WScript K V} {α β : Type} {i : Nat} {own : Nat → Bool} {w w' : World K V} {rank : Nat → Nat}
  {c c' : Cache K V} {k : K} {busy : List (Nat × CbList)} {d : Nat}

/-! ### Exceptions of registrations -/

/-- Only the user's exceptions. -/
def OnlyUser (m : M (World K V) α) : Prop := ∀ w e w', m w = .throw e w' → e = .user

theorem bind_throw_inv {σ : Type} {m : M σ α} {f : α → M σ β} {s s' : σ} {e : Err} (h : (m >>= f) s = .throw e s') :
    m s = .throw e s' ∨ ∃ a s1, m s = .ok a s1 ∧ f a s1 = .throw e s' := by
  have h' : M.bind m f s = .throw e s' := h
  unfold M.bind at h'
  cases hm : m s with
  | ok a s1 => rw [hm] at h'; exact .inr ⟨a, s1, rfl, h'⟩
  | throw e1 s1 => rw [hm] at h'; injection h' with h1 h2; subst h1; subst h2; exact .inl rfl
  | _ => rw [hm] at h'; cases h'

theorem OnlyUser.bind {m : M (World K V) α} {f : α → M (World K V) β} (h : OnlyUser m) (h' : ∀ a, OnlyUser (f a)) :
    OnlyUser (m >>= f) := by
  intro w e w' hb
  rcases bind_throw_inv hb with h1 | ⟨a, w1, -, h2⟩
  · exact h _ _ _ h1
  · exact h' _ _ _ _ h2

theorem OnlyUser.pure {a : α} : OnlyUser (Pure.pure a : M (World K V) α) := fun _ _ _ h => by cases h

theorem onCache_onlyUser {m : Impl.CM K V α} (h : ∀ s e s', m s = .throw e s' → e = .user) :
    OnlyUser (Impl.onCache i m) := by
  intro w e w' hb
  obtain ⟨c, s', -, h1, -⟩ := onCache_threw hb
  exact h _ _ _ h1

theorem runW_onlyUser {call : Nat → Op K V → M (World K V) (Res K V)} {p : WScript K V} :
    OnlyUser (Impl.runW call p) := by
  induction p with
  | done => exact .pure
  | call j op next ih =>
    intro w e w' h
    unfold Impl.runW at h
    cases hc : call j op w with
    | ok r w1 => rw [hc] at h; exact ih _ _ _ _ h
    | throw e1 w1 => rw [hc] at h; exact ih _ _ _ _ h
    | _ => rw [hc] at h; cases h

theorem deref_noThrow {p : Ptr} {s s' : St (Cache K V) K V} {e : Err} : Impl.deref p s ≠ .throw e s' := by
  unfold Impl.deref
  split
  · nofun
  · split <;> nofun

theorem countHit_noThrow {o : Obs} {s s' : St (Cache K V) K V} {e : Err} : countHit o k s ≠ .throw e s' := by
  unfold countHit
  cases o.stats <;> nofun

theorem countMiss_noThrow {o : Obs} {s s' : St (Cache K V) K V} {e : Err} : countMiss o k s ≠ .throw e s' := by
  unfold countMiss
  cases o.stats <;> nofun

theorem callEachL_onlyUser {call : Nat → Op K V → M (World K V) (Res K V)} {ev : Nat → Impl.CM K V (Event K V)}
    (he : ∀ cb s e s', ev cb s = .throw e s' → e = .user) (l : List Nat) :
    OnlyUser (Impl.callEachL O F i call ev l) := by
  induction l with
  | nil => exact .pure
  | cons cb rest ih =>
    refine (onCache_onlyUser (he cb)).bind fun e => (onCache_onlyUser (fun _ _ _ h => by cases h)).bind fun _ => ?_
    refine runW_onlyUser.bind fun _ => (onCache_onlyUser ?_).bind fun _ => ih
    intro s e s' h
    unfold attempt at h
    dsimp only at h
    split at h <;> cases h
    rfl

theorem registerHitL_onlyUser {call : List (Nat × CbList) → Nat → Op K V → M (World K V) (Res K V)} {p : Ptr} :
    OnlyUser (Impl.registerHitL O F call busy i k p) := by
  refine (onCache_onlyUser (fun _ _ _ h => by cases h)).bind fun o =>
    (onCache_onlyUser (fun _ _ _ h => absurd h countHit_noThrow)).bind fun _ => ?_
  refine (callEachL_onlyUser (fun cb s e s' h => ?_) _).bind fun _ => ?_
  · rcases bind_throw_inv h with h | ⟨_, _, -, h⟩
    · exact absurd h deref_noThrow
    · cases h
  · exact (onCache_onlyUser (fun _ _ _ h => by cases h)).bind fun _ => callEachL_onlyUser (fun _ _ _ _ h => by cases h) _

theorem registerMissL_onlyUser {call : List (Nat × CbList) → Nat → Op K V → M (World K V) (Res K V)} :
    OnlyUser (Impl.registerMissL O F call busy i k) := by
  refine (onCache_onlyUser (fun _ _ _ h => by cases h)).bind fun o =>
    (onCache_onlyUser (fun _ _ _ h => absurd h countMiss_noThrow)).bind fun _ => ?_
  refine (callEachL_onlyUser (fun _ _ _ _ h => by cases h) _).bind fun _ => ?_
  exact (onCache_onlyUser (fun _ _ _ h => by cases h)).bind fun _ => callEachL_onlyUser (fun _ _ _ _ h => by cases h) _

/-! ### Programs that depend on the cache only -/

/-- The program neither depends on nor changes what caches share. -/
def Local (m : Impl.CM K V α) : Prop :=
  ∀ s a s', m s = .ok a s' → s'.g = s.g ∧ ∀ g, m ⟨s.c, g⟩ = .ok a ⟨s'.c, g⟩

theorem Local.bind {m : Impl.CM K V α} {f : α → Impl.CM K V β} (h : Local m) (h' : ∀ a, Local (f a)) :
    Local (m >>= f) := by
  intro s b s' hb
  obtain ⟨a, s1, h1, h2⟩ := bind_ok_inv hb
  obtain ⟨e1, h3⟩ := h _ _ _ h1
  obtain ⟨e2, h4⟩ := h' a _ _ _ h2
  exact ⟨e2.trans e1, fun g => (bind_ok (h3 g)).trans (h4 g)⟩

theorem Local.pure {a : α} : Local (Pure.pure a : Impl.CM K V α) := by
  intro s b s' h
  have h' : (Out.ok a s : Out (St (Cache K V) K V) α) = .ok b s' := h
  injection h' with h1 h2
  subst h1; subst h2
  exact ⟨rfl, fun _ => rfl⟩

theorem Local.ub : Local (M.ub : Impl.CM K V α) := fun _ _ _ h => by cases h

theorem setSelf_local {f : Cache K V → Cache K V} : Local (Impl.setSelf f : Impl.CM K V Unit) := by
  intro s b s' h
  cases h
  exact ⟨rfl, fun _ => rfl⟩

theorem derefIt_local {it : Option Ptr} : Local (Impl.derefIt it : Impl.CM K V _) := by
  cases it with
  | none => exact .ub
  | some p =>
    intro s a s' h
    unfold Impl.derefIt at h ⊢
    simp only at h ⊢
    cases hf : s.c.map.find? (fun n => n.addr == p) with
    | none => rw [hf] at h; cases h
    | some n =>
      rw [hf] at h
      cases h
      exact ⟨rfl, fun _ => rfl⟩

theorem derefOrder_local {p : Ptr} : Local (Impl.derefOrder p : Impl.CM K V _) := by
  intro s a s' h
  unfold Impl.derefOrder at h ⊢
  cases hf : s.c.order.find? (fun n => n.addr == p) with
  | none => rw [hf] at h; cases h
  | some n =>
    rw [hf] at h
    cases h
    exact ⟨rfl, fun _ => by rw [hf]⟩

theorem size_local : Local (Impl.size : Impl.CM K V Nat) := by
  intro s a s' h
  cases h
  exact ⟨rfl, fun _ => rfl⟩

theorem moveToFront_local {it : Option Ptr} : Local (Impl.moveToFront it : Impl.CM K V Unit) := by
  refine size_local.bind fun n => ?_
  split
  · exact .pure
  · cases it with
    | none => exact .ub
    | some p => exact derefOrder_local.bind fun _ => setSelf_local

/-- What is done to the entry found, without fetching it again. -/
theorem touch_local {it : Option Ptr} {p : Ptr} : Local (do Impl.moveToFront it; Impl.setLast p : Impl.CM K V Unit) :=
  moveToFront_local.bind fun _ => setSelf_local

/-! ### Expiry -/

theorem hasExpiredInfo_run (O : Oracle K V) (time : Int) (s : St (Cache K V) K V) :
    Impl.hasExpiredInfo O time s = .ok (expiredAt O s.c.kind s.g time) ⟨s.c, tickG s.c.kind s.g⟩ := by
  unfold Impl.hasExpiredInfo
  rw [bind_ok (m := Impl.getKind) (s := s) rfl]
  cases h : s.c.kind with
  | basic => rfl
  | timed ttl res => rfl

theorem lag_now {t δ : Nat} {kind : Kind} {g g' : Shared K V} (h : g.ticks = t) (h' : g'.ticks = t) {time : Int} :
    expiredAt (O.lag t δ) kind g time = expiredAt O kind g' time := by
  unfold expiredAt Oracle.lag
  simp only [h, h', Nat.le_refl, if_true]

theorem lag_later {t δ : Nat} {kind : Kind} {g g' : Shared K V} (h : kind ≠ .basic → g.ticks = t + 1)
    (h' : kind ≠ .basic → g'.ticks = t + 1 + δ) {time : Int} :
    expiredAt (O.lag t δ) kind g time = expiredAt O kind g' time := by
  cases kind with
  | basic => rfl
  | timed ttl res =>
    unfold expiredAt Oracle.lag
    simp only [h nofun, h' nofun]
    rw [if_neg (by omega)]

theorem reads_timed {kind : Kind} (h : kind ≠ .basic) : kind.reads = 1 := by
  cases kind with
  | basic => exact absurd rfl h
  | timed => rfl

theorem lag_hit {t δ : Nat} {o : Obs} {v : V} {s : St (Cache K V) K V} :
    registerHit (O.lag t δ) o k v s = .ok () ⟨s.c, hitG o k v s.g⟩ := by
  rcases registerHit_cases (O := O.lag t δ) o k v s with h | ⟨n, cb, -, h, -⟩
  · exact h.1
  · cases h

theorem lag_miss {t δ : Nat} {o : Obs} {s : St (Cache K V) K V} :
    registerMiss (O.lag t δ) o k s = .ok () ⟨s.c, missG o k s.g⟩ := by
  rcases registerMiss_cases (O := O.lag t δ) o k s with h | ⟨n, cb, -, h, -⟩
  · exact h.1
  · cases h

/-! ### Running on the world -/

theorem onCache_quiet {m : Impl.CM K V α} {a : α} {g : Shared K V} (hc : w.caches[i]? = some (some c))
    (hm : m (viewOf w i c) = .ok a ⟨c, g⟩) : Impl.onCache i m w = .ok a ⟨w.caches, g⟩ := by
  rw [onCache_of hc, hm]
  simp only
  rw [set_same hc]

theorem WInv.firm (h : WInv w own) (hi : own i = true) (hc : w.caches[i]? = some (some c)) : Firm c := by
  obtain ⟨t, hr, ht⟩ := h.pair.view hc (h.own i c hc hi).1
  exact hr.firm ht

theorem hit_ticks {o : Obs} {v : V} {g : Shared K V} : (hitG o k v g).ticks = g.ticks := rfl
theorem miss_ticks {o : Obs} {g : Shared K V} : (missG o k g).ticks = g.ticks := rfl

/-- `find`: whatever the callbacks do to the caches below, this cache changes as if they had done nothing. -/
theorem findL_same (hO : NoListFault O) (hL : Layered rank F) (hw : WInv w own) (hi : own i = true)
    (hc : w.caches[i]? = some (some c)) {it : Option Ptr}
    (h : Impl.findL O F (Impl.stepL O F d) busy i k w = .ok it w') :
    WInv w' own ∧ ∃ c' n, w'.caches[i]? = some (some c') ∧ c'.kind = c.kind ∧ w.g.ticks + n ≤ w'.g.ticks ∧
      (it ≠ none → n = c.kind.reads) ∧ (∀ p, it = some p → c'.last = some p) ∧
      ∀ δ, ∃ s', Impl.find (O.lag w.g.ticks δ) k (viewOf w i c) = .ok it s' ∧ s'.c = c' ∧ s'.g.ticks = w.g.ticks + n := by
  have hfirm := hw.firm hi hc
  unfold Impl.findL at h
  rw [bind_ok (onCache_quiet (g := (viewOf w i c).g) hc
    (show Impl.mapFind k (viewOf w i c) = .ok (c.map.find? (fun n => keq n.key k)) _ from rfl))] at h
  have plain : ∀ δ, Impl.find (O.lag w.g.ticks δ) k (viewOf w i c) = _ := fun δ => by
    unfold Impl.find
    rw [bind_ok (m := Impl.getObs) (s := viewOf w i c) rfl, bind_ok (s := viewOf w i c)
      (show Impl.mapFind k (viewOf w i c) = .ok (c.map.find? (fun n => keq n.key k)) _ from rfl)]
  have hw1 : WInv (⟨w.caches, (viewOf w i c).g⟩ : World K V) own := hw.shared hO rfl (Nat.le_refl _)
  cases hf : c.map.find? (fun n => keq n.key k) with
  | none =>
    simp only [hf] at h plain
    obtain ⟨_, w2, h1, h2⟩ := bind_ok_inv h
    cases h2
    have h3 := registerMissL_layered (i := i) (d := d) (busy := busy) (k := k) hO hL _ hw1
    rw [h1] at h3
    refine ⟨h3.1, c, 0, (h3.2.2 i (Nat.le_refl _)).trans hc, rfl, h3.2.1, fun h => absurd rfl h, nofun, fun δ => ?_⟩
    refine ⟨_, (plain δ).trans (bind_ok lag_miss), rfl, rfl⟩
  | some n =>
    simp only [hf] at h plain
    have hm := List.mem_of_find?_eq_some hf
    rw [bind_ok (onCache_quiet (w := ⟨w.caches, (viewOf w i c).g⟩) (c := c) hc
      (hasExpiredInfo_run O n.info.time (viewOf w i c)))] at h
    have hw2 : WInv (⟨w.caches, tickG c.kind (viewOf w i c).g⟩ : World K V) own := hw.shared hO rfl (Nat.le_refl _)
    have plain2 : ∀ δ, Impl.find (O.lag w.g.ticks δ) k (viewOf w i c) = _ := fun δ =>
      (plain δ).trans (bind_ok (hasExpiredInfo_run (O.lag w.g.ticks δ) n.info.time (viewOf w i c)))
    simp only [show ∀ δ, expiredAt (O.lag w.g.ticks δ) (viewOf w i c).c.kind (viewOf w i c).g n.info.time =
      expiredAt O (viewOf w i c).c.kind (viewOf w i c).g n.info.time from fun δ => lag_now rfl rfl] at plain2
    cases hb : expiredAt O (viewOf w i c).c.kind (viewOf w i c).g n.info.time with
    | true =>
      simp only [hb, if_true] at h plain2
      obtain ⟨_, w2, h1, h2⟩ := bind_ok_inv h
      cases h2
      have h3 := registerMissL_layered (i := i) (d := d) (busy := busy) (k := k) hO hL _ hw2
      have h1' : Impl.registerMissL O F (Impl.stepL O F d) busy i k (⟨w.caches, tickG c.kind (viewOf w i c).g⟩ : World K V) =
        .ok () w' := h1
      rw [h1'] at h3
      refine ⟨h3.1, c, c.kind.reads, (h3.2.2 i (Nat.le_refl _)).trans hc, rfl, h3.2.1, fun h => absurd rfl h, nofun, fun δ => ?_⟩
      exact ⟨_, (plain2 δ).trans (bind_ok lag_miss), rfl, rfl⟩
    | false =>
      simp only [hb, Bool.false_eq_true, if_false] at h plain2
      obtain ⟨_, w3, h1, h2⟩ := bind_ok_inv h
      obtain ⟨_, w4, h4, h5⟩ := bind_ok_inv h2
      cases h5
      have h3 := registerHitL_layered (i := i) (d := d) (busy := busy) (k := k) (p := n.addr) hO hL _ hw2
      have h1' : Impl.registerHitL O F (Impl.stepL O F d) busy i k n.addr
        (⟨w.caches, tickG c.kind (viewOf w i c).g⟩ : World K V) = .ok () w3 := h1
      rw [h1'] at h3
      have hc3 : w3.caches[i]? = some (some c) := (h3.2.2 i (Nat.le_refl _)).trans hc
      have h6 := h3.1.member (i := i) hO (touchR_sim (p := n.addr)) touchR_keeps touchR_raw
      rw [h4] at h6
      obtain ⟨c3, s4, h7, h8, rfl⟩ := onCache_ok h4
      obtain rfl : c = c3 := by rw [hc3] at h7; injection h7 with h7; injection h7
      unfold Impl.touchR at h8
      rw [bind_ok (derefIt_mem (s := viewOf w3 i c) hfirm hm)] at h8
      obtain ⟨h9, h10⟩ := touch_local _ _ _ h8
      have hk4 : s4.c.kind = c.kind := by
        have h11 := touchR_raw (p := n.addr) (viewOf w3 i c)
          (by obtain ⟨t, hr, -⟩ := h3.1.pair.view hc3 (h3.1.own i c hc3 hi).1; exact hr.bounded)
        unfold Impl.touchR at h11
        rw [bind_ok (derefIt_mem (s := viewOf w3 i c) hfirm hm), h8] at h11
        exact h11.kind
      refine ⟨h6.1, s4.c, c.kind.reads, get_set_self hc3, hk4, ?_, fun _ => rfl, ?_, fun δ => ?_⟩
      · show _ ≤ s4.g.ticks
        rw [h9]
        exact h3.2.1
      · intro p hp
        injection hp with hp
        subst hp
        obtain ⟨_, s5, -, h13⟩ := bind_ok_inv h8
        cases h13
        rfl
      · have h12 := h10 (hitG c.obs k n.info.value (tickG c.kind (viewOf w i c).g))
        obtain ⟨_, s5, h13, h14⟩ := bind_ok_inv h12
        exact ⟨_, (plain2 δ).trans ((bind_ok lag_hit).trans ((bind_ok h13).trans (bind_ok h14))), rfl, rfl⟩

/-- Exceptions of `find`: those of the callbacks, before the cache has changed. -/
theorem findL_threw (hO : NoListFault O) (hL : Layered rank F) (hw : WInv w own)
    (hc : w.caches[i]? = some (some c)) {e : Err} (hi : own i = true)
    (h : Impl.findL O F (Impl.stepL O F d) busy i k w = .throw e w') :
    e = .user ∧ w'.caches[i]? = some (some c) := by
  have hfirm := hw.firm hi hc
  unfold Impl.findL at h
  rw [bind_ok (onCache_quiet (g := (viewOf w i c).g) hc
    (show Impl.mapFind k (viewOf w i c) = .ok (c.map.find? (fun n => keq n.key k)) _ from rfl))] at h
  have miss : ∀ g : Shared K V, w.g.next ≤ g.next →
      (Impl.registerMissL O F (Impl.stepL O F d) busy i k >>= fun _ => (pure none : M (World K V) (Option Ptr)))
        (⟨w.caches, g⟩ : World K V) = .throw e w' → e = .user ∧ w'.caches[i]? = some (some c) := by
    intro g hg h
    rcases bind_throw_inv h with h | ⟨_, _, -, h⟩
    · have h3 := registerMissL_layered (i := i) (d := d) (busy := busy) (k := k) hO hL (⟨w.caches, g⟩ : World K V)
        (hw.shared hO rfl hg)
      rw [h] at h3
      exact ⟨registerMissL_onlyUser _ _ _ h, (h3.2.2 i (Nat.le_refl _)).trans hc⟩
    · cases h
  cases hf : c.map.find? (fun n => keq n.key k) with
  | none =>
    simp only [hf] at h
    exact miss _ (Nat.le_refl _) h
  | some n =>
    simp only [hf] at h
    have hm := List.mem_of_find?_eq_some hf
    rw [bind_ok (onCache_quiet (w := ⟨w.caches, (viewOf w i c).g⟩) (c := c) hc
      (hasExpiredInfo_run O n.info.time (viewOf w i c)))] at h
    cases hb : expiredAt O (viewOf w i c).c.kind (viewOf w i c).g n.info.time with
    | true =>
      simp only [hb, if_true] at h
      exact miss (tickG c.kind (viewOf w i c).g) (Nat.le_refl _) h
    | false =>
      simp only [hb, Bool.false_eq_true, if_false] at h
      have hw2 : WInv (⟨w.caches, tickG c.kind (viewOf w i c).g⟩ : World K V) own := hw.shared hO rfl (Nat.le_refl _)
      have h3 := registerHitL_layered (i := i) (d := d) (busy := busy) (k := k) (p := n.addr) hO hL _ hw2
      rcases bind_throw_inv h with h | ⟨_, w3, h1, h⟩
      · have h' : Impl.registerHitL O F (Impl.stepL O F d) busy i k n.addr
          (⟨w.caches, tickG c.kind (viewOf w i c).g⟩ : World K V) = .throw e w' := h
        rw [h'] at h3
        exact ⟨registerHitL_onlyUser _ _ _ h, (h3.2.2 i (Nat.le_refl _)).trans hc⟩
      · exfalso
        have h1' : Impl.registerHitL O F (Impl.stepL O F d) busy i k n.addr
          (⟨w.caches, tickG c.kind (viewOf w i c).g⟩ : World K V) = .ok () w3 := h1
        rw [h1'] at h3
        have hc3 : w3.caches[i]? = some (some c) := (h3.2.2 i (Nat.le_refl _)).trans hc
        rcases bind_throw_inv h with h | ⟨_, _, -, h⟩
        · obtain ⟨c3, s4, h7, h8, -⟩ := onCache_threw h
          obtain ⟨t, hr, ht⟩ := h3.1.pair.view hc3 (h3.1.own i c hc3 hi).1
          obtain rfl : c = c3 := by rw [hc3] at h7; injection h7 with h7; injection h7
          have h9 := touchR_sim (p := n.addr) _ t hr trivial
          rw [h8] at h9
          obtain ⟨e, he, hn⟩ := List.mem_map.1 (hr.rep.map.mem_iff.1 hm)
          rw [← hn] at h9
          have h10 : Mid.touchR e.node.addr t = _ := touchR_own ht he
          rw [h10] at h9
          exact h9.elim
        · cases h

theorem lastIs_any {s : St (Cache K V) K V} (hc : Firm s.c) : ∃ b, ∀ g, Impl.lastIs k ⟨s.c, g⟩ = .ok b ⟨s.c, g⟩ := by
  cases hl : s.c.last with
  | none =>
    refine ⟨false, fun g => ?_⟩
    unfold Impl.lastIs
    rw [bind_ok (show Impl.getLast ⟨s.c, g⟩ = .ok s.c.last ⟨s.c, g⟩ from rfl), hl]
    rfl
  | some p =>
    obtain ⟨m, hm, rfl⟩ := hc.last p hl
    refine ⟨keq k m.key, fun g => ?_⟩
    unfold Impl.lastIs
    rw [bind_ok (show Impl.getLast ⟨s.c, g⟩ = .ok s.c.last ⟨s.c, g⟩ from rfl), hl]
    simp only
    rw [bind_ok (deref_mem (s := ⟨s.c, g⟩) hc hm)]
    rfl

theorem lastAccessedIsOk_run (O : Oracle K V) {s : St (Cache K V) K V} (hc : Firm s.c) {n : MapNode K V}
    (hn : n ∈ s.c.map) (hl : s.c.last = some n.addr) :
    Impl.lastAccessedIsOk O s = .ok (!expiredAt O s.c.kind s.g n.info.time) ⟨s.c, tickG s.c.kind s.g⟩ := by
  unfold Impl.lastAccessedIsOk
  rw [bind_ok (m := Impl.getKind) (s := s) rfl]
  cases h : s.c.kind with
  | basic => rfl
  | timed ttl res =>
    simp only
    rw [bind_ok (lastNode_last hc hn hl), bind_ok (hasExpiredInfo_run O n.info.time s), h]
    rfl

theorem valueForLastAccessed_run (O : Oracle K V) {s : St (Cache K V) K V} (hc : Firm s.c) {n : MapNode K V}
    (hn : n ∈ s.c.map) (hl : s.c.last = some n.addr) :
    Impl.valueForLastAccessed O s = if expiredAt O s.c.kind s.g n.info.time then .throw .keyExpired ⟨s.c, tickG s.c.kind s.g⟩
      else .ok n ⟨s.c, tickG s.c.kind s.g⟩ := by
  unfold Impl.valueForLastAccessed
  rw [bind_ok (lastNode_last hc hn hl), bind_ok (m := Impl.getKind) (s := s) rfl]
  cases h : s.c.kind with
  | basic => rfl
  | timed ttl res =>
    simp only
    rw [bind_ok (hasExpiredInfo_run O n.info.time s), h]
    cases expiredAt O (Kind.timed ttl res) s.g n.info.time <;> rfl

theorem entryU_run (O : Oracle K V) {s : St (Cache K V) K V} (hc : Firm s.c) {n : MapNode K V} (hn : n ∈ s.c.map) :
    Impl.entryU O (some n.addr) s = if expiredAt O s.c.kind s.g n.info.time then .throw .keyExpired ⟨s.c, tickG s.c.kind s.g⟩
      else .ok n ⟨s.c, tickG s.c.kind s.g⟩ := by
  unfold Impl.entryU
  rw [bind_ok (derefIt_mem hc hn)]
  have h1 : Impl.throwIfInvalidU O (some n.addr) s =
      if expiredAt O s.c.kind s.g n.info.time then .throw .keyExpired ⟨s.c, tickG s.c.kind s.g⟩
      else .ok () ⟨s.c, tickG s.c.kind s.g⟩ := by
    unfold Impl.throwIfInvalidU
    simp only
    rw [bind_ok (m := Impl.getKind) (s := s) rfl]
    cases h : s.c.kind with
    | basic => rfl
    | timed ttl res =>
      simp only
      rw [bind_ok (derefIt_mem hc hn), bind_ok (hasExpiredInfo_run O n.info.time s), h]
      cases expiredAt O (Kind.timed ttl res) s.g n.info.time <;> rfl
  cases hb : expiredAt O s.c.kind s.g n.info.time with
  | true =>
    rw [hb] at h1
    exact bind_throw h1
  | false =>
    rw [hb] at h1
    exact bind_ok h1

/-- What a call on cache `i` does to that cache compared with the plain call, given its result. -/
def EffectAs (O : Oracle K V) (m : Oracle K V → Impl.CM K V α) (w : World K V) (i : Nat) (c : Cache K V) :
    Out (World K V) α → Prop
  | .ok a w' => ∃ δ s', m (O.lag w.g.ticks δ) (viewOf w i c) = .ok a s' ∧ w'.caches[i]? = some (some s'.c)
  | .throw e w' => (e = .user ∧ w'.caches[i]? = some (some c)) ∨
      ∃ δ s', m (O.lag w.g.ticks δ) (viewOf w i c) = .throw e s' ∧ w'.caches[i]? = some (some s'.c)
  | _ => True

theorem EffectAs.ret {m : Oracle K V → Impl.CM K V α} {m' : M (World K V) α} {f : α → Res K V}
    (h : EffectAs O m w i c (m' w)) : EffectAs O (fun O => Impl.ret (m O) f) w i c (Impl.ret m' f w) := by
  show EffectAs O _ w i c (M.bind m' (fun a => M.pure (f a)) w)
  unfold M.bind
  cases hm : m' w with
  | ok a w' =>
    rw [hm] at h
    obtain ⟨δ, s', h1, h2⟩ := h
    exact ⟨δ, s', bind_ok h1, h2⟩
  | throw e w' =>
    rw [hm] at h
    rcases h with h | ⟨δ, s', h1, h2⟩
    · exact .inl h
    · exact .inr ⟨δ, s', bind_throw h1, h2⟩
  | _ => trivial

theorem findL_effect (hO : NoListFault O) (hL : Layered rank F) (hw : WInv w own) (hi : own i = true)
    (hc : w.caches[i]? = some (some c)) :
    EffectAs O (fun O => Impl.find O k) w i c (Impl.findL O F (Impl.stepL O F d) busy i k w) := by
  cases h : Impl.findL O F (Impl.stepL O F d) busy i k w with
  | ok it w' =>
    obtain ⟨-, c', n, h1, -, -, -, -, h2⟩ := findL_same hO hL hw hi hc h
    obtain ⟨s', h3, rfl, -⟩ := h2 0
    exact ⟨0, s', h3, h1⟩
  | throw e w' => exact .inl (findL_threw hO hL hw hc hi h)
  | _ => trivial

/-- The rest of a call that registers a hit and changes nothing else. -/
theorem hit_effect (hO : NoListFault O) (hL : Layered rank F) (hw : WInv w own) (hc : w.caches[i]? = some (some c))
    {m : Oracle K V → Impl.CM K V α} {g : Shared K V} {a : α} {f : Unit → M (World K V) α} {p : Ptr} (hg : w.g.next ≤ g.next)
    (hp : ∃ s', m (O.lag w.g.ticks 0) (viewOf w i c) = .ok a s' ∧ s'.c = c)
    (hf : ∀ w3 : World K V, w3.caches[i]? = some (some c) → ∃ w4, f () w3 = .ok a w4 ∧ w4.caches = w3.caches) :
    EffectAs O m w i c ((Impl.registerHitL O F (Impl.stepL O F d) busy i k p >>= f) (⟨w.caches, g⟩ : World K V)) := by
  have h3 := registerHitL_layered (i := i) (d := d) (busy := busy) (k := k) (p := p) hO hL (⟨w.caches, g⟩ : World K V)
    (hw.shared hO rfl hg)
  show EffectAs O m w i c (M.bind _ _ _)
  unfold M.bind
  cases h : Impl.registerHitL O F (Impl.stepL O F d) busy i k p (⟨w.caches, g⟩ : World K V) with
  | ok u w3 =>
    rw [h] at h3
    have hc3 := (h3.2.2 i (Nat.le_refl _)).trans hc
    obtain ⟨w4, h4, h5⟩ := hf w3 hc3
    obtain ⟨s', h6, rfl⟩ := hp
    simp only
    rw [h4]
    exact ⟨0, s', h6, by rw [h5]; exact hc3⟩
  | throw e w3 =>
    rw [h] at h3
    exact .inl ⟨registerHitL_onlyUser _ _ _ h, (h3.2.2 i (Nat.le_refl _)).trans hc⟩
  | _ => trivial

theorem containsL_effect (hO : NoListFault O) (hL : Layered rank F) (hw : WInv w own) (hi : own i = true)
    (hc : w.caches[i]? = some (some c)) :
    EffectAs O (fun O => Impl.contains O k) w i c (Impl.containsL O F (Impl.stepL O F d) busy i k w) := by
  have hfirm := hw.firm hi hc
  obtain ⟨b, hb⟩ := lastIs_any (k := k) (s := viewOf w i c) hfirm
  have hb1 : Impl.lastIs k (viewOf w i c) = .ok b ⟨c, (viewOf w i c).g⟩ := hb _
  unfold Impl.containsL
  rw [bind_ok (onCache_quiet hc hb1)]
  have plain : ∀ δ, Impl.contains (O.lag w.g.ticks δ) k (viewOf w i c) = _ := fun δ => by
    unfold Impl.contains
    rw [bind_ok (m := Impl.getObs) (s := viewOf w i c) rfl, bind_ok hb1]
  cases b with
  | true =>
    obtain ⟨-, n, hn, hl, -⟩ := lastIs_true (s := viewOf w i c) hfirm hb1
    simp only [if_true] at plain ⊢
    rw [bind_ok (onCache_quiet (w := ⟨w.caches, (viewOf w i c).g⟩) (c := c) (g := tickG c.kind (viewOf w i c).g) hc
      (lastAccessedIsOk_run O (s := viewOf w i c) hfirm hn hl))]
    have plain2 : ∀ δ, Impl.contains (O.lag w.g.ticks δ) k (viewOf w i c) = _ := fun δ =>
      (plain δ).trans (bind_ok (lastAccessedIsOk_run (O.lag w.g.ticks δ) (s := viewOf w i c) hfirm hn hl))
    simp only [show ∀ δ, expiredAt (O.lag w.g.ticks δ) (viewOf w i c).c.kind (viewOf w i c).g n.info.time =
      expiredAt O (viewOf w i c).c.kind (viewOf w i c).g n.info.time from fun δ => lag_now rfl rfl] at plain2
    cases he : expiredAt O (viewOf w i c).c.kind (viewOf w i c).g n.info.time with
    | true =>
      simp only [he, Bool.not_true, Bool.false_eq_true, if_false] at plain2 ⊢
      exact ⟨0, _, plain2 0, hc⟩
    | false =>
      simp only [he, Bool.not_false, if_true] at plain2 ⊢
      rw [bind_ok (onCache_quiet (w := ⟨w.caches, tickG c.kind (viewOf w i c).g⟩) (c := c) hc
        (lastNode_last (s := ⟨c, { tickG c.kind (viewOf w i c).g with ext := Impl.allNodes (w.caches.set i none) }⟩) hfirm hn hl))]
      refine hit_effect hO hL hw hc (Nat.le_refl _) ?_ fun w3 _ => ⟨w3, rfl, rfl⟩
      exact ⟨_, (plain2 0).trans ((bind_ok (lastNode_last (s := ⟨c, tickG c.kind (viewOf w i c).g⟩) hfirm hn hl)).trans
        (bind_ok lag_hit)), rfl⟩
  | false =>
    simp only [Bool.false_eq_true, if_false] at plain ⊢
    have hw1 : WInv (⟨w.caches, (viewOf w i c).g⟩ : World K V) own := hw.shared hO rfl (Nat.le_refl _)
    have h1 := findL_effect (k := k) (d := d) (busy := busy) hO hL hw1 hi hc
    show EffectAs O _ w i c (M.bind _ _ _)
    unfold M.bind
    cases h : Impl.findL O F (Impl.stepL O F d) busy i k (⟨w.caches, (viewOf w i c).g⟩ : World K V) with
    | ok it w' =>
      rw [h] at h1
      obtain ⟨δ, s', h2, h3⟩ := h1
      exact ⟨δ, s', (plain δ).trans (bind_ok h2), h3⟩
    | throw e w' =>
      rw [h] at h1
      rcases h1 with h1 | ⟨δ, s', h2, h3⟩
      · exact .inl h1
      · exact .inr ⟨δ, s', (plain δ).trans (bind_throw h2), h3⟩
    | _ => trivial

theorem lookupL_effect (hO : NoListFault O) (hL : Layered rank F) (hw : WInv w own) (hi : own i = true)
    (hc : w.caches[i]? = some (some c)) :
    EffectAs O (fun O => Impl.lookup O k) w i c (Impl.lookupL O F (Impl.stepL O F d) busy i k w) := by
  have hfirm := hw.firm hi hc
  obtain ⟨b, hb⟩ := lastIs_any (k := k) (s := viewOf w i c) hfirm
  have hb1 : Impl.lastIs k (viewOf w i c) = .ok b ⟨c, (viewOf w i c).g⟩ := hb _
  unfold Impl.lookupL
  rw [bind_ok (onCache_quiet hc hb1)]
  have plain : ∀ δ, Impl.lookup (O.lag w.g.ticks δ) k (viewOf w i c) = _ := fun δ => by
    unfold Impl.lookup
    rw [bind_ok (m := Impl.getObs) (s := viewOf w i c) rfl, bind_ok hb1]
  cases b with
  | true =>
    obtain ⟨-, n, hn, hl, -⟩ := lastIs_true (s := viewOf w i c) hfirm hb1
    simp only [if_true] at plain ⊢
    have h1 := valueForLastAccessed_run O (s := viewOf w i c) hfirm hn hl
    have h1' : ∀ δ, _ := fun δ => valueForLastAccessed_run (O.lag w.g.ticks δ) (s := viewOf w i c) hfirm hn hl
    simp only [show ∀ δ, expiredAt (O.lag w.g.ticks δ) (viewOf w i c).c.kind (viewOf w i c).g n.info.time =
      expiredAt O (viewOf w i c).c.kind (viewOf w i c).g n.info.time from fun δ => lag_now rfl rfl] at h1'
    cases he : expiredAt O (viewOf w i c).c.kind (viewOf w i c).g n.info.time with
    | true =>
      simp only [he, if_true] at h1 h1'
      have h2 : Impl.onCache i (Impl.valueForLastAccessed O) (⟨w.caches, (viewOf w i c).g⟩ : World K V) =
          .throw .keyExpired ⟨w.caches, tickG c.kind (viewOf w i c).g⟩ := by
        rw [onCache_of (w := ⟨w.caches, (viewOf w i c).g⟩) hc]
        rw [show Impl.valueForLastAccessed O (viewOf ⟨w.caches, (viewOf w i c).g⟩ i c) = _ from h1]
        simp only
        congr 2
        exact set_same hc
      rw [bind_throw h2]
      exact .inr ⟨0, _, (plain 0).trans (bind_throw (h1' 0)), hc⟩
    | false =>
      simp only [he, Bool.false_eq_true, if_false] at h1 h1'
      rw [bind_ok (onCache_quiet (w := ⟨w.caches, (viewOf w i c).g⟩) (c := c) (g := tickG c.kind (viewOf w i c).g) hc h1)]
      refine hit_effect hO hL hw hc (Nat.le_refl _) ⟨_, (plain 0).trans ((bind_ok (h1' 0)).trans (bind_ok lag_hit)), rfl⟩ ?_
      intro w3 hc3
      exact ⟨_, bind_ok (onCache_quiet hc3 (deref_mem (s := viewOf w3 i c) hfirm hn)), rfl⟩
  | false =>
    simp only [Bool.false_eq_true, if_false] at plain ⊢
    have hw1 : WInv (⟨w.caches, (viewOf w i c).g⟩ : World K V) own := hw.shared hO rfl (Nat.le_refl _)
    show EffectAs O _ w i c (M.bind _ _ _)
    unfold M.bind
    cases h : Impl.findL O F (Impl.stepL O F d) busy i k (⟨w.caches, (viewOf w i c).g⟩ : World K V) with
    | ok it w1 =>
      obtain ⟨hwI, c', n, h1, hk, ht, hn, hl, h2⟩ := findL_same hO hL hw1 hi hc h
      have h2 : ∀ δ, ∃ s', Impl.find (O.lag w.g.ticks δ) k (viewOf w i c) = .ok it s' ∧ s'.c = c' ∧
        s'.g.ticks = w.g.ticks + n := h2
      have ht : w.g.ticks + n ≤ w1.g.ticks := ht
      cases it with
      | none =>
        obtain ⟨s', h3, rfl, -⟩ := h2 0
        exact .inr ⟨0, s', (plain 0).trans (bind_ok h3), h1⟩
      | some p =>
        have hfirm' := hwI.firm hi h1
        have hrd : n = c.kind.reads := hn (by simp)
        obtain ⟨x, hx, rfl⟩ := hfirm'.last p (hl p rfl)
        obtain ⟨s', h3, rfl, hts⟩ := h2 (w1.g.ticks - (w.g.ticks + 1))
        have he : expiredAt (O.lag w.g.ticks (w1.g.ticks - (w.g.ticks + 1))) s'.c.kind s'.g x.info.time =
            expiredAt O s'.c.kind w1.g x.info.time := by
          refine lag_later (fun hb => ?_) (fun hb => ?_)
          · rw [hts, hrd, reads_timed (hk ▸ hb)]
          · rw [hrd, reads_timed (hk ▸ hb)] at ht
            omega
        have h4 := entryU_run O (s := viewOf w1 i s'.c) hfirm' hx
        have h5 := entryU_run (O.lag w.g.ticks (w1.g.ticks - (w.g.ticks + 1))) (s := s') hfirm' hx
        rw [he] at h5
        have h4' : Impl.onCache i (Impl.entryU O (some x.addr)) w1 =
            if expiredAt O s'.c.kind w1.g x.info.time then .throw .keyExpired ⟨w1.caches, tickG s'.c.kind (viewOf w1 i s'.c).g⟩
            else .ok x ⟨w1.caches, tickG s'.c.kind (viewOf w1 i s'.c).g⟩ := by
          rw [onCache_of h1, h4]
          rw [show expiredAt O (viewOf w1 i s'.c).c.kind (viewOf w1 i s'.c).g x.info.time =
            expiredAt O s'.c.kind w1.g x.info.time from rfl]
          cases expiredAt O s'.c.kind w1.g x.info.time with
          | true =>
            simp only [if_true]
            congr 2
            exact set_same h1
          | false =>
            simp only [Bool.false_eq_true, if_false]
            congr 2
            exact set_same h1
        cases hx : expiredAt O s'.c.kind w1.g x.info.time with
        | true =>
          rw [hx] at h4' h5
          simp only [if_true] at h4' h5
          simp only
          rw [bind_throw h4']
          exact .inr ⟨_, _, (plain _).trans ((bind_ok h3).trans (bind_throw h5)), h1⟩
        | false =>
          rw [hx] at h4' h5
          simp only [Bool.false_eq_true, if_false] at h4' h5
          simp only
          rw [bind_ok h4']
          exact ⟨_, _, (plain _).trans ((bind_ok h3).trans (bind_ok h5)), h1⟩
    | throw e w' => exact .inl (findL_threw hO hL hw1 hc hi h)
    | _ => trivial

end LRU
