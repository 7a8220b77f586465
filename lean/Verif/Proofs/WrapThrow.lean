import Verif.Spec.WrapThrow
import Verif.Proofs.Memo
/-!
# Wrapped functions that throw
-/

set_option linter.unusedSectionVars false
set_option autoImplicit false

namespace LRU

variable {K V : Type} [KeyEqual K] [DecidableEq K] [DecidableEq V] {O : Oracle K V} {F : Nat → K → Except Err V}

/-- Stored values are values of the functions. -/
def Faith (F : Nat → K → Except Err V) (σ : Memo K V) : Prop :=
  ∀ (f : Nat) (x : Wrapper K V) (c : Cache K V), σ.wrappers[f]? = some x → σ.cacheOf x.type = some c →
    ∀ y ∈ (asLru c).items, F f y.1 = .ok y.2

theorem Upd.faith {σ σ' : Memo K V} {τ : Nat} {c : Cache K V} (h : Upd O σ σ' τ c)
    (hf : Faith F σ) (hc : ∀ f x, σ.wrappers[f]? = some x → x.type = τ → ∀ y ∈ (asLru c).items, F f y.1 = .ok y.2) :
    Faith F σ' := by
  intro f x d hx hd y hy
  rw [h.wrappers] at hx
  by_cases he : x.type = τ
  · rw [he, h.self] at hd
    injection hd with hd
    subst hd
    exact hc f x hx he y hy
  · rw [h.rest _ he] at hd
    exact hf f x d hx hd y hy

theorem New.faith {σ σ' : Memo K V} {τ i : Nat} {c : Cache K V} (h : New O σ σ' τ i c)
    (hf : Faith F σ) : Faith F σ' := by
  intro f x d hx hd y hy
  rw [h.wrappers] at hx
  by_cases he : x.type = τ
  · rw [he, h.self] at hd
    injection hd with hd
    subst hd
    obtain ⟨kind, n, rfl⟩ := h.empty
    exact nomatch hy
  · rw [h.rest _ he] at hd
    exact hf f x d hx hd y hy

/-- What holds between calls. -/
structure MemoKept (O : Oracle K V) (F : Nat → K → Except Err V) (W : List (Wrapper K V)) (σ : Memo K V) : Prop where
  inv : MInv O σ
  wrappers : σ.wrappers = W
  faith : Faith F σ

/-- The outcome is what `r` says, and the state after it is one that follows `σ`. If `T`, there is an outcome. -/
def Obeys (O : Oracle K V) (F : Nat → K → Except Err V) (W : List (Wrapper K V)) (T : Prop) (r : Except Err V) (σ : Memo K V) :
    Out (Memo K V) V → Prop
  | .ok v σ' => r = .ok v ∧ MemoKept O F W σ' ∧ Later σ σ'
  | .throw e σ' => r = .error e ∧ MemoKept O F W σ' ∧ Later σ σ'
  | .ub => ¬ T
  | .terminate => False
  | .diverge => ¬ T

theorem Obeys.trans {W : List (Wrapper K V)} {T : Prop} {r : Except Err V} {σ σ' : Memo K V} {o : Out (Memo K V) V}
    (hl : Later σ σ') (h : Obeys O F W T r σ' o) : Obeys O F W T r σ o := by
  cases o with
  | ok v τ => exact ⟨h.1, h.2.1, hl.trans h.2.2⟩
  | throw e τ => exact ⟨h.1, h.2.1, hl.trans h.2.2⟩
  | ub => exact h
  | terminate => exact h
  | diverge => exact h

theorem evalBody_follows {W : List (Wrapper K V)} {T : Prop} {μ : Nat → K → Nat} {m : Nat} {call : Nat → K → M (Memo K V) V}
    (hcall : ∀ f k σ, MemoKept O F W σ → (T → σ.Armed ∧ f < W.length ∧ μ f k < m) → Obeys O F W T (F f k) σ (call f k σ)) :
    ∀ (b : Body K V) (σ : Memo K V), MemoKept O F W σ → (T → σ.Armed ∧ Descends W.length μ m b) →
      Obeys O F W T (b.answer F) σ (Impl.evalBody call b σ) := by
  intro b
  induction b with
  | ret v => exact fun σ h _ => ⟨rfl, h, .rfl' σ⟩
  | throw e => exact fun σ h _ => ⟨rfl, h, .rfl' σ⟩
  | call f k next ih =>
    intro σ h hT
    have h1 := hcall f k σ h (fun t => ⟨(hT t).1, (hT t).2.1, (hT t).2.2.1⟩)
    unfold Impl.evalBody Body.answer
    cases hr : call f k σ with
    | ok v σ' =>
      rw [hr] at h1
      obtain ⟨h2, h3, h4⟩ := h1
      rw [h2]
      exact (ih (.ok v) σ' h3 (fun t => ⟨h4.armed (hT t).1, (hT t).2.2.2 _⟩)).trans h4
    | throw e σ' =>
      rw [hr] at h1
      obtain ⟨h2, h3, h4⟩ := h1
      rw [h2]
      exact (ih (.error e) σ' h3 (fun t => ⟨h4.armed (hT t).1, (hT t).2.2.2 _⟩)).trans h4
    | ub => rw [hr] at h1; exact h1
    | terminate => rw [hr] at h1; exact h1
    | diverge => rw [hr] at h1; exact h1

theorem call_follows (hC : Calm O) {W : List (Wrapper K V)} (hF : Determined F W) {T : Prop} {μ : Nat → K → Nat}
    (hW : T → ∀ (f : Nat) (x : Wrapper K V), W[f]? = some x → ∀ h k, Descends W.length μ (μ f k) (x.fn h k)) :
    ∀ (d f : Nat) (k : K) (σ : Memo K V), MemoKept O F W σ → (T → σ.Armed ∧ f < W.length ∧ μ f k < d) →
      Obeys O F W T (F f k) σ (Impl.callWrapper O d f k σ) := by
  intro d
  induction d with
  | zero => exact fun f k σ _ h => fun t => absurd (h t).2.2 (Nat.not_lt_zero _)
  | succ d ih =>
    intro f k σ h hT
    have hO := hC.noListFault
    have main : ∀ (x : Wrapper K V) (σ : Memo K V) (i : Nat), MemoKept O F W σ → (T → σ.Armed ∧ f < W.length ∧ μ f k < d + 1) →
        W[f]? = some x → σ.statics x.type = some i → Obeys O F W T (F f k) σ (Impl.rest O d f k x i σ) := by
      intro x σ i h hT hx hi
      obtain ⟨c, hc, _⟩ := h.inv.cacheOf hi
      have hxσ : σ.wrappers[f]? = some x := by rw [h.wrappers]; exact hx
      rcases rest_cases hO h.inv (d := d) (f := f) (k := k) hi hc with
        ⟨σ', c', y, h1, h2, h3, h4, h5, h6, h7⟩ | ⟨σ1, c1, h1, h2, h3, h4, h5, h6, h7⟩
      · rw [h2]
        obtain ⟨h8, h9⟩ := Lru.item_mem h1
        refine ⟨?_, ⟨h3.inv, h3.wrappers.trans h.wrappers, h3.faith h.faith ?_⟩, h3.later⟩
        · rw [← hF.respects f x hx _ _ h9]
          exact h.faith f x c hxσ hc y h8
        · intro g z hg ht y' hy'
          rw [h5] at hy'
          exact h.faith g z c hg (ht ▸ hc) y' (mem_use hy')
      · rw [h7]
        have hk1 : MemoKept O F W σ1 := by
          refine ⟨h2.inv, h2.wrappers.trans h.wrappers, h2.faith h.faith ?_⟩
          intro g z hg ht y' hy'
          rw [h4] at hy'
          exact h.faith g z c hg (ht ▸ hc) y' hy'
        have h8 := evalBody_follows (O := O) (F := F) (W := W) (T := T) (μ := μ) (m := μ f k) (call := Impl.callWrapper O d)
          (fun f' k' σ' hk hT' => ih f' k' σ' hk (fun t => by
            have := hT' t
            have := hT t
            exact ⟨(hT' t).1, (hT' t).2.1, by omega⟩))
          (x.fn σ.evals k) σ1 hk1 (fun t => ⟨h2.later.armed (hT t).1, hW t f x hx _ k⟩)
        rw [hF.computes f x hx] at h8
        have h8 := h8.trans h2.later
        cases ho : Impl.evalBody (Impl.callWrapper O d) (x.fn σ.evals k) σ1 with
        | ok v σ2 =>
          rw [ho] at h8
          obtain ⟨h9, h10, hl⟩ := h8
          rw [bind_ok ho]
          have hi2 := hl.statics _ _ hi
          obtain ⟨c2, hc2, _⟩ := h10.inv.cacheOf hi2
          obtain ⟨w', c', h11, h12, h13⟩ := emplace_memo hO h10.inv hi2 hc2 k v
          rcases h13 with ⟨r, h13, h14⟩ | ⟨h13, _⟩
          · rw [bind_ok h13]
            have h15 := h11.logs σ2.evals ((x.type, k) :: σ2.done)
            refine ⟨h9, ⟨h15.inv, h15.wrappers.trans h10.wrappers, h15.faith h10.faith ?_⟩, hl.trans h15.later⟩
            intro g z hg ht y' hy'
            rw [h14] at hy'
            rw [h10.wrappers] at hg
            rcases mem_put hy' with h | ⟨h16, h17⟩
            · exact h10.faith g z c2 (by rw [h10.wrappers]; exact hg) (ht ▸ hc2) y' h
            · rw [h17, hF.respects g z hg _ _ h16, ← hF.agree f g x z hx hg ht.symm, h9]
          · exact absurd hC h13
        | throw e σ2 => rw [ho] at h8; rw [bind_throw ho]; exact h8
        | ub => rw [ho] at h8; rw [bind_ub ho]; exact h8
        | terminate => rw [ho] at h8; exact h8.elim
        | diverge =>
          rw [ho] at h8
          show Obeys O F W T (F f k) σ (M.bind _ _ σ1)
          unfold M.bind
          rw [ho]
          exact h8
    cases hx : W[f]? with
    | none =>
      have hg : Impl.getWrapper f σ = .ub := by
        unfold Impl.getWrapper
        rw [h.wrappers, hx]
      have : Impl.callWrapper O (d + 1) f k σ = .ub := by
        unfold Impl.callWrapper
        exact bind_ub hg
      rw [this]
      intro t
      rw [List.getElem?_eq_none_iff] at hx
      have := (hT t).2.1
      omega
    | some x =>
      have hxσ : σ.wrappers[f]? = some x := by rw [h.wrappers]; exact hx
      rw [callWrapper_succ hxσ]
      rcases static_cases h.inv x with ⟨i, h1, h2⟩ | ⟨h1, i, σ1, kind, m, h2, h3, h4⟩ | ⟨h1, h2, h3⟩
      · rw [bind_ok h2]
        exact main x σ i h hT hx h1
      · rw [bind_ok h3]
        exact (main x σ1 i ⟨h4.inv, h4.wrappers.trans h.wrappers, h4.faith h.faith⟩
          (fun t => ⟨(h4.later h1).armed (hT t).1, (hT t).2⟩) hx h4.here).trans (h4.later h1)
      · rw [bind_ub h3]
        intro t
        rcases (hT t).1 f x hxσ with h5 | h5
        · exact absurd h1 h5
        · obtain ⟨p, hp⟩ := alive_asks h5
          rw [h2] at hp
          cases hp

theorem Determined.prefix {fs gs : List (Wrapper K V)} (h : Determined F (fs ++ gs)) : Determined F fs := by
  have hm : ∀ (f : Nat) (x : Wrapper K V), fs[f]? = some x → (fs ++ gs)[f]? = some x := fun f x hx => by
    rw [List.getElem?_append_left (List.getElem?_eq_some_iff.1 hx).1]
    exact hx
  exact ⟨fun f x hx => h.computes f x (hm f x hx), fun f x hx => h.respects f x (hm f x hx),
    fun f g x y hx hy => h.agree f g x y (hm f x hx) (hm g y hy)⟩

theorem MReach.faith (hC : Calm O) {σ : Memo K V} (h : MReach O σ) (hF : Determined F σ.wrappers) : Faith F σ := by
  have hO := hC.noListFault
  have h1 := h.rule (fun σ => (MInv O σ ∧ Origin σ) ∧ (Determined F σ.wrappers → Faith F σ))
    ⟨⟨.init O, (fun τ i h => nomatch h)⟩, fun _ f x c hx => nomatch hx⟩ ?_ ?_ ?_
  · exact h1.2 hF
  · exact fun _ _ h => ⟨⟨⟨h.1.1.own, h.1.1.cache, h.1.1.inj⟩, h.1.2⟩, h.2⟩
  · intro σ y h
    have hm : ∀ (f : Nat) (x : Wrapper K V), σ.wrappers[f]? = some x → (σ.wrappers ++ [y])[f]? = some x := fun f x hx => by
      rw [List.getElem?_append_left (List.getElem?_eq_some_iff.1 hx).1]
      exact hx
    refine ⟨⟨⟨h.1.1.own, h.1.1.cache, h.1.1.inj⟩, fun τ i hi => ?_⟩, fun hD => ?_⟩
    · obtain ⟨f, x, hx, ht⟩ := h.1.2 τ i hi
      exact ⟨f, x, hm f x hx, ht⟩
    · have hf := h.2 hD.prefix
      intro f x c hx hc z hz
      cases hs : σ.statics x.type with
      | none =>
        have : Memo.cacheOf { σ with wrappers := σ.wrappers ++ [y] } x.type = none := by
          unfold Memo.cacheOf
          simp only [hs]
        rw [this] at hc
        cases hc
      | some i =>
        obtain ⟨g, x', hg, ht⟩ := h.1.2 _ i hs
        rw [← hD.agree g f x' x (hm g x' hg) hx ht z.1]
        exact hf g x' c hg (ht ▸ hc) z hz
  · intro d f k σ hσ
    have h2 := call_fine hO (closed_origin O) d f k σ hσ.1 False.elim
    by_cases hD : Determined F σ.wrappers
    · have h3 := call_follows hC hD (T := False) (μ := fun _ _ => 0) (fun h => h.elim) d f k σ ⟨hσ.1.1, rfl, hσ.2 hD⟩
        (fun h => h.elim)
      cases ho : Impl.callWrapper O d f k σ with
      | ok v σ' => rw [ho] at h2 h3; exact ⟨h2.1, fun _ => h3.2.1.faith⟩
      | throw e σ' => rw [ho] at h2 h3; exact ⟨h2.1, fun _ => h3.2.1.faith⟩
      | ub => trivial
      | terminate => trivial
      | diverge => trivial
    · cases ho : Impl.callWrapper O d f k σ with
      | ok v σ' => rw [ho] at h2; exact ⟨h2.1, fun hD' => absurd (h2.2.1.wrappers ▸ hD') hD⟩
      | throw e σ' => rw [ho] at h2; exact ⟨h2.1, fun hD' => absurd (h2.2.wrappers ▸ hD') hD⟩
      | ub => trivial
      | terminate => trivial
      | diverge => trivial

end LRU
