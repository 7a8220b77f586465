import Verif.Proofs.Wrap
import Verif.Proofs.Stack
/-!
# Invariants of programs with wrapped functions
-/

set_option linter.unusedSectionVars false
set_option autoImplicit false

namespace LRU

variable {K V : Type} [KeyEqual K] [DecidableEq K] [DecidableEq V] {O : Oracle K V}

theorem bodyOk_any (n : Nat) : ∀ b : Body K V, BodyOk (fun _ _ _ => True) False n (fun _ => True) b := by
  intro b
  induction b with
  | ret v => trivial
  | throw e => trivial
  | call f k next ih => exact ⟨False.elim, fun v _ => ih _, fun e => ih _⟩

theorem bodyOk_computes {F : Nat → K → V} (n : Nat) {v : V} : ∀ b : Body K V, Computes F v b →
    BodyOk (fun f k u => u = F f k) False n (fun u => u = v) b := by
  intro b
  induction b with
  | ret u => exact id
  | throw e => exact fun _ => trivial
  | call f k next ih =>
    rintro ⟨h1, h2⟩
    exact ⟨False.elim, fun u hu => by subst hu; exact ih _ h1, fun e => ih _ (h2 e)⟩

theorem bodyOk_below {n : Nat} : ∀ b : Body K V, CallsBelow n b →
    BodyOk (fun _ _ _ => True) True n (fun _ => True) b := by
  intro b
  induction b with
  | ret u => exact fun _ => trivial
  | throw e => exact fun _ => trivial
  | call f k next ih => exact fun ⟨h1, h2⟩ => ⟨fun _ => h1, fun u _ => ih _ (h2 _), fun e => ih _ (h2 _)⟩

theorem closed_inv (O : Oracle K V) : Closed O (MInv O) (fun _ _ _ => True) False 0 where
  inv := fun _ h => h
  count := fun _ _ => Nat.zero_le _
  safe := fun h => h.elim
  static := fun _ _ _ _ _ _ _ _ _ h => h.inv
  hit := fun _ _ _ _ _ _ _ _ _ _ _ _ h _ _ _ _ => ⟨h.inv, trivial⟩
  miss := fun _ _ _ _ _ _ _ _ _ _ _ h _ _ _ _ => h.inv
  body := fun _ _ _ _ _ _ _ => bodyOk_any 0 _
  store := fun _ _ _ _ _ _ _ _ _ _ _ _ h _ _ _ _ => h.inv
  fail := fun _ _ _ _ _ _ _ _ _ _ _ _ _ h _ _ _ _ => h.inv

/-- `I` holds if the call returned or threw. -/
def KeepsMemo (I : Memo K V → Prop) : Out (Memo K V) V → Prop
  | .ok _ σ' => I σ'
  | .throw _ σ' => I σ'
  | .ub => True
  | .terminate => True
  | .diverge => True

/-- To show something of all states of programs. -/
theorem MReach.rule (I : Memo K V → Prop) (init : I Impl.initMemo)
    (mem : ∀ σ m, I σ → I { σ with mem := m })
    (wrap : ∀ σ x, I σ → I { σ with wrappers := σ.wrappers ++ [x] })
    (call : ∀ d f k σ, I σ → KeepsMemo I (Impl.callWrapper O d f k σ)) {σ : Memo K V} (h : MReach O σ) : I σ := by
  induction h with
  | init => exact init
  | newObject v _ he ih => cases he; exact mem _ _ ih
  | setObject a v _ he ih => cases he; exact mem _ _ ih
  | endObject a _ he ih => cases he; exact mem _ _ ih
  | wrap type fn args _ he ih => cases he; exact wrap _ _ ih
  | call d f k _ he ih => have := call d f k _ ih; rw [he] at this; exact this
  | callThrow d f k _ he ih => have := call d f k _ ih; rw [he] at this; exact this

theorem Fine.inv {I G : Memo K V → Prop} {Q : V → Prop} {S : Prop} {o : Out (Memo K V) V} (h : Fine I G Q S o) :
    KeepsMemo I o := by
  cases o with
  | ok v σ' => exact h.1
  | throw e σ' => exact h.1
  | ub => trivial
  | terminate => trivial
  | diverge => trivial

theorem MInv.init (O : Oracle K V) : MInv O Impl.initMemo := by
  refine ⟨?_, (fun τ i h => nomatch h), (fun τ τ' i h => nomatch h)⟩
  have h1 : Reach O (fun op => op.copies = false) (Impl.initWorld : World K V) := .init
  exact h1.prog

theorem MReach.inv (hO : NoListFault O) {σ : Memo K V} (h : MReach O σ) : MInv O σ :=
  h.rule (MInv O) (MInv.init O) (fun _ _ h => ⟨h.own, h.cache, h.inj⟩) (fun _ _ h => ⟨h.own, h.cache, h.inj⟩)
    (fun d f k σ hσ => (call_fine hO (closed_inv O) d f k σ hσ False.elim).inv)

/-! ### Transparency -/

/-- Stored values are those of the functions. -/
def Faithful (F : Nat → K → V) (σ : Memo K V) : Prop :=
  ∀ (f : Nat) (x : Wrapper K V) (c : Cache K V), σ.wrappers[f]? = some x → σ.cacheOf x.type = some c → ∀ y ∈ (asLru c).items, y.2 = F f y.1

/-- Static variables belong to the call operators of closures there are. -/
def Origin (σ : Memo K V) : Prop :=
  ∀ τ i, σ.statics τ = some i → ∃ (f : Nat) (x : Wrapper K V), σ.wrappers[f]? = some x ∧ x.type = τ

theorem mem_use {l : Lru K V} {k : K} {y : K × V} (h : y ∈ (l.act (.use k)).items) : y ∈ l.items := by
  cases hi : l.item k with
  | none => rw [Lru.use_new hi] at h; exact h
  | some x =>
    rw [Lru.use_old hi] at h
    rcases List.mem_append.1 h with h | h
    · exact (List.mem_filter.1 h).1
    · simp only [List.mem_cons, List.not_mem_nil, or_false] at h
      subst h
      exact (Lru.item_mem hi).1

theorem mem_put {l : Lru K V} {k : K} {v : V} {y : K × V} (h : y ∈ (l.act (.put k v)).items) :
    y ∈ l.items ∨ (keq y.1 k = true ∧ y.2 = v) := by
  cases hc : l.capacity with
  | none => simp only [Lru.act, hc] at h; exact .inl h
  | some n => cases n with
    | zero => rw [Lru.put_zero hc] at h; exact .inl h
    | succ n =>
      cases hi : l.item k with
      | none =>
        rw [Lru.put_new hc hi] at h
        rcases List.mem_append.1 h with h | h
        · refine .inl ?_
          split at h
          · exact h
          · exact List.mem_of_mem_tail h
        · simp only [List.mem_cons, List.not_mem_nil, or_false] at h
          subst h
          exact .inr ⟨KeyEqual.refl k, rfl⟩
      | some x =>
        rw [Lru.put_old hc hi] at h
        rcases List.mem_append.1 h with h | h
        · exact .inl (List.mem_filter.1 h).1
        · simp only [List.mem_cons, List.not_mem_nil, or_false] at h
          subst h
          exact .inr ⟨(Lru.item_mem hi).2, rfl⟩

theorem Upd.faithful {F : Nat → K → V} {σ σ' : Memo K V} {τ : Nat} {c : Cache K V} (h : Upd O σ σ' τ c)
    (hf : Faithful F σ) (hc : ∀ f x, σ.wrappers[f]? = some x → x.type = τ → ∀ y ∈ (asLru c).items, y.2 = F f y.1) :
    Faithful F σ' := by
  intro f x d hx hd y hy
  rw [h.wrappers] at hx
  by_cases he : x.type = τ
  · rw [he, h.self] at hd
    injection hd with hd
    subst hd
    exact hc f x hx he y hy
  · rw [h.rest _ he] at hd
    exact hf f x d hx hd y hy

theorem New.faithful {F : Nat → K → V} {σ σ' : Memo K V} {τ i : Nat} {c : Cache K V} (h : New O σ σ' τ i c)
    (hf : Faithful F σ) : Faithful F σ' := by
  intro f x d hx hd y hy
  rw [h.wrappers] at hx
  by_cases he : x.type = τ
  · rw [he, h.self] at hd
    injection hd with hd
    subst hd
    obtain ⟨kind, n, rfl⟩ := h.empty
    exact nomatch hy
  · rw [h.rest _ he] at hd
    exact hf f x d hx hd y hy

theorem closed_faithful (hT : KeepsEqual O) {F : Nat → K → V} {W : List (Wrapper K V)} (hF : Deterministic F W) :
    Closed O (fun σ => MInv O σ ∧ σ.wrappers = W ∧ Faithful F σ) (fun f k v => v = F f k) False 0 where
  inv := fun _ h => h.1
  count := fun _ _ => Nat.zero_le _
  safe := fun h => h.elim
  static := fun _ _ _ _ _ _ ⟨_, h2, h3⟩ _ _ h => ⟨h.inv, h.wrappers.trans h2, h.faithful h3⟩
  hit := by
    intro σ σ' f x k c c' y ⟨h1, h2, h3⟩ hx hc hy hu hf ha _ _
    have hx' := hx
    rw [h2] at hx'
    refine ⟨⟨hu.inv, hu.wrappers.trans h2, hu.faithful h3 ?_⟩, ?_⟩
    · intro g z hg ht y' hy'
      rw [ha] at hy'
      exact h3 g z c hg (ht ▸ hc) y' (mem_use hy')
    · obtain ⟨h4, h5⟩ := Lru.item_mem hy
      rw [h3 f x c hx hc y h4]
      exact hF.respects f x hx' _ _ h5
  miss := by
    intro σ σ' f x k c c' ⟨h1, h2, h3⟩ hx hc _ hu hf ha _ _
    refine ⟨hu.inv, hu.wrappers.trans h2, hu.faithful h3 ?_⟩
    intro g z hg ht y' hy'
    rw [ha] at hy'
    exact h3 g z c hg (ht ▸ hc) y' hy'
  body := fun σ f x k h ⟨_, h2, _⟩ hx => bodyOk_computes 0 _ (hF.computes f x (h2 ▸ hx) h k)
  store := by
    intro σ σ' f x k v c c' ⟨h1, h2, h3⟩ hx hc hv hu hf ha _ _
    refine ⟨hu.inv, hu.wrappers.trans h2, hu.faithful h3 ?_⟩
    intro g z hg ht y' hy'
    rw [ha] at hy'
    rcases mem_put hy' with h | ⟨h4, h5⟩
    · exact h3 g z c hg (ht ▸ hc) y' h
    · rw [h2] at hx hg
      rw [h5, hv, hF.agree f g x z hx hg ht.symm]
      exact hF.respects g z hg _ _ (by rw [KeyEqual.symm]; exact h4)
  fail := by
    intro _ σ σ' f x k v c c' ⟨h1, h2, h3⟩ hx hc hv hu hf ha _ _
    refine ⟨hu.inv, hu.wrappers.trans h2, hu.faithful h3 ?_⟩
    intro g z hg ht y' hy'
    rcases ha with ha | ⟨m, y, hm, hi, ha⟩
    · rw [ha] at hy'
      exact h3 g z c hg (ht ▸ hc) y' hy'
    · obtain ⟨h6, h7⟩ := Lru.item_mem hi
      have h8 : y.2 = v := by
        rw [h3 f x c hx hc y h6, hv]
        exact hF.respects f x (h2 ▸ hx) _ _ h7
      rw [h8, hT m v hm] at ha
      rw [ha] at hy'
      rcases mem_put hy' with h | ⟨h4, h5⟩
      · exact h3 g z c hg (ht ▸ hc) y' h
      · rw [h2] at hx hg
        rw [h5, hv, hF.agree f g x z hx hg ht.symm]
        exact hF.respects g z hg _ _ (by rw [KeyEqual.symm]; exact h4)

theorem closed_origin (O : Oracle K V) : Closed O (fun σ => MInv O σ ∧ Origin σ) (fun _ _ _ => True) False 0 where
  inv := fun _ h => h.1
  count := fun _ _ => Nat.zero_le _
  safe := fun h => h.elim
  static := by
    intro σ σ' f x i c ⟨_, h2⟩ hx _ h
    refine ⟨h.inv, fun τ j hj => ?_⟩
    rw [h.wrappers]
    by_cases he : τ = x.type
    · exact ⟨f, x, hx, he.symm⟩
    · rw [h.statics τ he] at hj
      exact h2 τ j hj
  hit := fun _ _ _ _ _ _ _ _ ⟨_, h2⟩ _ _ _ h _ _ _ _ =>
    ⟨⟨h.inv, fun τ j hj => by rw [h.wrappers]; exact h2 τ j (h.statics ▸ hj)⟩, trivial⟩
  miss := fun _ _ _ _ _ _ _ ⟨_, h2⟩ _ _ _ h _ _ _ _ =>
    ⟨h.inv, fun τ j hj => by rw [h.wrappers]; exact h2 τ j (h.statics ▸ hj)⟩
  body := fun _ _ _ _ _ _ _ => bodyOk_any 0 _
  store := fun _ _ _ _ _ _ _ _ ⟨_, h2⟩ _ _ _ h _ _ _ _ =>
    ⟨h.inv, fun τ j hj => by rw [h.wrappers]; exact h2 τ j (h.statics ▸ hj)⟩
  fail := fun _ _ _ _ _ _ _ _ _ ⟨_, h2⟩ _ _ _ h _ _ _ _ =>
    ⟨h.inv, fun τ j hj => by rw [h.wrappers]; exact h2 τ j (h.statics ▸ hj)⟩

theorem MReach.origin (hO : NoListFault O) {σ : Memo K V} (h : MReach O σ) : Origin σ := by
  refine (h.rule (fun σ => MInv O σ ∧ Origin σ) ⟨.init O, (fun τ i h => nomatch h)⟩ ?_ ?_ ?_).2
  · exact fun _ _ h => ⟨⟨h.1.own, h.1.cache, h.1.inj⟩, h.2⟩
  · intro σ y h
    refine ⟨⟨h.1.own, h.1.cache, h.1.inj⟩, fun τ i hi => ?_⟩
    obtain ⟨f, x, hx, ht⟩ := h.2 τ i hi
    exact ⟨f, x, by rw [List.getElem?_append_left (List.getElem?_eq_some_iff.1 hx).1]; exact hx, ht⟩
  · exact fun d f k σ hσ => (call_fine hO (closed_origin O) d f k σ hσ False.elim).inv

theorem Deterministic.prefix {F : Nat → K → V} {fs gs : List (Wrapper K V)} (h : Deterministic F (fs ++ gs)) :
    Deterministic F fs := by
  have hm : ∀ (f : Nat) (x : Wrapper K V), fs[f]? = some x → (fs ++ gs)[f]? = some x := fun f x hx => by
    rw [List.getElem?_append_left (List.getElem?_eq_some_iff.1 hx).1]
    exact hx
  exact ⟨fun f x hx => h.computes f x (hm f x hx), fun f x hx => h.respects f x (hm f x hx),
    fun f g x y hx hy => h.agree f g x y (hm f x hx) (hm g y hy)⟩

theorem MReach.faithful (hO : NoListFault O) (hT : KeepsEqual O) {F : Nat → K → V} {σ : Memo K V} (h : MReach O σ)
    (hF : Deterministic F σ.wrappers) : Faithful F σ := by
  have h1 := h.rule (fun σ => (MInv O σ ∧ Origin σ) ∧ (Deterministic F σ.wrappers → Faithful F σ))
    ⟨⟨.init O, (fun τ i h => nomatch h)⟩, fun _ f x c hx => nomatch hx⟩ ?_ ?_ ?_
  · exact h1.2 hF
  · exact fun _ _ h => ⟨⟨⟨h.1.1.own, h.1.1.cache, h.1.1.inj⟩, h.1.2⟩, h.2⟩
  · intro σ y h
    have hm : ∀ (f : Nat) (x : Wrapper K V), σ.wrappers[f]? = some x → (σ.wrappers ++ [y])[f]? = some x := fun f x hx => by
      rw [List.getElem?_append_left (List.getElem?_eq_some_iff.1 hx).1]
      exact hx
    refine ⟨⟨⟨h.1.1.own, h.1.1.cache, h.1.1.inj⟩, fun τ i hi => ?_⟩, fun hD => ?_⟩
    · obtain ⟨f, x, hx, ht⟩ := h.1.2 τ i hi
      exact ⟨f, x, hm f x hx, ht⟩
    · have hf := h.2 hD.prefix
      intro f x c hx hc z hz
      cases hs : σ.statics x.type with
      | none =>
        have : Memo.cacheOf { σ with wrappers := σ.wrappers ++ [y] } x.type = none := by
          unfold Memo.cacheOf
          simp only [hs]
        rw [this] at hc
        cases hc
      | some i =>
        obtain ⟨g, x', hg, ht⟩ := h.1.2 _ i hs
        rw [hf g x' c hg (ht ▸ hc) z hz]
        exact hD.agree g f x' x (hm g x' hg) hx ht z.1
  · intro d f k σ hσ
    have h2 := call_fine hO (closed_origin O) d f k σ hσ.1 False.elim
    by_cases hD : Deterministic F σ.wrappers
    · have h3 := call_fine hO (closed_faithful hT hD) d f k σ ⟨hσ.1.1, rfl, hσ.2 hD⟩ False.elim
      cases ho : Impl.callWrapper O d f k σ with
      | ok v σ' => rw [ho] at h2 h3; exact ⟨h2.1, fun _ => h3.1.2.2⟩
      | throw e σ' => rw [ho] at h2 h3; exact ⟨h2.1, fun _ => h3.1.2.2⟩
      | ub => trivial
      | terminate => trivial
      | diverge => trivial
    · cases ho : Impl.callWrapper O d f k σ with
      | ok v σ' => rw [ho] at h2; exact ⟨h2.1, fun hD' => absurd (h2.2.1.wrappers ▸ hD') hD⟩
      | throw e σ' => rw [ho] at h2; exact ⟨h2.1, fun hD' => absurd (h2.2.wrappers ▸ hD') hD⟩
      | ub => trivial
      | terminate => trivial
      | diverge => trivial

/-! ### Memoisation -/

/-- Every static cache holds the most recent arguments of the calls that returned. -/
structure Stacked (O : Oracle K V) (σ : Memo K V) : Prop where
  inv : MInv O σ
  fresh : ∀ τ, σ.statics τ = none → σ.argsOf τ = []
  top : ∀ τ c, σ.cacheOf τ = some c → ∃ n, (asLru c).Top n (σ.argsOf τ)

theorem args_same {σ : Memo K V} {τ : Nat} {d : List (Nat × K)} {k : K} (h : σ.done = (τ, k) :: d) :
    σ.argsOf τ = k :: ((d.filter (fun d => d.1 == τ)).map (·.2)) := by
  unfold Memo.argsOf
  rw [h]
  simp

theorem args_other {σ : Memo K V} {τ τ' : Nat} {d : List (Nat × K)} {k : K} (h : σ.done = (τ, k) :: d) (hn : τ' ≠ τ) :
    σ.argsOf τ' = (d.filter (fun d => d.1 == τ')).map (·.2) := by
  unfold Memo.argsOf
  rw [h, List.filter_cons_of_neg]
  simp only [beq_iff_eq]
  exact fun h => hn h.symm

theorem Upd.stacked {σ σ' : Memo K V} {τ : Nat} {k : K} {c c' : Cache K V} (h : Upd O σ σ' τ c')
    (hs : Stacked O σ) (hc : σ.cacheOf τ = some c) (hd : σ'.done = (τ, k) :: σ.done)
    (hp : ∀ n, (asLru c).Top n (σ.argsOf τ) → (asLru c').Top n (k :: σ.argsOf τ)) : Stacked O σ' := by
  refine ⟨h.inv, fun τ' hτ => ?_, fun τ' d hd' => ?_⟩
  · rw [h.statics] at hτ
    have hne : τ' ≠ τ := by
      rintro rfl
      unfold Memo.cacheOf at hc
      rw [hτ] at hc
      cases hc
    rw [args_other hd hne]
    exact hs.fresh τ' hτ
  · by_cases hne : τ' = τ
    · subst hne
      rw [h.self] at hd'
      injection hd' with hd'
      subst hd'
      obtain ⟨n, hn⟩ := hs.top τ' c hc
      exact ⟨n, by rw [args_same hd]; exact hp n hn⟩
    · rw [h.rest τ' hne] at hd'
      rw [args_other hd hne]
      exact hs.top τ' d hd'

theorem closed_stack (hC : Calm O) : Closed O (Stacked O) (fun _ _ _ => True) False 0 where
  inv := fun _ h => h.inv
  count := fun _ _ => Nat.zero_le _
  safe := fun h => h.elim
  static := by
    intro σ σ' f x i c hs hx hn h
    have ha : ∀ τ, σ'.argsOf τ = σ.argsOf τ := fun τ => by unfold Memo.argsOf; rw [h.done]
    refine ⟨h.inv, fun τ hτ => ?_, fun τ d hd => ?_⟩
    · rw [ha]
      refine hs.fresh τ ?_
      by_cases he : τ = x.type
      · rw [he, h.here] at hτ; cases hτ
      · rw [h.statics τ he] at hτ; exact hτ
    · rw [ha]
      by_cases he : τ = x.type
      · subst he
        rw [h.self] at hd
        injection hd with hd
        subst hd
        obtain ⟨kind, n, rfl⟩ := h.empty
        rw [hs.fresh _ hn]
        exact ⟨n, rfl, by simp only [recent, List.take_nil]; exact .refl _⟩
      · rw [h.rest τ he] at hd
        exact hs.top τ d hd
  hit := by
    intro σ σ' f x k c c' y hs hx hc hy hu hf ha _ hd
    exact ⟨hu.stacked hs hc hd (fun n hn => by rw [ha]; exact hn.use hy), trivial⟩
  miss := by
    intro σ σ' f x k c c' hs hx hc _ hu hf ha _ hd
    have ha' : ∀ τ, σ'.argsOf τ = σ.argsOf τ := fun τ => by unfold Memo.argsOf; rw [hd]
    refine ⟨hu.inv, fun τ hτ => by rw [ha']; exact hs.fresh τ (hu.statics ▸ hτ), fun τ d hd' => ?_⟩
    rw [ha']
    by_cases he : τ = x.type
    · subst he
      rw [hu.self] at hd'
      injection hd' with hd'
      subst hd'
      rw [ha]
      exact hs.top _ c hc
    · rw [hu.rest τ he] at hd'
      exact hs.top τ d hd'
  body := fun _ _ _ _ _ _ _ => bodyOk_any 0 _
  store := by
    intro σ σ' f x k v c c' hs hx hc _ hu hf ha _ hd
    exact hu.stacked hs hc hd (fun n hn => by rw [ha]; exact hn.put k v)
  fail := fun h => absurd hC h

theorem MReach.stacked (hC : Calm O) {σ : Memo K V} (h : MReach O σ) : Stacked O σ := by
  refine h.rule (Stacked O) ⟨.init O, fun _ _ => rfl, fun τ c hc => nomatch hc⟩ ?_ ?_ ?_
  · exact fun _ _ h => ⟨⟨h.inv.own, h.inv.cache, h.inv.inj⟩, h.fresh, h.top⟩
  · exact fun _ _ h => ⟨⟨h.inv.own, h.inv.cache, h.inv.inj⟩, h.fresh, h.top⟩
  · exact fun d f k σ hσ => (call_fine hC.noListFault (closed_stack hC) d f k σ hσ False.elim).inv

/-- Evaluations are only added. -/
theorem closed_evals (O : Oracle K V) (e : List (Nat × K)) :
    Closed O (fun σ => MInv O σ ∧ e <:+ σ.evals) (fun _ _ _ => True) False 0 where
  inv := fun _ h => h.1
  count := fun _ _ => Nat.zero_le _
  safe := fun h => h.elim
  static := fun _ _ _ _ _ _ h1 _ _ h => ⟨h.inv, by rw [h.evals]; exact h1.2⟩
  hit := fun _ _ _ _ _ _ _ _ h1 _ _ _ h _ _ he _ => ⟨⟨h.inv, by rw [he]; exact h1.2⟩, trivial⟩
  miss := fun _ _ _ _ _ _ _ h1 _ _ _ h _ _ he _ => ⟨h.inv, by rw [he]; exact h1.2.trans (List.suffix_cons _ _)⟩
  body := fun _ _ _ _ _ _ _ => bodyOk_any 0 _
  store := fun _ _ _ _ _ _ _ _ h1 _ _ _ h _ _ he _ => ⟨h.inv, by rw [he]; exact h1.2⟩
  fail := fun _ _ _ _ _ _ _ _ _ h1 _ _ _ h _ _ he _ => ⟨h.inv, by rw [he]; exact h1.2⟩

/-- Class and capacity of a static cache stay. -/
theorem closed_frame (O : Oracle K V) (τ : Nat) (kind : Kind) (n : Nat) :
    Closed O (fun σ => MInv O σ ∧ ∃ c, σ.cacheOf τ = some c ∧ c.kind = kind ∧ c.capacity = some n)
      (fun _ _ _ => True) False 0 := by
  have key : ∀ (σ σ' : Memo K V) (τ' : Nat) (c c' : Cache K V), Upd O σ σ' τ' c' → SameFrame c c' →
      σ.cacheOf τ' = some c → (∃ c, σ.cacheOf τ = some c ∧ c.kind = kind ∧ c.capacity = some n) →
      ∃ c, σ'.cacheOf τ = some c ∧ c.kind = kind ∧ c.capacity = some n := by
    intro σ σ' τ' c c' hu hf hc ⟨d, h1, h2, h3⟩
    by_cases he : τ = τ'
    · subst he
      rw [hc] at h1
      injection h1 with h1
      subst h1
      exact ⟨c', hu.self, hf.kind.trans h2, hf.capacity.trans h3⟩
    · exact ⟨d, (hu.rest τ he).trans h1, h2, h3⟩
  exact {
    inv := fun _ h => h.1
    count := fun _ _ => Nat.zero_le _
    safe := fun h => h.elim
    static := by
      intro σ σ' f x i c ⟨_, d, h1, h2⟩ hx hn h
      refine ⟨h.inv, d, ?_, h2⟩
      rw [h.rest τ ?_]
      · exact h1
      · rintro rfl
        unfold Memo.cacheOf at h1
        rw [hn] at h1
        cases h1
    hit := fun _ _ _ _ _ _ _ _ h1 _ hc _ h hf _ _ _ => ⟨⟨h.inv, key _ _ _ _ _ h hf hc h1.2⟩, trivial⟩
    miss := fun _ _ _ _ _ _ _ h1 _ hc _ h hf _ _ _ => ⟨h.inv, key _ _ _ _ _ h hf hc h1.2⟩
    body := fun _ _ _ _ _ _ _ => bodyOk_any 0 _
    store := fun _ _ _ _ _ _ _ _ h1 _ hc _ h hf _ _ _ => ⟨h.inv, key _ _ _ _ _ h hf hc h1.2⟩
    fail := fun _ _ _ _ _ _ _ _ _ h1 _ hc _ h hf _ _ _ => ⟨h.inv, key _ _ _ _ _ h hf hc h1.2⟩ }

/-- Wrappers whose references are valid, or that were called before, make no undefined calls. -/
theorem closed_armed {W : List (Wrapper K V)} (hW : ∀ (f : Nat) (x : Wrapper K V), W[f]? = some x → ∀ h k, CallsBelow W.length (x.fn h k)) :
    Closed O (fun σ => MInv O σ ∧ σ.wrappers = W ∧ σ.Armed) (fun _ _ _ => True) True W.length where
  inv := fun _ h => h.1
  count := fun _ h => by rw [h.2.1]; exact Nat.le_refl _
  safe := fun _ σ f x h hx => h.2.2 f x hx
  static := by
    intro σ σ' f x i c ⟨_, h2, h3⟩ hx hn h
    refine ⟨h.inv, h.wrappers.trans h2, fun g y hy => ?_⟩
    rw [h.wrappers] at hy
    by_cases he : y.type = x.type
    · rw [he, h.here]; exact .inl (by simp)
    · rw [h.statics _ he, h.mem]; exact h3 g y hy
  hit := fun σ σ' _ _ _ _ _ _ ⟨_, h2, h3⟩ _ _ _ h _ _ _ _ => ⟨⟨h.inv, h.wrappers.trans h2, fun g y hy => by
    rw [h.statics, h.mem]; exact h3 g y (h.wrappers ▸ hy)⟩, trivial⟩
  miss := fun _ _ _ _ _ _ _ ⟨_, h2, h3⟩ _ _ _ h _ _ _ _ => ⟨h.inv, h.wrappers.trans h2, fun g y hy => by
    rw [h.statics, h.mem]; exact h3 g y (h.wrappers ▸ hy)⟩
  body := fun σ f x k h ⟨_, h2, _⟩ hx => bodyOk_below _ (hW f x (h2 ▸ hx) h k)
  store := fun _ _ _ _ _ _ _ _ ⟨_, h2, h3⟩ _ _ _ h _ _ _ _ => ⟨h.inv, h.wrappers.trans h2, fun g y hy => by
    rw [h.statics, h.mem]; exact h3 g y (h.wrappers ▸ hy)⟩
  fail := fun _ _ _ _ _ _ _ _ _ ⟨_, h2, h3⟩ _ _ _ h _ _ _ _ => ⟨h.inv, h.wrappers.trans h2, fun g y hy => by
    rw [h.statics, h.mem]; exact h3 g y (h.wrappers ▸ hy)⟩

/-! ### Termination -/

theorem Later.armed {σ σ' : Memo K V} (h : Later σ σ') (ha : σ.Armed) : σ'.Armed := by
  intro f x hx
  rw [h.wrappers] at hx
  rcases ha f x hx with h1 | h1
  · cases hs : σ.statics x.type with
    | none => exact absurd hs h1
    | some i => rw [h.statics _ i hs]; exact .inl (by simp)
  · rw [h.mem]; exact .inr h1

theorem evalBody_total {W : List (Wrapper K V)} {μ : Nat → K → Nat} {m : Nat} {call : Nat → K → M (Memo K V) V}
    (hcall : ∀ f k σ, MInv O σ → σ.Armed → σ.wrappers = W → f < W.length → μ f k < m →
      ∃ v σ', call f k σ = .ok v σ' ∧ MInv O σ' ∧ Later σ σ') :
    ∀ (b : Body K V) (σ : Memo K V), MInv O σ → σ.Armed → σ.wrappers = W → Settles W.length μ m b →
      ∃ v σ', Impl.evalBody call b σ = .ok v σ' ∧ MInv O σ' ∧ Later σ σ' := by
  intro b
  induction b with
  | ret v => exact fun σ h _ _ _ => ⟨v, σ, rfl, h, .rfl' σ⟩
  | throw e => exact fun σ _ _ _ h => h.elim
  | call f k next ih =>
    rintro σ h ha hn ⟨h1, h2, h3⟩
    obtain ⟨v, σ', h4, h5, h6⟩ := hcall f k σ h ha hn h1 h2
    obtain ⟨u, σ'', h7, h8, h9⟩ := ih (.ok v) σ' h5 (h6.armed ha) (by rw [h6.wrappers]; exact hn) (h3 v)
    refine ⟨u, σ'', ?_, h8, h6.trans h9⟩
    unfold Impl.evalBody
    rw [h4]
    exact h7

theorem call_total (hC : Calm O) {W : List (Wrapper K V)} {μ : Nat → K → Nat}
    (hW : ∀ (f : Nat) (x : Wrapper K V), W[f]? = some x → ∀ h k, Settles W.length μ (μ f k) (x.fn h k)) :
    ∀ (d f : Nat) (k : K) (σ : Memo K V), MInv O σ → σ.Armed → σ.wrappers = W → f < W.length → μ f k < d →
      ∃ v σ', Impl.callWrapper O d f k σ = .ok v σ' ∧ MInv O σ' ∧ Later σ σ' := by
  intro d
  induction d with
  | zero => exact fun f k σ _ _ _ _ h => absurd h (Nat.not_lt_zero _)
  | succ d ih =>
    intro f k σ h ha hw hf hd
    have hO := hC.noListFault
    have main : ∀ (x : Wrapper K V) (σ : Memo K V) (i : Nat), MInv O σ → σ.Armed → σ.wrappers = W →
        σ.wrappers[f]? = some x → σ.statics x.type = some i →
        ∃ v σ', Impl.rest O d f k x i σ = .ok v σ' ∧ MInv O σ' ∧ Later σ σ' := by
      intro x σ i h ha hw hx hi
      obtain ⟨c, hc, _⟩ := h.cacheOf hi
      rcases rest_cases hO h (d := d) (f := f) (k := k) hi hc with
        ⟨σ', c', y, h1, h2, h3, h4, h5, h6, h7⟩ | ⟨σ1, c1, h1, h2, h3, h4, h5, h6, h7⟩
      · exact ⟨y.2, σ', h2, h3.inv, h3.later⟩
      · rw [h7]
        obtain ⟨v, σ2, h8, h9, h10⟩ := evalBody_total (O := O) (W := W) (μ := μ) (m := μ f k)
          (call := Impl.callWrapper O d) (fun f' k' σ' hI hA hN hf' hm => ih f' k' σ' hI hA hN hf' (by omega))
          (x.fn σ.evals k) σ1 h2.inv (h2.later.armed ha) (h2.wrappers.trans hw) (hW f x (hw ▸ hx) _ k)
        rw [bind_ok h8]
        have hl := h2.later.trans h10
        obtain ⟨c2, hc2, _⟩ := h9.cacheOf (hl.statics _ _ hi)
        obtain ⟨w', c', h11, h12, h13⟩ := emplace_memo hO h9 (hl.statics _ _ hi) hc2 k v
        rcases h13 with ⟨r, h13, h14⟩ | ⟨h13, _⟩
        · rw [bind_ok h13]
          have h15 := h11.logs σ2.evals ((x.type, k) :: σ2.done)
          exact ⟨v, _, rfl, h15.inv, hl.trans h15.later⟩
        · exact absurd hC h13
    obtain ⟨x, hx⟩ : ∃ x, σ.wrappers[f]? = some x := ⟨W[f], by rw [hw]; exact List.getElem?_eq_getElem hf⟩
    rw [callWrapper_succ hx]
    rcases static_cases h x with ⟨i, h1, h2⟩ | ⟨h1, i, σ1, kind, m, h2, h3, h4⟩ | ⟨h1, h2, h3⟩
    · rw [bind_ok h2]
      exact main x σ i h ha hw hx h1
    · rw [bind_ok h3]
      obtain ⟨v, σ', h5, h6, h7⟩ := main x σ1 i h4.inv ((h4.later h1).armed ha) (h4.wrappers.trans hw)
        (by rw [h4.wrappers]; exact hx) h4.here
      exact ⟨v, σ', h5, h6, (h4.later h1).trans h7⟩
    · rcases ha f x hx with h5 | h5
      · exact absurd h1 h5
      · obtain ⟨p, hp⟩ := alive_asks h5
        rw [h2] at hp
        cases hp

/-! ### Hits and misses -/

/-- After a miss the evaluations that follow do not take back the one of the function. -/
theorem miss_evals (hO : NoListFault O) {σ σ1 : Memo K V} {d f : Nat} {k : K} {x : Wrapper K V} {i : Nat}
    (hi : σ.statics x.type = some i) {c1 : Cache K V} (h2 : Upd O σ σ1 x.type c1) (h5 : σ1.evals = (f, k) :: σ.evals) :
    KeepsMemo (fun σ' => (f, k) :: σ.evals <:+ σ'.evals)
      ((Impl.evalBody (Impl.callWrapper O d) (x.fn σ.evals k) >>= fun value =>
        Impl.lift (Impl.onCache i (Impl.emplace O k value)) >>= fun _ =>
        Impl.noteDone x.type k >>= fun _ => pure value) σ1) := by
  have hE := closed_evals O ((f, k) :: σ.evals)
  have hb := evalBody_fine hE.count (fun f' k' σ' hσ hf => call_fine hO hE d f' k' σ' hσ hf) (x.fn σ.evals k) σ1
    ⟨h2.inv, by rw [h5]; exact List.suffix_refl _⟩ (bodyOk_any 0 _)
  cases ho : Impl.evalBody (Impl.callWrapper O d) (x.fn σ.evals k) σ1 with
  | ok v σ2 =>
    rw [ho] at hb
    obtain ⟨⟨h8, h9⟩, hl, -⟩ := hb
    rw [bind_ok ho]
    have hi2 := (h2.later.trans hl).statics _ _ hi
    obtain ⟨c2, hc2, _⟩ := h8.cacheOf hi2
    obtain ⟨w', c', _, _, h10⟩ := emplace_memo hO h8 hi2 hc2 k v
    rcases h10 with ⟨r, h10, _⟩ | ⟨_, e, h11, _⟩
    · rw [bind_ok h10]; exact h9
    · rw [bind_throw h11]; exact h9
  | throw e σ2 => rw [ho] at hb; rw [bind_throw ho]; exact hb.1.2
  | ub => rw [bind_ub ho]; trivial
  | terminate => rw [ho] at hb; exact hb.elim
  | diverge =>
    have : (Impl.evalBody (Impl.callWrapper O d) (x.fn σ.evals k) >>= fun value =>
      Impl.lift (Impl.onCache i (Impl.emplace O k value)) >>= fun _ =>
      Impl.noteDone x.type k >>= fun _ => pure value) σ1 = .diverge := by
      show M.bind _ _ _ = _
      unfold M.bind
      rw [ho]
    rw [this]
    trivial

/-- A hit evaluates nothing; a miss evaluates the function. -/
theorem rest_evals (hO : NoListFault O) {σ : Memo K V} (h : MInv O σ) {d f : Nat} {k : K} {x : Wrapper K V} {i : Nat}
    (hi : σ.statics x.type = some i) {c : Cache K V} (hc : σ.cacheOf x.type = some c) :
    (∃ y σ', (asLru c).item k = some y ∧ Impl.rest O d f k x i σ = .ok y.2 σ' ∧ σ'.evals = σ.evals) ∨
    ((c.kind = .basic → (asLru c).item k = none) ∧
      KeepsMemo (fun σ' => (f, k) :: σ.evals <:+ σ'.evals) (Impl.rest O d f k x i σ)) := by
  rcases rest_cases hO h (d := d) (f := f) (k := k) hi hc with
    ⟨σ', c', y, h1, h2, h3, h4, h5, h6, h7⟩ | ⟨σ1, c1, h1, h2, h3, h4, h5, h6, h7⟩
  · exact .inl ⟨y, σ', h1, h2, h6⟩
  · exact .inr ⟨h1, by rw [h7]; exact miss_evals hO hi h2 h5⟩

end LRU
