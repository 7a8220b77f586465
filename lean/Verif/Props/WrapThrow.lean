import Verif.Proofs.WrapThrow
import Verif.Props.Wrap
/-!
# Wrapped functions that throw, and durations: C49, C50, C52

Calls of wrapped functions whose functions may throw, and catch what the wrapped functions they call throw.
-/

set_option linter.unusedSectionVars false
set_option autoImplicit false

namespace LRU

variable {K V : Type} [KeyEqual K] [DecidableEq K] [DecidableEq V] {O : Oracle K V} {σ σ' : Memo K V}
  {F : Nat → K → Except Err V} {f d n : Nat} {k : K} {v : V} {e : Err} {x : Wrapper K V} {c : Cache K V}

/-! ### C49 -/

/-- C49. A wrapped function returns what the function returns and throws what the function throws, whatever was called
before, for functions that may throw and may catch exceptions of wrapped functions. -/
theorem C49_outcome (hC : Calm O) (h : MReach O σ) (hF : Determined F σ.wrappers) :
    (∀ v σ', Impl.callWrapper O d f k σ = .ok v σ' → F f k = .ok v) ∧
    (∀ e σ', Impl.callWrapper O d f k σ = .throw e σ' → F f k = .error e) := by
  have h1 := call_follows hC hF (T := False) (μ := fun _ _ => 0) (fun h => h.elim) d f k σ
    ⟨h.inv hC.noListFault, rfl, h.faith hC hF⟩ (fun h => h.elim)
  constructor
  · intro v σ' hr
    rw [hr] at h1
    exact h1.1
  · intro e σ' hr
    rw [hr] at h1
    exact h1.1

/-- C49. And it does return or throw, if nested calls have smaller arguments. -/
theorem C49_same_outcome (hC : Calm O) (h : MReach O σ) (ha : σ.Armed) (hF : Determined F σ.wrappers) {μ : Nat → K → Nat}
    (hW : ∀ (g : Nat) (y : Wrapper K V), σ.wrappers[g]? = some y → ∀ e k, Descends σ.wrappers.length μ (μ g k) (y.fn e k))
    (hf : f < σ.wrappers.length) (hd : μ f k < d) :
    (∀ v, F f k = .ok v → ∃ σ', Impl.callWrapper O d f k σ = .ok v σ') ∧
    (∀ e, F f k = .error e → ∃ σ', Impl.callWrapper O d f k σ = .throw e σ') := by
  have h1 := call_follows hC hF (T := True) (μ := μ) (fun _ => hW) d f k σ
    ⟨h.inv hC.noListFault, rfl, h.faith hC hF⟩ (fun _ => ⟨ha, hf, hd⟩)
  cases hr : Impl.callWrapper O d f k σ with
  | ok u σ' =>
    rw [hr] at h1
    rw [h1.1]
    exact ⟨fun v hv => ⟨σ', by cases hv; rfl⟩, fun e he => nomatch he⟩
  | throw u σ' =>
    rw [hr] at h1
    rw [h1.1]
    exact ⟨fun v hv => (nomatch hv), fun e he => ⟨σ', by cases he; rfl⟩⟩
  | ub => rw [hr] at h1; exact absurd trivial h1
  | terminate => rw [hr] at h1; exact h1.elim
  | diverge => rw [hr] at h1; exact absurd trivial h1

/-- The number of steps to 0 for even numbers, two at a time; odd numbers throw. Wrapper 1 is this function. Wrapper 0 asks
it and returns 100 if that throws. -/
def throwingBody (_ : List (Nat × Nat)) : Nat → Body Nat Nat
  | 0 => .ret 0
  | 1 => .throw .keyNotFound
  | n + 2 => .call 1 n fun r =>
    match r with
    | .error e => .throw e
    | .ok a => .ret (a + 1)

def catchingBody (_ : List (Nat × Nat)) (k : Nat) : Body Nat Nat :=
  .call 1 k fun r =>
    match r with
    | .error _ => .ret 100
    | .ok a => .ret a

def demoThrow : Memo Nat Nat :=
  { (Impl.initMemo : Memo Nat Nat) with wrappers := [⟨0, catchingBody, .basic⟩, ⟨1, throwingBody, .basic⟩] }

/-- What the two functions do. -/
def demoThrowF (f k : Nat) : Except Err Nat :=
  if f = 1 then (if k % 2 = 0 then .ok (k / 2) else .error .keyNotFound)
  else if f = 0 then (if k % 2 = 0 then .ok (k / 2) else .ok 100) else .ok 0

theorem demoThrow_determined : Determined demoThrowF demoThrow.wrappers where
  computes := by
    intro g y hy e k
    match g with
    | 0 =>
      injection hy with hy
      subst hy
      show (catchingBody e k).answer demoThrowF = demoThrowF 0 k
      unfold catchingBody demoThrowF Body.answer
      by_cases hk : k % 2 = 0 <;> simp [hk, Body.answer]
    | 1 =>
      injection hy with hy
      subst hy
      show (throwingBody e k).answer demoThrowF = demoThrowF 1 k
      match k with
      | 0 => rfl
      | 1 => rfl
      | n + 2 =>
        unfold throwingBody demoThrowF Body.answer
        by_cases hk : n % 2 = 0 <;> simp [hk, Body.answer]
    | g + 2 => exact nomatch hy
  respects := fun _ _ _ a b h => by
    have : a = b := of_decide_eq_true h
    rw [this]
  agree := by
    intro f g x y hx hy ht k
    match f, g with
    | 0, 0 => rfl
    | 1, 1 => rfl
    | 0, 1 => injection hx with hx; injection hy with hy; subst hx; subst hy; exact nomatch ht
    | 1, 0 => injection hx with hx; injection hy with hy; subst hx; subst hy; exact nomatch ht
    | f + 2, _ => exact nomatch hx
    | 0, g + 2 => exact nomatch hy
    | 1, g + 2 => exact nomatch hy

theorem demoThrow_reach : MReach calmO demoThrow :=
  .wrap 1 throwingBody .basic (.wrap 0 catchingBody .basic .init rfl) rfl

/-- Non-vacuity: both functions, at odd arguments. One throws, the other one returns. -/
example : (∃ σ', Impl.callWrapper calmO 53 1 51 demoThrow = .throw .keyNotFound σ') ∧
    ∃ σ', Impl.callWrapper calmO 53 0 51 demoThrow = .ok 100 σ' := by
  have ha : demoThrow.Armed := by
    intro g y hy
    match g with
    | 0 => injection hy with hy; subst hy; exact .inr trivial
    | 1 => injection hy with hy; subst hy; exact .inr trivial
    | g + 2 => exact nomatch hy
  have hW : ∀ (g : Nat) (y : Wrapper Nat Nat), demoThrow.wrappers[g]? = some y → ∀ e k,
      Descends demoThrow.wrappers.length (fun g k => if g = 0 then k + 1 else k) (if g = 0 then k + 1 else k) (y.fn e k) := by
    intro g y hy e k
    match g with
    | 0 =>
      injection hy with hy; subst hy
      exact ⟨Nat.lt_succ_self _, by show k < k + 1; omega, fun r => by cases r <;> trivial⟩
    | 1 =>
      injection hy with hy; subst hy
      match k with
      | 0 => trivial
      | 1 => trivial
      | n + 2 => exact ⟨Nat.lt_succ_self _, by show n < n + 2; omega, fun r => by cases r <;> trivial⟩
    | g + 2 => exact nomatch hy
  exact ⟨(C49_same_outcome calmO_calm demoThrow_reach ha demoThrow_determined hW (f := 1) (d := 53) (k := 51) (by decide) (by decide)).2
      _ rfl,
    (C49_same_outcome calmO_calm demoThrow_reach ha demoThrow_determined hW (f := 0) (d := 53) (k := 51) (by decide) (by decide)).1
      _ rfl⟩

/-! ### C50 -/

theorem stored_iff_item {c : Cache K V} : Stored c k ↔ ∃ y, (asLru c).item k = some y := by
  constructor
  · rintro ⟨m, hm, hk⟩
    cases hi : (asLru c).item k with
    | some y => exact ⟨y, rfl⟩
    | none =>
      have := List.find?_eq_none.1 hi (m.key, m.info.value) (List.mem_map.2 ⟨m, hm, rfl⟩)
      exact absurd hk this
  · rintro ⟨y, hy⟩
    obtain ⟨h1, h2⟩ := Lru.item_mem hy
    obtain ⟨m, hm, rfl⟩ := List.mem_map.1 h1
    exact ⟨m, hm, h2⟩

/-- C50. A call with arguments that are not in the cache (or when there is no cache yet) evaluates the function once, in the
circumstances of the call; shown for functions that call no wrapped functions. If it returns, the arguments are noted as the
most recent ones. If it throws, the exception reaches the caller, and nothing is remembered: the next call evaluates again. -/
theorem C50_new_arguments (hC : Calm O) (h : MReach O σ) (hx : σ.wrappers[f]? = some x)
    (ha : σ.statics x.type ≠ none ∨ x.args.Alive σ.mem) (hnew : ∀ c, σ.cacheOf x.type = some c → ¬ Stored c k) :
    (∀ v, x.fn σ.evals k = .ret v → ∃ σ', Impl.callWrapper O (d + 1) f k σ = .ok v σ' ∧
      σ'.evals = (f, k) :: σ.evals ∧ σ'.argsOf x.type = k :: σ.argsOf x.type) ∧
    (∀ e, x.fn σ.evals k = .throw e → ∃ σ', Impl.callWrapper O (d + 1) f k σ = .throw e σ' ∧
      σ'.evals = (f, k) :: σ.evals ∧ σ'.argsOf x.type = σ.argsOf x.type ∧
      ∀ c, σ'.cacheOf x.type = some c → ¬ Stored c k) := by
  have hO := hC.noListFault
  have hI := h.inv hO
  have main : ∀ (σ : Memo K V) (i : Nat), MInv O σ → σ.statics x.type = some i →
      (∀ c, σ.cacheOf x.type = some c → ¬ Stored c k) →
      (∀ v, x.fn σ.evals k = .ret v → ∃ σ', Impl.rest O d f k x i σ = .ok v σ' ∧
        σ'.evals = (f, k) :: σ.evals ∧ σ'.argsOf x.type = k :: σ.argsOf x.type) ∧
      (∀ e, x.fn σ.evals k = .throw e → ∃ σ', Impl.rest O d f k x i σ = .throw e σ' ∧
        σ'.evals = (f, k) :: σ.evals ∧ σ'.argsOf x.type = σ.argsOf x.type ∧
        ∀ c, σ'.cacheOf x.type = some c → ¬ Stored c k) := by
    intro σ i h hi hn
    obtain ⟨c, hc, _⟩ := h.cacheOf hi
    rcases rest_cases hO h (d := d) (f := f) (k := k) hi hc with
      ⟨σ', c', y, h1, h2, h3, h4, h5, h6, h7⟩ | ⟨σ1, c1, h1, h2, h3, h4, h5, h6, h7⟩
    · exact absurd (stored_iff_item.2 ⟨y, h1⟩) (hn c hc)
    · rw [h7]
      constructor
      · intro v hv
        rw [hv]
        have hb : Impl.evalBody (Impl.callWrapper O d) (.ret v) σ1 = .ok v σ1 := rfl
        rw [bind_ok hb]
        obtain ⟨c2, hc2, _⟩ := h2.inv.cacheOf (h2.later.statics _ _ hi)
        obtain ⟨w', c', h11, h12, h13⟩ := emplace_memo hO h2.inv (h2.later.statics _ _ hi) hc2 k v
        rcases h13 with ⟨r, h13, h14⟩ | ⟨h13, _⟩
        · rw [bind_ok h13]
          refine ⟨_, rfl, h5, ?_⟩
          rw [args_same rfl]
          unfold Memo.argsOf
          show k :: _ = _
          simp only
          rw [h6]
        · exact absurd hC h13
      · intro e he
        rw [he]
        have hb : Impl.evalBody (Impl.callWrapper O d) (.throw e : Body K V) σ1 = .throw e σ1 := rfl
        rw [bind_throw hb]
        refine ⟨σ1, rfl, h5, by unfold Memo.argsOf; rw [h6], fun c' hc' => ?_⟩
        rw [h2.self] at hc'
        injection hc' with hc'
        subst hc'
        intro hs
        rw [stored_iff_item, h4, ← stored_iff_item] at hs
        exact hn c hc hs
  rw [callWrapper_succ hx]
  rcases static_cases hI x with ⟨i, h1, h2⟩ | ⟨h1, i, σ1, kind, m, h2, h3, h4⟩ | ⟨h1, h2, h3⟩
  · rw [bind_ok h2]
    exact main σ i hI h1 hnew
  · rw [bind_ok h3]
    have h5 := main σ1 i h4.inv h4.here (fun c hc => by
      rw [h4.self] at hc
      injection hc with hc
      subst hc
      rintro ⟨m, hm, _⟩
      exact nomatch hm)
    have h6 : σ1.argsOf x.type = σ.argsOf x.type := by unfold Memo.argsOf; rw [h4.done]
    rw [h4.evals, h6] at h5
    exact h5
  · rcases ha with ha | ha
    · exact absurd h1 ha
    · obtain ⟨p, hp⟩ := alive_asks ha
      rw [h2] at hp
      cases hp

/-- A function whose every other evaluation throws. -/
def moodyBody (h : List (Nat × Nat)) (k : Nat) : Body Nat Nat := if h.length % 2 = 0 then .throw .keyNotFound else .ret (k + h.length)

def demoMoody : Memo Nat Nat := { (Impl.initMemo : Memo Nat Nat) with wrappers := [⟨0, moodyBody, .basic⟩] }

/-- Non-vacuity: the first call throws; the second one evaluates again and returns; the third one is answered by the cache. -/
example : (Impl.callWrapper calmO 1 0 5 demoMoody).err = some .keyNotFound ∧
    ((Impl.callWrapper calmO 1 0 5 demoMoody).state.bind fun σ => (Impl.callWrapper calmO 1 0 5 σ).result) = some 6 ∧
    ((Impl.callWrapper calmO 1 0 5 demoMoody).state.bind fun σ => (Impl.callWrapper calmO 1 0 5 σ).state.bind fun σ =>
      (Impl.callWrapper calmO 1 0 5 σ).state.map (·.evals)) = some [(0, 5), (0, 5)] := by decide +kernel

/-! ### C52 -/

theorem ticks_bounds {t : Int} {r : Nat} (hr : 0 < r) :
    (0 ≤ t → t.tdiv r * r ≤ t ∧ t < (t.tdiv r + 1) * r) ∧ (t ≤ 0 → (t.tdiv r - 1) * r < t ∧ t ≤ t.tdiv r * r) := by
  have h1 := Int.tmod_add_mul_tdiv t r
  rw [Int.mul_comm (r : Int)] at h1
  have h2 : (t.tdiv r + 1) * r = t.tdiv r * r + r := by rw [Int.add_mul, Int.one_mul]
  have h3 : (t.tdiv r - 1) * r = t.tdiv r * r - r := by rw [Int.sub_mul, Int.one_mul]
  have h4 : 0 < (r : Int) := by omega
  constructor
  · intro h
    have h5 := Int.tmod_nonneg (r : Int) h
    have h6 := Int.tmod_lt_of_pos t h4
    omega
  · intro h
    have h5 := Int.tmod_nonneg (r : Int) (a := -t) (by omega)
    have h6 := Int.tmod_lt_of_pos (-t) h4
    rw [Int.neg_tmod] at h5 h6
    omega

/-- C52. The lifetime in numbers, of a wrapper with a duration that is still there at the first call: the duration in units
of the cache, rounded towards zero. The capacity is 128, or that asked for. -/
theorem C52_duration_partial (hO : NoListFault O) (h : MReach O σ) (hx : σ.wrappers[f]? = some x)
    (hs : σ.statics x.type = none) {a b res : Nat} {t : Int} (hres : 0 < res) (ht : σ.mem[a]? = some (some t))
    (hargs : (x.args = .timed res a ∧ n = 128) ∨
      (x.args = .timedSized res a b ∧ σ.mem[b]? = some (some (n : Int)) ∧ n < 2 ^ 64))
    (hr : (∃ v, Impl.callWrapper O (d + 1) f k σ = .ok v σ') ∨ ∃ e, Impl.callWrapper O (d + 1) f k σ = .throw e σ') :
    ∃ c ttl, σ'.cacheOf x.type = some c ∧ c.kind = .timed ttl res ∧ c.capacity = some n ∧
      (0 ≤ t → ttl * res ≤ t ∧ t < (ttl + 1) * res) ∧ (t ≤ 0 → (ttl - 1) * res < t ∧ t ≤ ttl * res) := by
  have ha : x.args.asks σ.mem = some (.timed (t.tdiv res) res, n) := by
    rcases hargs with ⟨h1, rfl⟩ | ⟨h1, h2, h3⟩
    · rw [h1]
      simp only [CacheArgs.asks, ht]
      rfl
    · rw [h1]
      simp only [CacheArgs.asks, ht, h2]
      have : Impl.toSizeT (n : Int) = n := by unfold Impl.toSizeT; omega
      rw [this]
      rfl
  obtain ⟨c, h1, h2, h3⟩ := C52_live_arguments_partial hO h hx hs ha hr
  exact ⟨c, _, h1, h2, h3, ticks_bounds hres⟩

/-- Non-vacuity: 2999 ticks are two units of 1000 ticks. -/
example : (((Impl.newObject 2999 >>= fun a => Impl.wrap 0 doubleBody (.timed 1000 a) >>= fun f => Impl.callWrapper calmO 1 f 5)
      Impl.initMemo).state.bind fun σ => (σ.cacheOf 0).map fun c => (c.kind, c.capacity)) = some (.timed 2 1000, some 128) := by
  decide +kernel

end LRU
