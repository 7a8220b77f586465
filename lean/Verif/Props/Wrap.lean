import Verif.Proofs.Memo
import Verif.Props.Exceptions
/-!
# Wrapped functions: C49, C50, C51, C52

The theorems hold for every state `σ` of every program that wraps functions and calls the wrappers (`MReach O σ`),
including recursive functions that call wrappers again. C51 and C52 do not hold; what does is stated beside the
counterexamples.
-/

set_option linter.unusedSectionVars false
set_option autoImplicit false

namespace LRU

variable {K V : Type} [KeyEqual K] [DecidableEq K] [DecidableEq V] {O : Oracle K V} {σ σ' : Memo K V} {F : Nat → K → V}
  {f d n : Nat} {k : K} {v : V} {x : Wrapper K V} {c : Cache K V}

/-! ### C49 -/

/-- C49. What a wrapped function returns is what the function returns, if functions with the same type of closure agree.
Plain and timed wrappers, whatever their capacity, whatever was called before, and even if the cache threw before,
provided that a failed assignment of the value that is there already does no harm. -/
theorem C49_transparent (hO : NoListFault O) (hT : KeepsEqual O) (h : MReach O σ) (hF : Deterministic F σ.wrappers)
    (hr : Impl.callWrapper O d f k σ = .ok v σ') : v = F f k := by
  have h1 := call_fine hO (closed_faithful hT hF) d f k σ ⟨h.inv hO, rfl, h.faithful hO hT hF⟩ False.elim
  rw [hr] at h1
  exact h1.2.2

/-- C49. Calls have no undefined behaviour while the references given to `wrap` are valid (or the static cache exists). -/
theorem C49_defined (hO : NoListFault O) (h : MReach O σ) (ha : σ.Armed) (hf : f < σ.wrappers.length)
    (hW : ∀ (g : Nat) (y : Wrapper K V), σ.wrappers[g]? = some y → ∀ e k, CallsBelow σ.wrappers.length (y.fn e k)) :
    Impl.callWrapper O d f k σ ≠ .ub ∧ Impl.callWrapper O d f k σ ≠ .terminate := by
  have h1 := call_fine hO (closed_armed (O := O) hW) d f k σ ⟨h.inv hO, rfl, ha⟩ (fun _ => hf)
  constructor <;> intro he <;> rw [he] at h1
  · exact h1 trivial
  · exact h1

/-- C49. Calls do return, if functions return or call wrapped functions with smaller arguments, and allocations succeed:
a recursion of depth `d` needs no more than `d` nested calls. -/
theorem C49_returns (hC : Calm O) (h : MReach O σ) (ha : σ.Armed) (hF : Deterministic F σ.wrappers) {μ : Nat → K → Nat}
    (hW : ∀ (g : Nat) (y : Wrapper K V), σ.wrappers[g]? = some y → ∀ e k, Settles σ.wrappers.length μ (μ g k) (y.fn e k))
    (hf : f < σ.wrappers.length) (hd : μ f k < d) : ∃ σ', Impl.callWrapper O d f k σ = .ok (F f k) σ' := by
  obtain ⟨v, σ', h1, _⟩ := call_total hC hW d f k σ (h.inv hC.noListFault) ha rfl hf hd
  refine ⟨σ', ?_⟩
  rw [← C49_transparent hC.noListFault hC.keepsEqual h hF h1]
  exact h1

/-- Fibonacci numbers. -/
def fib : Nat → Nat
  | 0 => 0
  | 1 => 1
  | n + 2 => fib (n + 1) + fib n

/-- A function that computes them by calling wrapper 0. -/
def fibBody (_ : List (Nat × Nat)) : Nat → Body Nat Nat
  | 0 => .ret 0
  | 1 => .ret 1
  | n + 2 => .call 0 (n + 1) fun r =>
    match r with
    | .error e => .throw e
    | .ok a => .call 0 n fun r =>
      match r with
      | .error e => .throw e
      | .ok b => .ret (a + b)

/-- After `auto f = LRU::wrap(fib)`. -/
def demoFib : Memo Nat Nat := { (Impl.initMemo : Memo Nat Nat) with wrappers := [⟨0, fibBody, .basic⟩] }

theorem demoFib_reach : MReach calmO demoFib := .wrap 0 fibBody .basic .init rfl

theorem demoFib_only {g : Nat} {y : Wrapper Nat Nat} (h : demoFib.wrappers[g]? = some y) :
    g = 0 ∧ y = ⟨0, fibBody, .basic⟩ := by
  cases g with
  | zero => injection h with h; exact ⟨rfl, h.symm⟩
  | succ g => exact nomatch h

theorem demoFib_deterministic : Deterministic (fun _ k => fib k) demoFib.wrappers where
  computes := by
    intro g y hy e k
    obtain ⟨_, rfl⟩ := demoFib_only hy
    show Computes _ (fib k) (fibBody e k)
    match k with
    | 0 => rfl
    | 1 => rfl
    | n + 2 => exact ⟨⟨rfl, fun _ => trivial⟩, fun _ => trivial⟩
  respects := fun _ _ _ a b h => by
    have : a = b := of_decide_eq_true h
    rw [this]
  agree := fun _ _ _ _ _ _ _ _ => rfl

/-- Non-vacuity: the recursive function meets the conditions of all three theorems. -/
example : ∃ σ', Impl.callWrapper calmO 91 0 90 demoFib = .ok (fib 90) σ' :=
  C49_returns calmO_calm demoFib_reach (fun _ _ h => by rw [(demoFib_only h).2]; exact .inr trivial) demoFib_deterministic
    (μ := fun _ k => k)
    (fun g y hy e k => by
      obtain ⟨_, rfl⟩ := demoFib_only hy
      show Settles 1 _ k (fibBody e k)
      match k with
      | 0 => trivial
      | 1 => trivial
      | n + 2 => exact ⟨Nat.one_pos, Nat.lt_succ_self _, fun _ => ⟨Nat.one_pos, by show n < n + 2; omega, fun _ => trivial⟩⟩)
    Nat.one_pos (Nat.lt_succ_self _)

/-- Each Fibonacci number up to the 10th is computed once. -/
example : (Impl.callWrapper calmO 20 0 10 demoFib).result = some 55 ∧
    (Impl.callWrapper calmO 20 0 10 demoFib).state.map (·.evals.length) = some 11 := by decide +kernel

/-- A function that calls itself with the same argument if nothing was evaluated before. -/
def againBody (h : List (Nat × Nat)) (k : Nat) : Body Nat Nat :=
  if h = [] then .call 0 k fun _ => .ret (k + 1) else .ret (k + 1)

/-- After `auto f = LRU::wrap(again)`. -/
def demoAgain : Memo Nat Nat := { (Impl.initMemo : Memo Nat Nat) with wrappers := [⟨0, againBody, .basic⟩] }

theorem demoAgain_deterministic : Deterministic (fun _ k => k + 1) demoAgain.wrappers where
  computes := by
    intro g y hy e k
    cases g with
    | zero =>
      injection hy with hy
      subst hy
      show Computes _ (k + 1) (againBody e k)
      unfold againBody
      split
      · exact ⟨rfl, fun _ => rfl⟩
      · rfl
    | succ g => exact nomatch hy
  respects := fun _ _ _ a b h => by
    have : a = b := of_decide_eq_true h
    rw [this]
  agree := fun _ _ _ _ _ _ _ _ => rfl

/-- An environment in which one assignment fails and spoils the value. -/
def spoilO (step : Nat) : Oracle Nat Nat := { faultyO .assign step with torn := fun _ _ _ => 0 }

/-- C49 needs the proviso. The call of `again` inside `again` stores 6 for 5; the outer call then assigns 6 to it, which
throws and spoils the value. The next call is a hit and returns what is left. -/
theorem C49_spoiled_value_returned :
    ¬ ∀ (O : Oracle Nat Nat) (F : Nat → Nat → Nat) (σ σ' : Memo Nat Nat) (d f k v : Nat), NoListFault O →
      MReach O σ → Deterministic F σ.wrappers → Impl.callWrapper O d f k σ = .ok v σ' → v = F f k := by
  intro h
  have hO : NoListFault (spoilO 6) := fun n => by simp [spoilO, faultyO]
  have hr : MReach (spoilO 6) demoAgain := .wrap 0 againBody .basic .init rfl
  obtain ⟨σ1, h1, h2⟩ := Out.throw_fact (o := Impl.callWrapper (spoilO 6) 2 0 5 demoAgain) (e := .badAlloc)
    (f := fun σ => (Impl.callWrapper (spoilO 6) 2 0 5 σ).result) (y := some 0) (by decide +kernel) (by decide +kernel)
  obtain ⟨σ2, h3⟩ := Out.ok_of h2
  have h4 : σ1.wrappers = demoAgain.wrappers := by
    have := call_fine hO (closed_inv (spoilO 6)) 2 0 5 demoAgain (hr.inv hO) False.elim
    rw [h1] at this
    exact this.2.wrappers
  exact absurd (h (spoilO 6) (fun _ k => k + 1) σ1 σ2 2 0 5 0 hO (.callThrow 2 0 5 hr h1) (h4 ▸ demoAgain_deterministic) h3)
    (by decide)

/-- Non-vacuity of the proviso where assignments do fail: the old value is kept, and the next call returns it. -/
example : KeepsEqual (faultyO .assign 6) ∧ (Impl.callWrapper (faultyO .assign 6) 2 0 5 demoAgain).err = some .badAlloc ∧
    (Impl.callWrapper (faultyO .assign 6) 2 0 5 demoAgain).state.map
      (fun σ => (Impl.callWrapper (faultyO .assign 6) 2 0 5 σ).result) = some (some 6) :=
  ⟨fun _ _ _ => rfl, by decide +kernel, by decide +kernel⟩

/-! ### C50 -/

/-- C50. The static cache holds the most recent distinct arguments of the calls that returned, as many as its capacity. -/
theorem C50_holds_recent (hC : Calm O) (h : MReach O σ) {τ : Nat} (hc : σ.cacheOf τ = some c) :
    ∃ n, c.capacity = some n ∧ SameKeys (newestKeys c) ((recent (σ.argsOf τ)).take n) := (h.stacked hC).top τ c hc

/-- C50. A call of a plain wrapper evaluates the function iff the argument is not among the `n` most recent distinct ones
of the calls that returned. (A call that throws was not a hit.) -/
theorem C50_evaluates_iff (hC : Calm O) (h : MReach O σ) (hx : σ.wrappers[f]? = some x) (hc : σ.cacheOf x.type = some c)
    (hb : c.kind = .basic) (hn : c.capacity = some n) :
    ((∃ a ∈ (recent (σ.argsOf x.type)).take n, keq a k = true) →
      ∃ v σ', Impl.callWrapper O (d + 1) f k σ = .ok v σ' ∧ σ'.evals = σ.evals) ∧
    ((¬ ∃ a ∈ (recent (σ.argsOf x.type)).take n, keq a k = true) →
      ∀ σ', ((∃ v, Impl.callWrapper O (d + 1) f k σ = .ok v σ') ∨ ∃ e, Impl.callWrapper O (d + 1) f k σ = .throw e σ') →
        (f, k) :: σ.evals <:+ σ'.evals) := by
  have hO := hC.noListFault
  have hI := h.inv hO
  obtain ⟨m, hm, hk⟩ := C50_holds_recent hC h hc
  rw [hn] at hm
  injection hm with hm
  subst hm
  have h0 := (((asLru c).item_iff k).trans (hk.any k))
  rw [callWrapper_succ hx]
  rcases static_cases hI x with ⟨i, h1, h2⟩ | ⟨h1, _⟩ | ⟨h1, _⟩
  · rw [bind_ok h2]
    rcases rest_evals hO hI (d := d) (f := f) (k := k) h1 hc with ⟨y, σ1, h3, h4, h5⟩ | ⟨h3, h4⟩
    · exact ⟨fun _ => ⟨y.2, σ1, h4, h5⟩, fun hnot => absurd (h0.1 ⟨y, h3⟩) hnot⟩
    · refine ⟨fun hyes => ?_, fun _ σ' hr => ?_⟩
      · obtain ⟨y, hy⟩ := h0.2 hyes
        rw [h3 hb] at hy
        cases hy
      · rcases hr with ⟨v, hr⟩ | ⟨e, hr⟩ <;> rw [hr] at h4 <;> exact h4
  all_goals
    unfold Memo.cacheOf at hc
    rw [h1] at hc
    cases hc

/-- C50. The first call (of any closure of the type) evaluates the function. -/
theorem C50_first_call_evaluates (hO : NoListFault O) (h : MReach O σ) (hx : σ.wrappers[f]? = some x)
    (hs : σ.statics x.type = none) (hr : Impl.callWrapper O (d + 1) f k σ = .ok v σ') :
    (f, k) :: σ.evals <:+ σ'.evals := by
  rw [callWrapper_succ hx] at hr
  rcases static_cases (h.inv hO) x with ⟨i, h1, _⟩ | ⟨_, i, σ1, kind, m, h2, h3, h4⟩ | ⟨_, _, h3⟩
  · rw [hs] at h1; cases h1
  · rw [bind_ok h3] at hr
    rcases rest_evals hO h4.inv (d := d) (f := f) (k := k) h4.here h4.self with ⟨y, σ2, h5, _⟩ | ⟨_, h5⟩
    · obtain ⟨h6, _⟩ := Lru.item_mem h5
      exact nomatch h6
    · rw [hr, h4.evals] at h5
      exact h5
  · rw [bind_ub h3] at hr; cases hr

theorem bind_ok_inv {S α β : Type} {m : M S α} {g : α → M S β} {s s'' : S} {b : β} (h : (m >>= g) s = .ok b s'') :
    ∃ a s', m s = .ok a s' ∧ g a s' = .ok b s'' := by
  cases hm : m s with
  | ok a s' => rw [bind_ok hm] at h; exact ⟨a, s', rfl, h⟩
  | throw e s' => rw [bind_throw hm] at h; cases h
  | ub => rw [bind_ub hm] at h; cases h
  | terminate => change M.bind m g s = _ at h; unfold M.bind at h; rw [hm] at h; cases h
  | diverge => change M.bind m g s = _ at h; unfold M.bind at h; rw [hm] at h; cases h

/-- C50. A call that returns makes its argument the most recent one. -/
theorem C50_call_is_use (hx : σ.wrappers[f]? = some x) (hr : Impl.callWrapper O (d + 1) f k σ = .ok v σ') :
    ∃ l, σ'.argsOf x.type = k :: l := by
  rw [callWrapper_succ hx] at hr
  obtain ⟨i, σ1, _, hr⟩ := bind_ok_inv hr
  obtain ⟨p, σ2, _, hr⟩ := bind_ok_inv hr
  have key : ∀ (u : V) (σ : Memo K V), (Impl.noteDone x.type k >>= fun _ => (pure u : M (Memo K V) V)) σ = .ok v σ' →
      ∃ l, σ'.argsOf x.type = k :: l := by
    intro u σ3 h3
    obtain ⟨_, σ4, h4, h5⟩ := bind_ok_inv h3
    cases h4
    cases h5
    exact ⟨_, args_same rfl⟩
  cases p with
  | some p =>
    obtain ⟨u, σ3, _, hr⟩ := bind_ok_inv hr
    exact key u σ3 hr
  | none =>
    obtain ⟨_, σ3, _, hr⟩ := bind_ok_inv hr
    obtain ⟨u, σ4, _, hr⟩ := bind_ok_inv hr
    obtain ⟨_, σ5, _, hr⟩ := bind_ok_inv hr
    exact key u σ5 hr

/-- A function that returns twice its argument. -/
def doubleBody (_ : List (Nat × Nat)) (k : Nat) : Body Nat Nat := .ret (2 * k)

/-- After `std::size_t n = 2; auto f = LRU::wrap(double, n);`. -/
def demoDouble : Memo Nat Nat :=
  { (Impl.initMemo : Memo Nat Nat) with
    mem := [some 2], wrappers := [⟨0, doubleBody, .sized 0⟩] }

theorem demoDouble_reach : MReach calmO demoDouble := .wrap 0 doubleBody (.sized 0) (.newObject 2 .init rfl) rfl

/-- Calls, one after the other. -/
def callAll (O : Oracle K V) (f : Nat) : List K → M (Memo K V) Unit
  | [] => pure ()
  | k :: l => do
    let _ ← Impl.callWrapper O 1 f k
    callAll O f l

/-- Non-vacuity: capacity 2, calls with 5, 6, 5, 7, 5, 6. The second and third call with 5 are hits, the second call with 6
is not. -/
example : (callAll calmO 0 [5, 6, 5, 7, 5, 6] demoDouble).state.map (·.evals) = some [(0, 6), (0, 7), (0, 6), (0, 5)] ∧
    (callAll calmO 0 [5, 6, 5, 7, 5, 6] demoDouble).state.map (fun σ => (recent (σ.argsOf 0)).take 2) = some [6, 5] := by
  decide +kernel

/-! ### C51 -/

/-- Non-interference: what C51 asks for. Functions are deterministic, but need not agree. -/
structure EachDeterministic (F : Nat → K → V) (fs : List (Wrapper K V)) : Prop where
  computes : ∀ (f : Nat) (x : Wrapper K V), fs[f]? = some x → ∀ h k, Computes F (F f k) (x.fn h k)
  respects : ∀ (f : Nat) (x : Wrapper K V), fs[f]? = some x → ∀ k k', keq k k' = true → F f k = F f k'

/-- After `auto f = LRU::wrap(plusOne); auto g = LRU::wrap(plusTwo);` with two functions of type `int(int)`. -/
def demoClash : Memo Nat Nat :=
  { (Impl.initMemo : Memo Nat Nat) with
    wrappers := [⟨0, fun _ k => .ret (k + 1), .basic⟩, ⟨0, fun _ k => .ret (k + 2), .basic⟩] }

theorem demoClash_reach : MReach calmO demoClash :=
  .wrap 0 (fun _ k => .ret (k + 2)) .basic (.wrap 0 (fun _ k => .ret (k + 1)) .basic .init rfl) rfl

theorem demoClash_each : EachDeterministic (fun f k => k + f + 1) demoClash.wrappers where
  computes := by
    intro f x hx h k
    match f, hx with
    | 0, hx => injection hx with hx; subst hx; rfl
    | 1, hx => injection hx with hx; subst hx; show k + 2 = k + 1 + 1; omega
  respects := fun _ _ _ a b h => by
    have : a = b := of_decide_eq_true h
    rw [this]

/-- C51 does not hold: `f(1)` stores 2 for 1 in the cache that `g` uses, so `g(1)` returns 2 and not 3. -/
theorem C51_refuted : ¬ ∀ (O : Oracle Nat Nat) (F : Nat → Nat → Nat) (σ σ' : Memo Nat Nat) (d f k v : Nat), Calm O →
    MReach O σ → EachDeterministic F σ.wrappers → Impl.callWrapper O d f k σ = .ok v σ' → v = F f k := by
  intro H
  have h1 : ((Impl.callWrapper calmO 1 0 1 >>= fun _ => Impl.callWrapper calmO 1 1 1) demoClash).result = some 2 := by
    decide +kernel
  obtain ⟨σ2, h2⟩ := Out.ok_of h1
  obtain ⟨u, σ1, h3, h4⟩ := bind_ok_inv h2
  have h5 : MReach calmO σ1 := .call 1 0 1 demoClash_reach h3
  have h6 : σ1.wrappers = demoClash.wrappers := by
    have := call_fine calmO_calm.noListFault (closed_inv calmO) 1 0 1 demoClash
      (demoClash_reach.inv calmO_calm.noListFault) False.elim
    rw [h3] at this
    exact this.2.1.wrappers
  have h7 := H calmO (fun f k => k + f + 1) σ1 σ2 1 1 1 2 calmO_calm h5 (h6 ▸ demoClash_each) h4
  exact absurd h7 (by decide)

/-- C51 where it holds: functions that are wrapped in closures of different types (functions of different types, or
wrapped with different template arguments) do not interfere. -/
theorem C51_different_types_partial (hO : NoListFault O) (hT : KeepsEqual O) (h : MReach O σ) (hF : EachDeterministic F σ.wrappers)
    (ht : ∀ (f g : Nat) (x y : Wrapper K V), σ.wrappers[f]? = some x → σ.wrappers[g]? = some y → x.type = y.type → f = g)
    (hr : Impl.callWrapper O d f k σ = .ok v σ') : v = F f k :=
  C49_transparent hO hT h ⟨hF.computes, hF.respects, fun f g x y hx hy he k => by rw [ht f g x y hx hy he]⟩ hr

/-- Non-vacuity: two wrappers with closures of different types. -/
example : ∃ σ : Memo Nat Nat, MReach calmO σ ∧ σ.wrappers.map (·.type) = [0, 1] ∧
    (Impl.callWrapper calmO 1 0 1 σ).result = some 2 ∧
    ((Impl.callWrapper calmO 1 0 1 >>= fun _ => Impl.callWrapper calmO 1 1 1) σ).result = some 3 :=
  ⟨{ (Impl.initMemo : Memo Nat Nat) with
      wrappers := [⟨0, fun _ k => .ret (k + 1), .basic⟩, ⟨1, fun _ k => .ret (k + 2), .basic⟩] },
    .wrap 1 (fun _ k => .ret (k + 2)) .basic (.wrap 0 (fun _ k => .ret (k + 1)) .basic .init rfl) rfl,
    by decide, by decide +kernel, by decide +kernel⟩

/-! ### C52 -/

theorem call_dangling (h : MInv O σ) (hx : σ.wrappers[f]? = some x) (hs : σ.statics x.type = none)
    (ha : x.args.asks σ.mem = none) : Impl.callWrapper O (d + 1) f k σ = .ub := by
  rw [callWrapper_succ hx]
  rcases static_cases h x with ⟨i, h1, _⟩ | ⟨_, i, σ1, kind, m, h2, _⟩ | ⟨_, _, h3⟩
  · rw [hs] at h1; cases h1
  · rw [ha] at h2; cases h2
  · exact bind_ub h3

/-- C52 does not hold, in general: after `auto f = LRU::wrap(fn, 128);` the first call of a closure of the type, made
through `f`, has undefined behaviour, because the capacity is read through a reference to a temporary. -/
theorem C52_temporary_dangles (hO : NoListFault O) (h : MReach O σ) {type : Nat}
    {fn : List (Nat × K) → K → Body K V} {m : Int} (hs : σ.statics type = none)
    (hw : Impl.wrapTemporary type fn m σ = .ok f σ') (d : Nat) (k : K) : Impl.callWrapper O (d + 1) f k σ' = .ub := by
  have hI := h.inv hO
  cases hw
  refine call_dangling (x := ⟨type, fn, .sized σ.mem.length⟩) ⟨hI.own, hI.cache, hI.inj⟩ (by simp) hs ?_
  show (match ((σ.mem ++ [some m]).set σ.mem.length none)[σ.mem.length]? with
    | some (some n) => some (Kind.basic, Impl.toSizeT n)
    | _ => none) = none
  simp

/-- C52 does not hold for `timed_wrap` at all: the closure refers to a parameter of `timed_wrap`. The first call of a
closure of the type has undefined behaviour. -/
theorem C52_timed_wrap_dangles (hO : NoListFault O) (h : MReach O σ) {type res : Nat}
    {fn : List (Nat × K) → K → Body K V} {m : Int} (hs : σ.statics type = none)
    (hw : Impl.timedWrap type fn res m σ = .ok f σ') (d : Nat) (k : K) : Impl.callWrapper O (d + 1) f k σ' = .ub := by
  have hI := h.inv hO
  cases hw
  refine call_dangling (x := ⟨type, fn, .timed res σ.mem.length⟩) ⟨hI.own, hI.cache, hI.inj⟩ (by simp) hs ?_
  show (match ((σ.mem ++ [some m]).set σ.mem.length none)[σ.mem.length]? with
    | some (some n) => some (timedKind n res, DEFAULT_CAPACITY)
    | _ => none) = none
  simp

/-- Non-vacuity of both: such statements, and the calls after them. -/
example : ((Impl.wrapTemporary 0 doubleBody 128 >>= fun f => Impl.callWrapper calmO 1 f 5) Impl.initMemo).isUb = true ∧
    ((Impl.timedWrap 0 doubleBody 1 100 >>= fun f => Impl.callWrapper calmO 1 f 5) Impl.initMemo).isUb = true := by
  decide +kernel

/-- C52 where it holds: when the references are valid at the time of the first call of a closure of the type, the static
cache gets the class and capacity that the arguments have *at that time*. -/
theorem C52_live_arguments_partial (hO : NoListFault O) (h : MReach O σ) (hx : σ.wrappers[f]? = some x)
    (hs : σ.statics x.type = none) {kind : Kind} (ha : x.args.asks σ.mem = some (kind, n))
    (hr : (∃ v, Impl.callWrapper O (d + 1) f k σ = .ok v σ') ∨ ∃ e, Impl.callWrapper O (d + 1) f k σ = .throw e σ') :
    ∃ c, σ'.cacheOf x.type = some c ∧ c.kind = kind ∧ c.capacity = some n := by
  rw [callWrapper_succ hx] at hr
  rcases static_cases (h.inv hO) x with ⟨i, h1, _⟩ | ⟨_, i, σ1, kind', m, h2, h3, h4⟩ | ⟨_, h2, _⟩
  · rw [hs] at h1; cases h1
  · rw [ha] at h2
    cases h2
    rw [bind_ok h3] at hr
    have hE := closed_frame O x.type kind n
    have h5 := rest_fine hO hE (fun f' k' σ' hσ hf => call_fine hO hE d f' k' σ' hσ hf) (f := f) (k := k)
      (σ := σ1) ⟨h4.inv, _, h4.self, rfl, rfl⟩ (by rw [h4.wrappers]; exact hx) h4.here
    rcases hr with ⟨v, hr⟩ | ⟨e, hr⟩ <;> rw [hr] at h5 <;> exact h5.1.2
  · rw [ha] at h2; cases h2

/-- C52. The capacity in numbers: a variable that is an `int` is converted to `std::size_t`, so that the capacity is its value
unless that is negative. Of `-1` it becomes `18446744073709551615`. -/
theorem C52_number_partial (hO : NoListFault O) (h : MReach O σ) (hx : σ.wrappers[f]? = some x)
    (hs : σ.statics x.type = none) {a : Nat} {m : Int} (hargs : x.args = .sized a) (hm : σ.mem[a]? = some (some m))
    (hr : (∃ v, Impl.callWrapper O (d + 1) f k σ = .ok v σ') ∨ ∃ e, Impl.callWrapper O (d + 1) f k σ = .throw e σ') :
    ∃ c cap, σ'.cacheOf x.type = some c ∧ c.kind = .basic ∧ c.capacity = some cap ∧
      (∀ n : Nat, n < 2 ^ 64 → m = n → cap = n) ∧ (∀ n : Nat, n < 2 ^ 64 → m = -(n + 1 : Int) → cap = 2 ^ 64 - (n + 1)) := by
  have ha : x.args.asks σ.mem = some (.basic, Impl.toSizeT m) := by
    rw [hargs]
    simp only [CacheArgs.asks, hm]
  obtain ⟨c, h1, h2, h3⟩ := C52_live_arguments_partial hO h hx hs ha hr
  refine ⟨c, _, h1, h2, h3, ?_, ?_⟩ <;>
  · intro n hn he
    unfold Impl.toSizeT
    omega

/-- Non-vacuity: a wrapper that is given a variable of value `-1`. -/
example : (((Impl.newObject (-1) >>= fun a => Impl.wrap 0 doubleBody (.sized a) >>= fun f => Impl.callWrapper calmO 1 f 5)
      Impl.initMemo).state.bind fun σ => (σ.cacheOf 0).bind (·.capacity)) = some 18446744073709551615 := by decide +kernel

/-- C52. Class and capacity of a static cache never change again, whichever wrapper is called. -/
theorem C52_fixed_partial (hO : NoListFault O) (h : MReach O σ) {τ : Nat} (hc : σ.cacheOf τ = some c) {m : Nat}
    (hn : c.capacity = some m)
    (hr : (∃ v, Impl.callWrapper O d f k σ = .ok v σ') ∨ ∃ e, Impl.callWrapper O d f k σ = .throw e σ') :
    ∃ c', σ'.cacheOf τ = some c' ∧ c'.kind = c.kind ∧ c'.capacity = some m := by
  have h1 := call_fine hO (closed_frame O τ c.kind m) d f k σ ⟨h.inv hO, c, hc, rfl, hn⟩ False.elim
  rcases hr with ⟨v, hr⟩ | ⟨e, hr⟩ <;> rw [hr] at h1 <;> exact h1.1.2

/-- C52 does not hold for lvalues either: of several wrappers of one type, the arguments of the one called first count.
Here two functions are wrapped with variables of value 1 and 0. After a call of the first wrapper, a call of the second
finds a cache of capacity 1. -/
theorem C52_refuted : ¬ ∀ (O : Oracle Nat Nat) (σ σ' : Memo Nat Nat) (f : Nat) (x : Wrapper Nat Nat) (k v : Nat), Calm O →
    MReach O σ → σ.wrappers[f]? = some x → x.args.Alive σ.mem → Impl.callWrapper O 1 f k σ = .ok v σ' →
    ∃ c, σ'.cacheOf x.type = some c ∧ (x.args.asks σ.mem).map (·.2) = c.capacity := by
  intro H
  let σ : Memo Nat Nat := { (Impl.initMemo : Memo Nat Nat) with
    mem := [some 1, some 0], wrappers := [⟨0, doubleBody, .sized 0⟩, ⟨0, doubleBody, .sized 1⟩] }
  have hσ : MReach calmO σ := .wrap 0 doubleBody (.sized 1) (.wrap 0 doubleBody (.sized 0)
    (.newObject 0 (.newObject 1 .init rfl) rfl) rfl) rfl
  have h1 : ((Impl.callWrapper calmO 1 0 1 >>= fun _ => Impl.callWrapper calmO 1 1 1) σ).result = some 2 := by
    decide +kernel
  obtain ⟨σ2, h2⟩ := Out.ok_of h1
  obtain ⟨u, σ1, h3, h4⟩ := bind_ok_inv h2
  have hO := calmO_calm.noListFault
  have h5 : MReach calmO σ1 := .call 1 0 1 hσ h3
  have h6 := call_fine hO (closed_inv calmO) 1 0 1 σ (hσ.inv hO) False.elim
  rw [h3] at h6
  have hw : σ1.wrappers[1]? = some ⟨0, doubleBody, .sized 1⟩ := by rw [h6.2.1.wrappers]; rfl
  have hm : σ1.mem = [some 1, some 0] := h6.2.1.mem
  obtain ⟨c, h7, h8⟩ := H calmO σ1 σ2 1 ⟨0, doubleBody, .sized 1⟩ 1 2 calmO_calm h5 hw (by rw [hm]; exact ⟨0, rfl⟩) h4
  obtain ⟨c1, h9, h10, h11⟩ := C52_live_arguments_partial hO hσ (f := 0) (x := ⟨0, doubleBody, .sized 0⟩) rfl rfl
    (kind := .basic) (n := 1) rfl (.inl ⟨u, h3⟩)
  obtain ⟨c2, h12, _, h13⟩ := C52_fixed_partial hO h5 h9 h11 (.inl ⟨2, h4⟩)
  rw [show (Wrapper.type ⟨0, doubleBody, CacheArgs.sized 1⟩) = 0 from rfl] at h7
  rw [show (Wrapper.type ⟨0, doubleBody, CacheArgs.sized 0⟩) = 0 from rfl] at h12
  rw [h12] at h7
  injection h7 with h7
  subst h7
  rw [hm, h13] at h8
  exact absurd h8 (by decide)

/-- The value of the variable at the time of `wrap` does not count: it is 1 then, 5 at the first call. -/
example : (((Impl.newObject 1 >>= fun a => Impl.wrap 0 doubleBody (.sized a) >>= fun f => Impl.setObject a 5 >>= fun _ =>
    Impl.callWrapper calmO 1 f 7) Impl.initMemo).state.bind (fun σ => (σ.cacheOf 0).map (·.capacity))) = some (some 5) := by
  decide +kernel

end LRU
