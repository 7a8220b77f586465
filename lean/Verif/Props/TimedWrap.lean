import Verif.Proofs.TimedWrap
import Verif.Props.Wrap
import Verif.Props.Expiry
import Verif.Proofs.Alias
/-!
# C86: how often a timed wrapper evaluates the function

A timed wrapper is meant to evaluate the function once per argument and time to live. It does so for arguments that are
not stored. Once the entry for an argument has expired, every call with this argument evaluates the function, because
storing the result does not renew the time of the entry (C41); this ends only when the entry is evicted.
-/

set_option linter.unusedSectionVars false
set_option autoImplicit false

namespace LRU

variable {K V : Type} [KeyEqual K] [DecidableEq K] [DecidableEq V] {O : Oracle K V} {σ σ' σ'' : Memo K V}
  {f g d d' n τ : Nat} {k : K} {v : V} {x z : Wrapper K V} {c c' : Cache K V} {ttl : Int} {res : Nat}

/-- C86. Once the static cache exists, a call of a timed wrapper evaluates the function iff no entry for the argument is
stored, or the entry is older than the time to live. Otherwise it returns the value of the entry. (Which entries are stored
is `C50_holds_recent`.) -/
theorem C86_evaluates_iff (hO : NoListFault O) (h : MReach O σ) (hx : σ.wrappers[f]? = some x)
    (hc : σ.cacheOf x.type = some c) (hk : c.kind = .timed ttl res) :
    (∀ y, entryFor c k = some y → elapsed O res y σ.world.g.ticks ≤ ttl →
      ∃ σ', Impl.callWrapper O (d + 1) f k σ = .ok y.info.value σ' ∧ σ'.evals = σ.evals) ∧
    ((∀ y, entryFor c k = some y → elapsed O res y σ.world.g.ticks > ttl) →
      ∀ σ', ((∃ v, Impl.callWrapper O (d + 1) f k σ = .ok v σ') ∨ ∃ e, Impl.callWrapper O (d + 1) f k σ = .throw e σ') →
        (f, k) :: σ.evals <:+ σ'.evals) := by
  have hI := h.inv hO
  obtain ⟨i, h1, h2, h3⟩ := call_static (d := d) (k := k) hI hx hc
  rw [h3]
  rcases rest_timed hO hI (d := d) (f := f) (k := k) h1 hc hk with ⟨σ1, z, h4, h5, h6, h7⟩ | ⟨h4, σ1, c1, h5, h6, h7, h8, h9, h10⟩
  · refine ⟨fun y hy _ => ?_, fun hall => ?_⟩
    · rw [hy] at h4
      injection h4 with h4
      subst h4
      exact ⟨σ1, h6, h7⟩
    · have := hall z h4
      omega
  · refine ⟨fun y hy hle => absurd ⟨y, hy, hle⟩ h4, fun _ σ' hr => ?_⟩
    have h11 := miss_evals hO (d := d) h1 h5 h8
    rw [← h10] at h11
    rcases hr with ⟨v, hr⟩ | ⟨e, hr⟩ <;> rw [hr] at h11 <;> exact h11

/-- After `int ttl = 3; auto f = LRU::wrap<int(int), LRU::TimedCache>(double, ttl);`, with a clock that shows one more at
each reading. -/
def demoTimedDouble : Memo Nat Nat :=
  { (Impl.initMemo : Memo Nat Nat) with mem := [some 3], wrappers := [⟨0, doubleBody, .timed 1 0⟩] }

theorem demoTimedDouble_reach : MReach calmO demoTimedDouble :=
  .wrap 0 doubleBody (.timed 1 0) (.newObject 3 .init rfl) rfl

/-- What can be seen of a state. -/
structure WrapSight where
  evals : List (Nat × Nat)
  kind : Option Kind
  times : Option (List (Nat × Int))
  ticks : Nat
  deriving DecidableEq

def wrapSight (σ : Memo Nat Nat) : WrapSight :=
  ⟨σ.evals, (σ.cacheOf 0).map (·.kind), (σ.cacheOf 0).map (fun c => (elements c).map (fun y => (y.key, y.info.time))),
    σ.world.g.ticks⟩

/-- Non-vacuity: after one call with 5 the entry is live; after five calls it is not, and was evaluated for again. -/
example : (callAll calmO 0 [5] demoTimedDouble).state.map wrapSight =
      some ⟨[(0, 5)], some (.timed 3 1), some [(5, 0)], 1⟩ ∧
    (callAll calmO 0 [5, 5, 5, 5] demoTimedDouble).state.map wrapSight =
      some ⟨[(0, 5)], some (.timed 3 1), some [(5, 0)], 4⟩ ∧
    (callAll calmO 0 [5, 5, 5, 5, 5] demoTimedDouble).state.map wrapSight =
      some ⟨[(0, 5), (0, 5)], some (.timed 3 1), some [(5, 0)], 5⟩ := by decide +kernel

theorem callAll_reach {l : List K} : ∀ {σ σ' : Memo K V}, MReach O σ → callAll O f l σ = .ok () σ' → MReach O σ' := by
  induction l with
  | nil => intro σ σ' h he; cases he; exact h
  | cons k l ih =>
    intro σ σ' h he
    obtain ⟨v, σ1, h1, h2⟩ := bind_ok_inv he
    exact ih (.call 1 f k h h1) h2

/-- What can be seen of two calls in a row. -/
structure TwoCalls where
  type : Option Nat
  ticks : Nat
  first : Option Nat
  after : Option (Nat × Option (Kind × Option Nat) × List (Nat × Nat))
  second : Option (List (Nat × Nat))
  deriving DecidableEq

def twoCalls (k : Nat) (σ : Memo Nat Nat) : TwoCalls :=
  ⟨(σ.wrappers[0]?).map (·.type), σ.world.g.ticks, (Impl.callWrapper calmO 1 0 k σ).result,
    (Impl.callWrapper calmO 1 0 k σ).state.map
      (fun σ' => (σ'.world.g.ticks, (σ'.cacheOf 0).map (fun c => (c.kind, c.capacity)), σ'.evals)),
    (Impl.callWrapper calmO 1 0 k σ).state.bind (fun σ' => (Impl.callWrapper calmO 1 0 k σ').state.map (·.evals))⟩

/-- What C86 asks for does not hold: directly after a call with 5, and within the time to live since this call began,
a call with 5 evaluates the function again. -/
theorem C86_refuted : ¬ ∀ (O : Oracle Nat Nat) (σ σ' : Memo Nat Nat) (f k v : Nat) (x : Wrapper Nat Nat)
    (c : Cache Nat Nat) (ttl : Int) (res : Nat), Calm O → Steady O → MReach O σ → σ.wrappers[f]? = some x →
    Impl.callWrapper O 1 f k σ = .ok v σ' → σ'.cacheOf x.type = some c → c.kind = .timed ttl res → c.capacity ≠ some 0 →
    (O.clock σ'.world.g.ticks - O.clock σ.world.g.ticks).tdiv res ≤ ttl →
    ∃ v' σ'', Impl.callWrapper O 1 f k σ' = .ok v' σ'' ∧ σ''.evals = σ'.evals := by
  intro H
  obtain ⟨σ, h1, h2⟩ := Out.ok_fact (o := callAll calmO 0 [5, 5, 5, 5] demoTimedDouble) (f := twoCalls 5) (a := ())
    (y := ⟨some 0, 4, some 10, some (5, some (.timed 3 1, some 128), [(0, 5), (0, 5)]), some [(0, 5), (0, 5), (0, 5)]⟩)
    (by decide +kernel) (by decide +kernel)
  have hσ := callAll_reach demoTimedDouble_reach h1
  injection h2 with h2 h3 h4 h5 h6
  obtain ⟨σ', h7⟩ := Out.ok_of h4
  rw [h7] at h5 h6
  have h5 : some (σ'.world.g.ticks, (σ'.cacheOf 0).map (fun c => (c.kind, c.capacity)), σ'.evals) = _ := h5
  have h6 : (Impl.callWrapper calmO 1 0 5 σ').state.map (·.evals) = _ := h6
  injection h5 with h5
  injection h5 with h5 h8
  injection h8 with h8 h9
  cases hx : σ.wrappers[0]? with
  | none => rw [hx] at h2; cases h2
  | some x =>
    rw [hx] at h2
    injection h2 with h2
    have h2 : x.type = 0 := h2
    cases hc : σ'.cacheOf 0 with
    | none => rw [hc] at h8; cases h8
    | some c =>
      rw [hc] at h8
      injection h8 with h8
      injection h8 with h8 h10
      obtain ⟨v', σ'', h11, h12⟩ := H calmO σ σ' 0 5 10 x c 3 1 calmO_calm calmO_steady hσ hx h7 (by rw [h2]; exact hc) h8
        (by rw [h10]; decide) (by rw [h3, h5]; decide)
      rw [h11] at h6
      injection h6 with h6
      have h6 : σ''.evals = _ := h6
      rw [h12, h9] at h6
      exact absurd h6 (by decide)

/-! ### Where it holds -/

/-- C86 for arguments that were not stored: if `f(k)` was called in `σ`, where `k` was not stored, and returned, then as long
as at most the time to live has passed since this call began, and `k` is among the most recent distinct arguments that fit
into the cache, no call with `k` evaluates a function, whatever else was called in between. Missing: arguments that are
stored but have expired, for which it is false (`C86_refuted`, `C86_expired_evaluates`). -/
theorem C86_memoised_partial (hC : Calm O) (hS : Steady O) (h : MReach O σ) (hx : σ.wrappers[f]? = some x)
    (hnew : ∀ c, σ.cacheOf x.type = some c → ¬ Stored c k) (hr : Impl.callWrapper O (d + 1) f k σ = .ok v σ')
    (hm : MPath O σ' σ'') (hc : σ''.cacheOf x.type = some c) (hk : c.kind = .timed ttl res) (hn : c.capacity = some n)
    (hrec : ∃ a ∈ (recent (σ''.argsOf x.type)).take n, keq a k = true)
    (ht : (O.clock σ''.world.g.ticks - O.clock σ.world.g.ticks).tdiv res ≤ ttl)
    (hz : σ''.wrappers[g]? = some z) (hzx : z.type = x.type) :
    ∃ y σ3, entryFor c k = some y ∧ Impl.callWrapper O (d' + 1) g k σ'' = .ok y.info.value σ3 ∧ σ3.evals = σ''.evals := by
  have hO := hC.noListFault
  have hI := h.inv hO
  have h1 : MReach O σ' := .call _ f k h hr
  have h2 := hm.reach h1
  have hI2 := h2.inv hO
  -- the entry there is
  obtain ⟨m, hm', hkeys⟩ := C50_holds_recent hC h2 hc
  rw [hn] at hm'
  injection hm' with hm'
  subst hm'
  obtain ⟨y0, h3⟩ := (((asLru c).item_iff k).trans (hkeys.any k)).2 hrec
  obtain ⟨y, hy, _⟩ := entry_of_item h3
  have hmem : y ∈ elements c := List.mem_of_find?_eq_some hy
  have hkey : keq y.key k = true := List.find?_some (p := fun n : MapNode K V => keq n.key k) hy
  obtain ⟨i, hi, hci⟩ := hI2.index hc
  -- it was made since the call began
  have key : ∃ j, σ.world.g.ticks ≤ j ∧ y.info.time = O.clock j := by
    have hpath : CallPath O σ'.world σ''.world := hm.travels
    cases hc0 : σ.statics x.type with
    | some i0 =>
      obtain ⟨c0, h4, h5, _⟩ := hI.cacheOf hc0
      have hm1 : MPath O σ σ' := .call _ f k .refl hr
      have h6 := hm.kept hO h1 _ _ (hm1.kept hO h _ _ hc0)
      rw [hi] at h6
      injection h6 with h6
      subst h6
      have h7 : c0.kind = .timed ttl res := by
        obtain ⟨c1, calls, h8, h9⟩ := (hm1.travels.trans hpath).history hO hI.own h5
        rw [hci] at h8
        injection h8 with h8
        injection h8 with h8
        subst h8
        have := (h9.grown hO (hI.own.reachable h5)).kind
        exact this.symm.trans hk
      rcases (hm1.travels.trans hpath).stamps hO hI.own h5 hci h7 hmem with ⟨w, hw, _, e2, _⟩ | ⟨_, j, h8, _, h9⟩
      · exact absurd ⟨w, hw, by rw [e2]; exact hkey⟩ (hnew c0 h4)
      · exact ⟨j, h8, h9⟩
    | none =>
      rw [callWrapper_succ hx] at hr
      rcases static_cases hI x with ⟨i0, h4, _⟩ | ⟨_, i0, σ1, kind, m, h4, h5, h6⟩ | ⟨_, _, h4⟩
      · rw [hc0] at h4; cases h4
      · rw [bind_ok h5] at hr
        have h7 : CallPath O σ1.world σ'.world := by
          have := travels_rest (O := O) d f k x i0 σ1
          unfold Travels at this
          rw [hr] at this
          exact this
        have h8 := rest_fine hO (closed_inv O) (fun f k σ hσ hf => call_fine hO (closed_inv O) d f k σ hσ hf)
          (f := f) (k := k) h6.inv (by rw [h6.wrappers]; exact hx) h6.here
        rw [hr] at h8
        have h9 := hm.kept hO h1 _ _ (h8.2.1.statics _ _ h6.here)
        rw [hi] at h9
        injection h9 with h9
        subst h9
        obtain ⟨c0, h10, h11, _⟩ := h6.inv.cacheOf h6.here
        rw [h6.self] at h10
        injection h10 with h10
        subst h10
        have h12 : σ.world.g.ticks ≤ σ1.world.g.ticks := by
          have := travels_static (O := O) x σ
          unfold Travels at this
          rw [h5] at this
          exact this.ticks hO hI.own
        have h13 : (Impl.emptyCache kind m : Cache K V).kind = .timed ttl res := by
          obtain ⟨c1, calls, h8, h9⟩ := (h7.trans hpath).history hO h6.inv.own h11
          rw [hci] at h8
          injection h8 with h8
          injection h8 with h8
          subst h8
          have := (h9.grown hO (h6.inv.own.reachable h11)).kind
          exact this.symm.trans hk
        rcases (h7.trans hpath).stamps hO h6.inv.own h11 hci h13 hmem with ⟨w, hw, _⟩ | ⟨_, j, h14, _, h15⟩
        · exact nomatch hw
        · exact ⟨j, Nat.le_trans h12 h14, h15⟩
      · rw [bind_ub h4] at hr; cases hr
  obtain ⟨j, h4, h5⟩ := key
  have h6 : elapsed O res y σ''.world.g.ticks ≤ ttl := by
    have h7 : O.clock σ''.world.g.ticks - y.info.time ≤ O.clock σ''.world.g.ticks - O.clock σ.world.g.ticks := by
      have := hS _ _ h4
      omega
    exact Int.le_trans (tdiv_mono _ _ _ h7) ht
  obtain ⟨σ3, h7, h8⟩ := (C86_evaluates_iff (d := d') (k := k) hO h2 hz (by rw [hzx]; exact hc) hk).1 y hy h6
  exact ⟨y, σ3, hy, h7, h8⟩

/-- Non-vacuity: 5 was not stored before the first call; after calls with 5 and 6 it is among the recent arguments, two
ticks have passed, and the next call evaluates nothing. -/
example : (callAll calmO 0 [5, 6] demoTimedDouble).state.map wrapSight =
      some ⟨[(0, 6), (0, 5)], some (.timed 3 1), some [(5, 0), (6, 1)], 2⟩ ∧
    (callAll calmO 0 [5, 6] demoTimedDouble).state.map (fun σ => (recent (σ.argsOf 0)).take 128) = some [6, 5] ∧
    (callAll calmO 0 [5, 6, 5] demoTimedDouble).state.map wrapSight =
      some ⟨[(0, 6), (0, 5)], some (.timed 3 1), some [(6, 1), (5, 0)], 3⟩ := by decide +kernel

/-! ### What happens to the others -/

theorem entryFor_of_key (hO : NoListFault O) {s : St (Cache K V) K V} (hs : Reachable O s) {y : MapNode K V}
    (hy : y ∈ elements s.c) (hk : keq y.key k = true) : entryFor s.c k = some y := by
  have h1 := hs.entryFor_of_mem hO hy
  unfold entryFor at h1 ⊢
  have : (fun n : MapNode K V => keq n.key k) = (fun n => keq n.key y.key) := by
    funext n
    exact (keq_congr hk n.key).symm
  rw [this]
  exact h1

/-- C86. Once the entry for `k` has expired, every call with `k` evaluates the function, for as long as the entry is not
evicted, whatever is called in between, and no matter how recent the last call with `k` is. -/
theorem C86_expired_evaluates (hO : NoListFault O) (hS : Steady O) (h : MReach O σ) (hc : σ.cacheOf τ = some c)
    (hk : c.kind = .timed ttl res) {y y' : MapNode K V} (hy : entryFor c k = some y)
    (he : elapsed O res y σ.world.g.ticks > ttl) (hm : MPath O σ σ') (hc' : σ'.cacheOf τ = some c')
    (hy' : y' ∈ elements c') (ha : y'.addr = y.addr) (hz : σ'.wrappers[g]? = some z) (hzt : z.type = τ)
    (hr : (∃ v, Impl.callWrapper O (d + 1) g k σ' = .ok v σ'') ∨ ∃ e, Impl.callWrapper O (d + 1) g k σ' = .throw e σ'') :
    (g, k) :: σ'.evals <:+ σ''.evals := by
  have hI := h.inv hO
  have h1 := hm.reach h
  have hI1 := h1.inv hO
  obtain ⟨i, hi, hci⟩ := hI.index hc
  obtain ⟨i', hi', hci'⟩ := hI1.index hc'
  have h2 := hm.kept hO h _ _ hi
  rw [hi'] at h2
  injection h2 with h2
  subst h2
  obtain ⟨c1, calls, h3, h4⟩ := hm.travels.history hO hI.own hci
  rw [hci'] at h3
  injection h3 with h3
  injection h3 with h3
  subst h3
  have hreach := hI.own.reachable hci
  obtain ⟨h5, h6⟩ := h4.same_entry hO hreach (List.mem_of_find?_eq_some hy) hy' ha
  have hg := h4.grown hO hreach
  have hkey : keq y.key k = true := List.find?_some (p := fun n : MapNode K V => keq n.key k) hy
  have h7 : entryFor c' k = some y' := entryFor_of_key hO (hI1.own.reachable hci') hy' (by rw [h5]; exact hkey)
  have h8 : elapsed O res y' σ'.world.g.ticks > ttl := by
    have e1 : elapsed O res y' σ'.world.g.ticks = elapsed O res y σ'.world.g.ticks := by unfold elapsed; rw [h6]
    have e2 : elapsed O res y σ.world.g.ticks ≤ elapsed O res y σ'.world.g.ticks := elapsed_mono hS hg.ticks
    omega
  refine (C86_evaluates_iff hO h1 hz (by rw [hzt]; exact hc') (hg.kind.trans hk)).2
    (fun w (hw : entryFor c' k = some w) => ?_) σ'' hr
  rw [h7] at hw
  injection hw with hw
  subst hw
  exact h8

/-- C86. In particular, if the function makes no nested calls, `m` calls with such an argument in a row evaluate it `m`
times. -/
theorem C86_expired_repeats (hC : Calm O) (hS : Steady O) (h : MReach O σ) (hx : σ.wrappers[f]? = some x)
    (hc : σ.cacheOf x.type = some c) (hk : c.kind = .timed ttl res) {y : MapNode K V} (hy : entryFor c k = some y)
    (he : elapsed O res y σ.world.g.ticks > ttl) (hl : ∀ e, ∃ v, x.fn e k = .ret v) (m : Nat) :
    ∃ σ', callAll O f (List.replicate m k) σ = .ok () σ' ∧ σ'.evals = List.replicate m (f, k) ++ σ.evals := by
  have main : ∀ (m : Nat) (σ : Memo K V) (c : Cache K V) (y : MapNode K V), MInv O σ → σ.wrappers[f]? = some x →
      σ.cacheOf x.type = some c → c.kind = .timed ttl res → entryFor c k = some y →
      elapsed O res y σ.world.g.ticks > ttl →
      ∃ σ', callAll O f (List.replicate m k) σ = .ok () σ' ∧ σ'.evals = List.replicate m (f, k) ++ σ.evals := by
    intro m
    induction m with
    | zero => exact fun σ c y _ _ _ _ _ _ => ⟨σ, rfl, rfl⟩
    | succ m ih =>
      intro σ c y hI hx hc hk hy he
      obtain ⟨v, hv⟩ := hl σ.evals
      obtain ⟨σ1, c1, y1, h1, h2, h3, h4, h5, h6, h7, h8, h9, h10⟩ := leaf_call hC hI (d := 0) hx hc hk hy he hv
      have h11 : elapsed O res y1 σ1.world.g.ticks > ttl := by
        have e1 : elapsed O res y1 σ1.world.g.ticks = elapsed O res y σ1.world.g.ticks := by unfold elapsed; rw [h9]
        have e2 : elapsed O res y σ.world.g.ticks ≤ elapsed O res y σ1.world.g.ticks := elapsed_mono hS h10
        omega
      obtain ⟨σ2, h12, h13⟩ := ih σ1 c1 y1 h3 (by rw [h4]; exact hx) h5 (h6.trans hk) h7 h11
      refine ⟨σ2, ?_, ?_⟩
      · show (Impl.callWrapper O 1 f k >>= fun _ => callAll O f (List.replicate m k)) σ = _
        rw [bind_ok h1]
        exact h12
      · rw [h13, h2, List.replicate_succ']
        simp
  exact main m σ c y (h.inv hC.noListFault) hx hc hk hy he

/-- Non-vacuity: the entry for 5 is 4 old after four calls, and the next three calls with 5 evaluate the function. -/
example : (callAll calmO 0 [5, 5, 5, 5] demoTimedDouble).state.map (fun σ => (σ.world.g.ticks, σ.evals.length)) =
      some (4, 1) ∧
    (callAll calmO 0 [5, 5, 5, 5, 5, 5, 5] demoTimedDouble).state.map (fun σ => (σ.world.g.ticks, σ.evals.length)) =
      some (7, 4) := by decide +kernel

/-- The same with capacity 1. -/
def demoTimedOne : Memo Nat Nat :=
  { (Impl.initMemo : Memo Nat Nat) with mem := [some 3, some 1], wrappers := [⟨0, doubleBody, .timedSized 1 0 1⟩] }

/-- It takes an eviction to store 5 with a new time: after the two evaluations for the expired entry, a call with 6 evicts it,
the next call with 5 stores it again, and then calls with 5 are hits once more. -/
example : (callAll calmO 0 [5, 5, 5, 5, 5, 5] demoTimedOne).state.map wrapSight =
      some ⟨[(0, 5), (0, 5), (0, 5)], some (.timed 3 1), some [(5, 0)], 6⟩ ∧
    (callAll calmO 0 [5, 5, 5, 5, 5, 5, 6, 5, 5, 5] demoTimedOne).state.map wrapSight =
      some ⟨[(0, 5), (0, 6), (0, 5), (0, 5), (0, 5)], some (.timed 3 1), some [(5, 7)], 10⟩ := by decide +kernel

end LRU
