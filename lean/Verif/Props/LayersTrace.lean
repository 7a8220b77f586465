import Verif.Proofs.LayersTrace
import Verif.Props.Layers
/-!
# What callbacks that use any caches are told and do (C89)

For all callbacks: those that access their own cache are included, and so are those that make calls which end up in
themselves, as long as the calls come to an end.
-/

set_option autoImplicit false
set_option linter.unusedSectionVars false

namespace LRU

variable {K V : Type} [KeyEqual K] [DecidableEq K] [DecidableEq V] {O : Oracle K V} {F : Nat → Event K V → WScript K V}
variable {w w' : World K V} {own : Nat → Bool} {i : Nat} {c : Cache K V} {k : K} {op : Op K V}

/-- C89. A miss, whatever callbacks do to whichever caches: the miss is counted, then the miss callbacks are told in the
order in which they were registered, then the access callbacks that are registered by then. Each of them does what it does
when told so; the calls it makes have the effect of such calls outside of callbacks; and nothing else changes any cache, any
statistics or the log. -/
theorem C89_miss_account {res : Except Err (Res K V)} (hm : Missed k op res) (hc : w.caches[i]? = some (some c))
    (hk : op = .contains k → c.kind = .basic) (hp : LPerforms O F i op w res w') :
    ∃ (missed accessed : List (Event K V × WCalls K V)) (w0 w1 : World K V) (c1 : Cache K V),
      OneCounted i k false w w0 ∧ Briefed O F i w0 missed w1 ∧ w1.caches[i]? = some (some c1) ∧ Briefed O F i w1 accessed w' ∧
      missed.map (·.1) = c.obs.missCbs.map (fun cb => .miss cb k) ∧
      accessed.map (·.1) = c1.obs.accCbs.map (fun cb => .access cb k false) := by
  have one : ∀ d, w.caches[i]? = some (some d) → d = c := by
    intro d hd
    rw [hc] at hd
    injection hd with hd
    injection hd with hd
    exact hd.symm
  obtain ⟨c', c1, t1, t2, w0, w1, h1, h2, h3, h4, h5, h6, h7⟩ :=
    missed_heard hm (fun e d hd => by rw [one d hd]; exact hk e) hp
  rw [one c' h1] at h4
  exact ⟨t1, t2, w0, w1, c1, h2, h3, h5, h6, h4, h7⟩

/-- C89. A hit, whatever callbacks do: the hit is counted, then every hit callback is told the value that the entry has when
it is called, then the access callbacks that are registered by then are told. Then the entry is made the most recently used
one of its cache, unless the call is a `contains` or `lookup` of the last accessed key. -/
theorem C89_hit_account (hO : NoListFault O) (h : LProg O F w own) (hi : own i = true) (hc : w.caches[i]? = some (some c))
    {r : Res K V} (hop : op.Accesses k) (hf : found (.ok r) = true) (hp : LPerforms O F i op w (.ok r) w') :
    ∃ (x : MapNode K V) (hit accessed : List (Event K V × WCalls K V)) (w0 w1 w2 : World K V) (c1 : Cache K V),
      entryFor c k = some x ∧ OneCounted i k true w w0 ∧ Briefed O F i w0 hit w1 ∧ w1.caches[i]? = some (some c1) ∧
      Briefed O F i w1 accessed w2 ∧ hit.length = c.obs.hitCbs.length ∧
      (∀ n cb, c.obs.hitCbs[n]? = some cb → ∃ (wn : World K V) (j : Nat) (cj : Cache K V) (y : MapNode K V),
        Briefed O F i w0 (hit.take n) wn ∧ wn.caches[j]? = some (some cj) ∧ y ∈ cj.map ∧ y.addr = x.addr ∧
        (hit.map (·.1))[n]? = some (.hit cb k y.info.value)) ∧
      accessed.map (·.1) = c1.obs.accCbs.map (fun cb => .access cb k true) ∧
      (op = .find k ∨ c.last ≠ some x.addr → ∃ c2 c' y, w2.caches[i]? = some (some c2) ∧
        w'.caches = w2.caches.set i (some c') ∧ y ∈ elements c2 ∧ y.addr = x.addr ∧
        elements c' = (elements c2).filter (fun z => z.addr != x.addr) ++ [y] ∧
        w'.g.log = w2.g.log ∧ w'.g.stats = w2.g.stats) ∧
      (op ≠ .find k → c.last = some x.addr → Passes w2 w') := by
  obtain ⟨x, w2, h1, ⟨c', c1, t1, t2, w0, w1, h2, h3, h4, h5, h6, h7, h8, h9⟩, h10, h11⟩ :=
    found_heard hO (h.inv hO) hi hc hop hf hp
  obtain rfl : c' = c := by
    rw [hc] at h2
    injection h2 with h2
    injection h2 with h2
    exact h2.symm
  exact ⟨x, t1, t2, w0, w1, w2, c1, h1, h3, h4, h7, h8, h5, h6, h9, h10, h11⟩

/-- C89. No exception of a call made by a callback gets out of the callback, whichever cache the call is on: `contains` and
`find` throw nothing but what callbacks of their own cache throw, and `lookup` besides that only that the key was not found
or has expired. -/
theorem C89_exceptions (hop : op.Accesses k) {e : Err} (hp : LPerforms O F i op w (.error e) w') :
    e = .user ∨ op = .lookup k ∧ (e = .keyNotFound ∨ e = .keyExpired) := by
  obtain ⟨d, hd⟩ := hp
  by_cases hu : e = .user
  · exact .inl hu
  · refine .inr ?_
    haveI : NotUser e := ⟨hu⟩
    by_cases hl : op = .lookup k ∧ (e = .keyNotFound ∨ e = .keyExpired)
    · exact hl
    · refine absurd hd (access_findsW hop (fun h => ?_) _ _)
      exact ⟨fun h' => hl ⟨h, .inl h'⟩, fun h' => hl ⟨h, .inr h'⟩⟩

/-! ### The hypotheses can be met -/

/-- The miss in the small cache is told to its callback, which looks the key up in the large one, whose callback is told of
a hit; it stores the key in the large cache again with another value. -/
def storeAgain : Nat → Event Nat Nat → WScript Nat Nat
  | 0, .miss _ k => .call 1 (.lookup k) fun r => match r with
    | .ok (.ref _ v) => .call 0 (.insert k v) fun _ => .done
    | _ => .done
  | 1, .hit _ k v => .call 1 (.insert k (v + 1)) fun _ => .call 1 (.lookup 5) fun _ => .done
  | _, _ => .done

def demoStoreAgain : List (WOp Nat Nat) :=
  demoTiers ++ [.op 1 (.addHitCallback 1), .op 1 (.addHitCallback 2), .op 0 (.addAccessCallback 3)]

/-- A miss in cache 0, with a hit in cache 1 nested in it, both of whose callbacks are told the value of the moment. The
lookup of 5 throws inside of the callbacks and is not seen outside. -/
example : (Impl.stepL calmO storeAgain 9 [] 0 (.find 8) (demoWorld calmO demoStoreAgain)).shows =
      some [some [(1, 10), (8, 82)], some [(7, 70), (9, 90), (8, 82)]] ∧
    ((Impl.stepL calmO storeAgain 9 [] 0 (.find 8) (demoWorld calmO demoStoreAgain)).state.map fun w => w.g.log) =
      some [.miss 0 8, .hit 1 8 80, .hit 2 8 81, .access 3 8 false] :=
  ⟨by decide +kernel, by decide +kernel⟩

/-- A hit in cache 1 for `C89_hit_account`. -/
example : (Impl.stepL calmO storeAgain 9 [] 1 (.find 8) (demoWorld calmO demoStoreAgain)).shows =
      some [some [(2, 20), (1, 10)], some [(7, 70), (9, 90), (8, 82)]] := by decide +kernel

example : LProg calmO storeAgain (demoWorld calmO demoStoreAgain) (fun _ => true) :=
  (demoWorld_prog (by decide +kernel) rfl).layers

end LRU
