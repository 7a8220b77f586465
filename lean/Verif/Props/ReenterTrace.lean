import Verif.Proofs.ReenterLog
import Verif.Props.Reenter
/-!
# What callbacks that use the cache are told and do (C65)

Callbacks are called for every access, in order, whatever the ones before them did to the cache; each of them makes all its
calls, also after calls that throw; and these calls have the effect they have outside of callbacks.
-/

set_option autoImplicit false
set_option linter.unusedSectionVars false

namespace LRU

variable {K V : Type} [KeyEqual K] [DecidableEq K] [DecidableEq V] {O : Oracle K V} {F : Event K V → Script K V}
variable {s s' : St (Cache K V) K V} {k : K} {op : Op K V}

/-- C65. A miss with callbacks that call anything but `contains`, `find`, `lookup`: the miss callbacks are told in the
order in which they were registered, then the access callbacks, those included that miss callbacks have registered
meanwhile. Each of them does what it does when told so. Calls made by callbacks have the effect that they have outside of
callbacks, and nothing else changes the cache. -/
theorem C65_miss_account (hF : NoAccesses F) {res : Except Err (Res K V)} (hm : Missed k op res)
    (hk : op = .contains k → s.c.kind = .basic) (hp : RPerforms O F op s res s') :
    ∃ (missed accessed : Account K V) (s1 : St (Cache K V) K V),
      missed.told = s.c.obs.missCbs.map (fun cb => .miss cb k) ∧
      accessed.told = s1.c.obs.accCbs.map (fun cb => .access cb k false) ∧
      Account.True F (missed ++ accessed) ∧ Via O s missed.calls s1 ∧ Via O s1 accessed.calls s' ∧
      s'.g.log = s.g.log ++ missed.told ++ accessed.told :=
  missed_told hF hm hk hp

/-- C65. A hit with such callbacks: every hit callback is told the value the entry has when it is called, then the access
callbacks are told. After the callbacks have run, the entry is moved to the end of the list, unless the call is a
`contains` or `lookup` of the last accessed key. -/
theorem C65_hit_account (hO : NoListFault O) (h : RReachable O F s) (hF : NoAccesses F) {r : Res K V}
    (hop : op.Accesses k) (hf : found (.ok r) = true) (hp : RReturns O F op s r s') :
    ∃ (x : MapNode K V) (hit accessed : Account K V) (s1 s2 : St (Cache K V) K V), entryFor s.c k = some x ∧
      hit.length = s.c.obs.hitCbs.length ∧
      (∀ i cb, s.c.obs.hitCbs[i]? = some cb → ∃ si y, Via O s (Account.calls (hit.take i)) si ∧ y ∈ si.c.map ∧
        y.addr = x.addr ∧ hit.told[i]? = some (.hit cb k y.info.value)) ∧
      accessed.told = s1.c.obs.accCbs.map (fun cb => .access cb k true) ∧
      Account.True F (hit ++ accessed) ∧ Via O s hit.calls s1 ∧ Via O s1 accessed.calls s2 ∧
      s'.g.log = s.g.log ++ hit.told ++ accessed.told ∧
      (op = .find k ∨ s.c.last ≠ some x.addr → ∃ y ∈ elements s2.c, y.addr = x.addr ∧
        elements s'.c = (elements s2.c).filter (fun z => z.addr != x.addr) ++ [y]) ∧
      (op ≠ .find k → s.c.last = some x.addr → s'.c = s2.c) := by
  obtain ⟨x, s2, h1, ⟨t1, t2, s1, a, b, c, d, e, f, g⟩, h3, h4, h5⟩ := found_told hO h hF hop hf hp
  exact ⟨x, t1, t2, s1, s2, h1, a, b, c, d, e, f, by rw [h3, g], h4, h5⟩

/-- C65. Whatever the callbacks do, even if they throw: events are only added to the log, and the first one added by an
access is that of the first callback that is due (none if none is), before anything that this callback does. -/
theorem C65_first_event (hO : NoListFault O) (h : RReachable O F s) {res : Except Err (Res K V)}
    (hp : RPerforms O F op s res s') :
    s.g.log <+: s'.g.log ∧
    (s.c.kind = .basic → op.Accesses k → ∃ evs, s'.g.log = s.g.log ++ evs ∧
      evs.head? = (dueCallbacks s.c.obs k (stored? s.c k)).head?) := by
  cases res with
  | ok r =>
    obtain ⟨d, hd⟩ := hp
    refine ⟨?_, fun hk hop => ?_⟩
    · have := stepR_adds (O := O) (F := F) d [] op s
      rw [hd] at this
      exact this
    · have := access_opens (d := d) hO h hk hop
      rw [hd] at this
      exact this
  | error e =>
    obtain ⟨d, hd⟩ := hp
    refine ⟨?_, fun hk hop => ?_⟩
    · have := stepR_adds (O := O) (F := F) d [] op s
      rw [hd] at this
      exact this
    · have := access_opens (d := d) hO h hk hop
      rw [hd] at this
      exact this

/-- C65. No exception of a call made by a callback gets out of the callback: `contains` and `find` throw nothing but what
the callbacks themselves throw, and `lookup` besides that only that the key was not found or has expired. -/
theorem C65_exceptions (hop : op.Accesses k) {e : Err} (hp : RThrows O F op s e s') :
    e = .user ∨ op = .lookup k ∧ (e = .keyNotFound ∨ e = .keyExpired) := by
  obtain ⟨d, hd⟩ := hp
  by_cases hu : e = .user
  · exact .inl hu
  · refine .inr ?_
    haveI : NotUser e := ⟨hu⟩
    by_cases hl : op = .lookup k ∧ (e = .keyNotFound ∨ e = .keyExpired)
    · exact hl
    · refine absurd hd (access_finds hop (fun h => ?_) _ _)
      exact ⟨fun h' => hl ⟨h, .inl h'⟩, fun h' => hl ⟨h, .inr h'⟩⟩

/-- C65. `lookup` that throws `key_not_found`, on a plain cache: the key was not stored when `lookup` was called. -/
theorem C65_lookup_not_found (hO : NoListFault O) (h : RReachable O F s) (hk : s.c.kind = .basic)
    (hp : RThrows O F (.lookup k) s .keyNotFound s') : ¬ Stored s.c k := by
  obtain ⟨d, hd⟩ := lookupR_not_found hp
  obtain ⟨t, hr, ht⟩ := h.rel hO
  rw [hr.not_stored]
  exact (findR_missed hr hk hd).1

/-- C65. Every access whose first callback begins by adding to or clearing the container it is in is undefined, whether
it is a hit or a miss. -/
theorem C65_own_container_undefined (hO : NoListFault O) (h : RReachable O F s) (hk : s.c.kind = .basic)
    (hop : op.Accesses k) {e : Event K V} (he : (dueCallbacks s.c.obs k (stored? s.c k)).head? = some e) {op' : Op K V}
    {next : Except Err (Res K V) → Script K V} (hF : F e = .call op' next) (hr : op'.registers e.container = true) :
    RUndefined O F op s :=
  ⟨2, access_registers hO h hk hop he hF hr⟩

/-! ### The hypotheses can be met -/

/-- A miss callback that clears the miss callbacks. -/
example : (dueCallbacks (demoState calmO demoMiss 0).c.obs 8 (stored? (demoState calmO demoMiss 0).c 8)).head? =
      some (.miss 0 8) ∧
    (Op.clearMissCallbacks : Op Nat Nat).registers (Event.miss 0 8 : Event Nat Nat).container = true :=
  ⟨by decide +kernel, rfl⟩

/-- The miss callback erases 2, makes a call that throws and registers an access callback. -/
def busyScripts : Event Nat Nat → Script Nat Nat
  | .miss .. => .call (.erase 2) fun _ => .call (.eraseU none) fun _ => .one (.addAccessCallback 7)
  | .access .. => .one (.insert 9 90)
  | .hit .. => .one (.emplace 3 33)

theorem busyScripts_noAccesses : NoAccesses busyScripts := by
  rintro (_ | _ | _)
  · exact ⟨rfl, fun _ => trivial⟩
  · exact ⟨rfl, fun _ => ⟨rfl, fun _ => ⟨rfl, fun _ => trivial⟩⟩⟩
  · exact ⟨rfl, fun _ => trivial⟩

/-- A miss: the access callback is registered by the miss callback and called for the same miss. -/
example : ((Impl.stepR calmO busyScripts 5 [] (.find 8) (demoState calmO demoMiss 0)).state.map
      fun s' => (entries s'.c, s'.c.obs.accCbs, s'.g.log)) =
    some ([(3, 30), (1, 10), (9, 90)], [7], [.miss 0 8, .access 7 8 false]) := by decide +kernel

/-- What `C65_exceptions` is about: the callback of the next example makes a call that throws, `lookup` reports the miss. -/
example : ((Impl.step calmO (.eraseU none) (demoState calmO demoMiss 0)).result).isNone = true ∧
    ((Impl.stepR calmO busyScripts 5 [] (.lookup 8) (demoState calmO demoMiss 0)).state.map fun s' => keys s'.c) =
      some [3, 1, 9] := ⟨by decide +kernel, by decide +kernel⟩

/-- A hit: two hit callbacks, the second of which is told the value that the first one has stored. -/
example : ((Impl.stepR calmO busyScripts 5 [] (.find 3)
      (demoState calmO (demoHit ++ [.op 0 (.addHitCallback 1)]) 0)).state.map
      fun s' => (entries s'.c, s'.g.log)) =
    some ([(2, 20), (1, 10), (3, 33)], [.hit 0 3 30, .hit 1 3 33]) := by decide +kernel

end LRU
