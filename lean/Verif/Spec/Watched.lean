import Verif.Spec.Many
import Verif.Spec.Trace
/-!
# Programs with several watched LRU maps

A program creates, uses, swaps, moves, compares and destroys several LRU maps, has them report to statistics objects, registers
callbacks and reads the statistics. `Gallery.hears` computes everything the program learns and everything its callbacks are
told. A statistics object is a journal of what happened to it; what it says is counted from the journal. `World.hears` are the
answers of the caches, of their statistics objects and what their callbacks are told.
-/

set_option autoImplicit false

namespace LRU

variable {K V : Type}

/-- Questions to a statistics object. -/
inductive Query (K : Type) where
  | accesses | hits | misses | hitRate | missRate
  /-- `stats_for(key)` -/
  | recordOf (k : K)
  | isMonitoring (k : K) | monitoredKeys | isMonitoringKeys

/-- A step of a program: a step that uses caches or statistics objects, or a question to a statistics object. -/
inductive Deed (K V : Type) where
  | use (op : WOp K V)
  | ask (id : Nat) (q : Query K)

/-- What a program learns from a step. -/
inductive News (K V : Type) where
  | says (a : Ans K V)
  /-- a pointer to a statistics object, which may be null -/
  | object (id : Option Nat)
  /-- the record of a key -/
  | record (r : KeyStats)
  /-- a rate; `none`: division by zero -/
  | rate (r : Option Rat)
  /-- `NotMonitoring` was thrown -/
  | notMonitoring
  /-- `UnmonitoredKey` was thrown -/
  | unmonitored
  /-- `KeyExpired` was thrown -/
  | expired
  /-- the step has undefined behaviour -/
  | undefined
  /-- any other exception, a number that wraps around, or a call that never returns -/
  | other
  deriving DecidableEq

/-- The calls that concern statistics objects and callbacks. -/
def Op.observes : Op K V → Bool
  | .monitor _ | .monitorNew _ | .stopMonitoring | .isMonitoring | .stats | .sharedStats => true
  | .addHitCallback _ | .addMissCallback _ | .addAccessCallback _ => true
  | .clearHitCallbacks | .clearMissCallbacks | .clearAccessCallbacks | .clearAllCallbacks => true
  | _ => false

/-- The steps of programs that use several plain caches without copying them, their statistics objects and callbacks. -/
def Deed.plain : Deed K V → Bool
  | .use (.op _ o) => o.byKey || o.observes
  | .use (.newStats _) | .use (.stat _ _) => true
  | .use op => op.plain
  | .ask _ _ => true

/-- The statistics object a step mentions by number. -/
def Deed.mentions : Deed K V → Option Nat
  | .use (.op _ (.monitor id)) => id
  | .use (.stat id _) => some id
  | .ask id _ => some id
  | _ => none

/-- How many statistics objects a step makes. -/
def Deed.makes : Deed K V → Nat
  | .use (.op _ (.monitorNew _)) | .use (.newStats _) => 1
  | _ => 0

/-- The program is of the kind considered and mentions no statistics object before it exists; there are `n` at its start. -/
def wellNamed : Nat → List (Deed K V) → Bool
  | _, [] => true
  | n, d :: ds => d.plain && d.mentions.all (decide <| · < n) && wellNamed (n + d.makes) ds

/-! ### Journals -/

section journal

variable [DecidableEq K]

/-- Something that happened to a statistics object. -/
inductive Note (K : Type) where
  | access (k : K) (hit : Bool)
  | watch (k : K) | unwatch (k : K) | unwatchAll | reset (k : K)

/-- All that happened to a statistics object, newest first. -/
abbrev Journal (K : Type) := List (Note K)

/-- The verdicts of all accesses. -/
def Journal.verdicts (j : Journal K) : List Bool :=
  j.filterMap fun
    | .access _ hit => some hit
    | _ => none

/-- Hits and misses of a key since it is being watched or was reset; `none`: it is not watched. -/
def Journal.record (k : K) : Journal K → Option KeyStats
  | [] => none
  | .access x hit :: j => if x = k then (Journal.record k j).map (·.plus hit) else Journal.record k j
  | .watch x :: j => if x = k then some ((Journal.record k j).getD {}) else Journal.record k j
  | .unwatch x :: j => if x = k then none else Journal.record k j
  | .unwatchAll :: _ => none
  | .reset x :: j => if x = k then (Journal.record k j).map (fun _ => {}) else Journal.record k j

/-- Keys that have ever been watched, each once. -/
def Journal.everWatched : Journal K → List K
  | [] => []
  | .watch x :: j => if x ∈ Journal.everWatched j then Journal.everWatched j else x :: Journal.everWatched j
  | _ :: j => Journal.everWatched j

/-- The keys that are watched. -/
def Journal.watched (j : Journal K) : List K := j.everWatched.filter fun k => (j.record k).isSome

/-- What a statistics object answers. -/
def Journal.answer (j : Journal K) : Query K → News K V
  | .accesses => .says (.nat j.verdicts.length)
  | .hits => .says (.nat (j.verdicts.count true))
  | .misses => .says (.nat (j.verdicts.count false))
  | .hitRate => .rate (if j.verdicts = [] then none else some ((j.verdicts.count true : Rat) / (j.verdicts.length : Rat)))
  | .missRate => .rate (if j.verdicts = [] then none else some ((j.verdicts.count false : Rat) / (j.verdicts.length : Rat)))
  | .recordOf k => match j.record k with
    | some r => .record r
    | none => .unmonitored
  | .isMonitoring k => .says (.bool (j.record k).isSome)
  | .monitoredKeys => .says (.nat j.watched.length)
  | .isMonitoringKeys => .says (.bool (!j.watched.isEmpty))

end journal

/-! ### The textbook -/

section textbook

variable [KeyEqual K] [DecidableEq K] [DecidableEq V]

/-- An LRU map, the statistics object it reports to and the callbacks registered for hits, misses and accesses. -/
structure Watched (K V : Type) where
  lru : Lru K V
  tally : Option Nat
  onHit : List Nat
  onMiss : List Nat
  onAccess : List Nat

/-- LRU maps by number (`none`: destroyed) and statistics objects by number. -/
structure Gallery (K V : Type) where
  maps : List (Option (Watched K V))
  journals : List (Journal K)

/-- The map with that number, if it exists. -/
def Gallery.map (g : Gallery K V) (i : Nat) : Option (Watched K V) :=
  match g.maps[i]? with
  | some (some m) => some m
  | _ => none

/-- Another map at that number. -/
def Gallery.put (g : Gallery K V) (i : Nat) (m : Watched K V) : Gallery K V := { g with maps := g.maps.set i (some m) }

/-- The statistics object notes something. -/
def Gallery.note (g : Gallery K V) (id : Nat) (n : Note K) : Gallery K V :=
  { g with journals := g.journals.modify id (n :: ·) }

/-- A new statistics object. -/
def Gallery.open (g : Gallery K V) (ks : List K) : Gallery K V :=
  { g with journals := g.journals ++ [ks.reverse.map .watch] }

/-- What the callbacks are told about an access to a key: first those for hits, or those for misses, then those for accesses;
each kind in the order of registration. -/
def Watched.announces (m : Watched K V) (k : K) : List (Event K V) :=
  match m.lru.item k with
  | some x => m.onHit.map (fun cb => .hit cb k x.2) ++ m.onAccess.map (fun cb => .access cb k true)
  | none => m.onMiss.map (fun cb => .miss cb k) ++ m.onAccess.map (fun cb => .access cb k false)

/-- A call that concerns keys and values: the answer, what the callbacks are told, and all maps afterwards. -/
def Gallery.call (g : Gallery K V) (i : Nat) (m : Watched K V) (o : Op K V) : News K V × List (Event K V) × Gallery K V :=
  let g' := g.put i { m with lru := (m.lru.reply o).2 }
  match o.accessed with
  | none => (.says (m.lru.reply o).1, [], g')
  | some k => (.says (m.lru.reply o).1, m.announces k,
      match m.tally with
      | some id => g'.note id (.access k (m.lru.item k).isSome)
      | none => g')

/-- A call that concerns statistics objects and callbacks. -/
def Gallery.observe (g : Gallery K V) (i : Nat) (m : Watched K V) : Op K V → News K V × Gallery K V
  | .monitor id => (.says .unit, g.put i { m with tally := id })
  | .monitorNew ks => (.object (some g.journals.length), (g.put i { m with tally := some g.journals.length }).open ks)
  | .stopMonitoring => (.says .unit, g.put i { m with tally := none })
  | .isMonitoring => (.says (.bool m.tally.isSome), g)
  | .stats => (match m.tally with | some id => .object (some id) | none => .notMonitoring, g)
  | .sharedStats => (.object m.tally, g)
  | .addHitCallback cb => (.says .unit, g.put i { m with onHit := m.onHit ++ [cb] })
  | .addMissCallback cb => (.says .unit, g.put i { m with onMiss := m.onMiss ++ [cb] })
  | .addAccessCallback cb => (.says .unit, g.put i { m with onAccess := m.onAccess ++ [cb] })
  | .clearHitCallbacks => (.says .unit, g.put i { m with onHit := [] })
  | .clearMissCallbacks => (.says .unit, g.put i { m with onMiss := [] })
  | .clearAccessCallbacks => (.says .unit, g.put i { m with onAccess := [] })
  | .clearAllCallbacks => (.says .unit, g.put i { m with onHit := [], onMiss := [], onAccess := [] })
  | _ => (.other, g)

/-- A call on a statistics object. -/
def Gallery.instruct (g : Gallery K V) (id : Nat) (j : Journal K) : SOp K → News K V × Gallery K V
  | .monitor k => (.says .unit, g.note id (.watch k))
  | .unmonitor k => if (j.record k).isSome then (.says .unit, g.note id (.unwatch k)) else (.unmonitored, g)
  | .unmonitorAll => (.says .unit, g.note id .unwatchAll)
  | .resetKey k => if (j.record k).isSome then (.says .unit, g.note id (.reset k)) else (.unmonitored, g)

/-- What a program learns from a step, what its callbacks are told, and the maps afterwards; `none`: the step has no meaning.
`swap` and the moves exchange or move the maps; statistics objects and callbacks stay where they are, and a map constructed by
a move has none. -/
def Gallery.reply (g : Gallery K V) : Deed K V → Option (News K V × List (Event K V) × Gallery K V)
  | .use (.create _ c) => some (.says .unit, [],
      { g with maps := g.maps ++ [some ⟨((⟨some c.promised, []⟩ : Lru K V).storeAll c.pairs).2, none, [], [], []⟩] })
  | .use (.destroy i) => (g.map i).map fun _ => (.says .unit, [], { g with maps := g.maps.set i none })
  | .use (.op i o) => (g.map i).bind fun m =>
    if o.observes then some ((g.observe i m o).1, [], (g.observe i m o).2)
    else if m.lru.capacity = none ∧ o.needsCapacity = true then none
    else some (g.call i m o)
  | .use (.swap i j) | .use (.swapBase i j) | .use (.moveAssign i j) => (g.map i).bind fun a => (g.map j).map fun b =>
      (.says .unit, [], (g.put i { a with lru := b.lru }).put j { b with lru := a.lru })
  | .use (.moveCtor i) => (g.map i).map fun a => (.says .unit, [],
      { g with maps := g.maps.set i (some { a with lru := ⟨none, []⟩ }) ++ [some ⟨a.lru, none, [], [], []⟩] })
  | .use (.eq i j) => (g.map i).bind fun a => (g.map j).map fun b =>
      (.says (.bool (decide (a.lru.items = b.lru.items))), [], g)
  | .use (.newStats ks) => some (.object (some g.journals.length), [], g.open ks)
  | .use (.stat id o) => g.journals[id]?.map fun j => ((g.instruct id j o).1, [], (g.instruct id j o).2)
  | .ask id q => g.journals[id]?.map fun j => (j.answer q, [], g)
  | _ => none

/-- Everything a program learns and everything its callbacks are told, step by step, up to its end. -/
def Gallery.hears (g : Gallery K V) : List (Deed K V) → List (News K V × List (Event K V))
  | [] => []
  | d :: ds =>
    match g.reply d with
    | none => [(.undefined, [])]
    | some (.says .terminated, _) => [(.says .terminated, [])]
    | some (a, evs, g') => (a, evs) :: Gallery.hears g' ds

end textbook

/-! ### The caches -/

section caches

variable [DecidableEq K]

/-- What a statistics object says (`statistics.hpp`). -/
def Statistics.tell (st : Statistics K) : Query K → News K V
  | .accesses => .says (.nat st.totalAccesses)
  | .hits => .says (.nat st.totalHits)
  | .misses => match st.totalMisses with
    | some n => .says (.nat n)
    | none => .other
  | .hitRate => .rate st.hitRate
  | .missRate => .rate st.missRate
  | .recordOf k => match st.statsFor k with
    | .ok r => .record r
    | .error .unmonitoredKey => .unmonitored
    | .error _ => .other
  | .isMonitoring k => .says (.bool (st.isMonitoring k))
  | .monitoredKeys => .says (.nat st.numberOfMonitoredKeys)
  | .isMonitoringKeys => .says (.bool st.isMonitoringKeys)

/-- What a program learns from the outcome of a step. -/
def WOp.news (op : WOp K V) (out : Out (World K V) (Res K V)) : News K V :=
  match op, out with
  | .op _ .sharedStats, .ok (.optNat id) _ => .object id
  | .op _ .stats, .ok (.nat id) _ => .object (some id)
  | .op _ (.monitorNew _), .ok (.nat id) _ => .object (some id)
  | .newStats _, .ok (.nat id) _ => .object (some id)
  | _, .throw .notMonitoring _ => .notMonitoring
  | _, .throw .unmonitoredKey _ => .unmonitored
  | _, .throw .keyExpired _ => .expired
  | _, _ => match op.told out with
    | .says a => .says a
    | .undefined => .undefined
    | .other => .other

/-- Everything a program learns and everything its callbacks are told, step by step, up to its end. Exceptions are caught. -/
def World.hears [KeyEqual K] [DecidableEq V] (O : Oracle K V) : World K V → List (Deed K V) →
    List (News K V × List (Event K V))
  | _, [] => []
  | w, .ask id q :: ds => ((w.g.stats id).tell q, []) :: World.hears O w ds
  | w, .use op :: ds =>
    match Impl.wstep O op w with
    | .ok r w' => (op.news (.ok r w'), w'.g.log.drop w.g.log.length) :: World.hears O w' ds
    | .throw e w' => (op.news (.throw e w'), w'.g.log.drop w.g.log.length) :: World.hears O w' ds
    | out => [(op.news out, [])]

end caches

end LRU
