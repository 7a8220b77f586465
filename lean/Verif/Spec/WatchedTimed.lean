import Verif.Spec.ManyTimed
import Verif.Spec.Watched
/-!
# Programs with several watched LRU maps, plain and with expiry

Like `Spec.Watched`, for programs that use caches of both classes; like `Spec.ManyTimed`, with statistics objects and
callbacks. Every step of a program is made at one point in time. `Museum.hears` computes everything the program learns and
everything its callbacks are told, `World.hears` are the answers of the caches and of their statistics objects.

An access that does not find its key is a miss, also if the key is stored but has expired. There is one exception: `contains`
and `lookup` do not register an access to an expired key if it is the key that was found or stored last; this `lookup` throws
`KeyExpired`, any other one that does not find its key throws `KeyNotFound`.
-/

set_option autoImplicit false

namespace LRU

variable {K V : Type}

/-- The types of the caches after a step; `none`: the step does not compile, or it is a copy. -/
def Deed.typed (types : List CacheType) : Deed K V → Option (List CacheType)
  | .use (.op i o) => types[i]?.bind fun t => if t.offers o || o.observes then some types else none
  | .use (.newStats _) | .use (.stat _ _) | .ask _ _ => some types
  | .use op => op.typed types

/-- The program compiles and mentions no statistics object before it exists. At its start there are caches of the given types
and `n` statistics objects. -/
def admissible : List CacheType → Nat → List (Deed K V) → Bool
  | _, _, [] => true
  | types, n, d :: ds => d.mentions.all (decide <| · < n) &&
    match d.typed types with
    | none => false
    | some types' => admissible types' (n + d.makes) ds

/-! ### The textbook -/

section textbook

variable [KeyEqual K] [DecidableEq K] [DecidableEq V]

/-- What an access finds. -/
def Book.finds (b : Book K V) (now : Int) (k : K) : Option (K × V) :=
  match b with
  | .plain l => l.item k
  | .timed T l => l.fresh T now k

/-- The key as it is stored. -/
def Book.storedKey (b : Book K V) (k : K) : Option K :=
  match b with
  | .plain l => (l.item k).map (·.1)
  | .timed _ l => (l.item k).map (·.1)

/-- The key a call finds or stores, the last one if it stores several. -/
def Book.touches (b : Book K V) (now : Int) : Op K V → Option K
  | .contains k | .find k | .lookup k => if (b.finds now k).isSome then some k else none
  | .insert k _ | .emplace k _ => some k
  | .insertRange l | .insertRangeMove l | .assignRange l | .assignRangeMove l => l.getLast?.map (·.1)
  | _ => none

/-- A textbook map, the key that was found or stored last unless its item was removed since, the statistics object the map
reports to and the callbacks registered for hits, misses and accesses. -/
structure Exhibit (K V : Type) where
  book : Book K V
  latest : Option K
  tally : Option Nat
  onHit : List Nat
  onMiss : List Nat
  onAccess : List Nat

/-- The map and the latest key after a call. -/
def Exhibit.after (m : Exhibit K V) (now : Int) (o : Op K V) : Exhibit K V :=
  let b := (m.book.reply now o).2
  { m with book := b, latest := ((m.book.touches now o).or m.latest).bind b.storedKey }

/-- The call asks for the latest key, which is stored but not found. -/
def Exhibit.overlooks (m : Exhibit K V) (now : Int) : Op K V → Bool
  | .contains k | .lookup k => m.latest.any (keq k) && (m.book.finds now k).isNone
  | _ => false

/-- What the callbacks are told about an access to a key. -/
def Exhibit.announces (m : Exhibit K V) (now : Int) (k : K) : List (Event K V) :=
  match m.book.finds now k with
  | some x => m.onHit.map (fun cb => .hit cb k x.2) ++ m.onAccess.map (fun cb => .access cb k true)
  | none => m.onMiss.map (fun cb => .miss cb k) ++ m.onAccess.map (fun cb => .access cb k false)

/-- The map and the latest key of `a` in the place of `b`: statistics object, callbacks and time to live are those of `b`. -/
def Exhibit.into (a b : Exhibit K V) : Exhibit K V := { b with book := a.book.under b.book, latest := a.latest }

/-- A map that nobody watches. -/
def Exhibit.bare (book : Book K V) (latest : Option K) : Exhibit K V := ⟨book, latest, none, [], [], []⟩

/-- LRU maps by number (`none`: destroyed) and statistics objects by number. -/
structure Museum (K V : Type) where
  maps : List (Option (Exhibit K V))
  journals : List (Journal K)

/-- The map with that number, if it exists. -/
def Museum.map (g : Museum K V) (i : Nat) : Option (Exhibit K V) := g.maps[i]?.join

/-- Another map at that number. -/
def Museum.put (g : Museum K V) (i : Nat) (m : Exhibit K V) : Museum K V := { g with maps := g.maps.set i (some m) }

/-- The statistics object notes something. -/
def Museum.note (g : Museum K V) (id : Nat) (n : Note K) : Museum K V :=
  { g with journals := g.journals.modify id (n :: ·) }

/-- A new statistics object. -/
def Museum.open (g : Museum K V) (ks : List K) : Museum K V :=
  { g with journals := g.journals ++ [ks.reverse.map .watch] }

/-- A call that concerns keys and values: the answer, what the callbacks are told, and all maps afterwards. -/
def Museum.call (g : Museum K V) (now : Int) (i : Nat) (m : Exhibit K V) (o : Op K V) :
    News K V × List (Event K V) × Museum K V :=
  let a := (m.book.reply now o).1
  let g' := g.put i (m.after now o)
  match o.accessed with
  | none => (.says a, [], g')
  | some k =>
    if m.overlooks now o then (if a = .notFound then .expired else .says a, [], g')
    else (.says a, m.announces now k,
      match m.tally with
      | some id => g'.note id (.access k (m.book.finds now k).isSome)
      | none => g')

/-- A call that concerns statistics objects and callbacks. -/
def Museum.observe (g : Museum K V) (i : Nat) (m : Exhibit K V) : Op K V → News K V × Museum K V
  | .monitor id => (.says .unit, g.put i { m with tally := id })
  | .monitorNew ks => (.object (some g.journals.length), (g.put i { m with tally := some g.journals.length }).open ks)
  | .stopMonitoring => (.says .unit, g.put i { m with tally := none })
  | .isMonitoring => (.says (.bool m.tally.isSome), g)
  | .stats => (match m.tally with | some id => .object (some id) | none => .notMonitoring, g)
  | .sharedStats => (.object m.tally, g)
  | .addHitCallback cb => (.says .unit, g.put i { m with onHit := m.onHit ++ [cb] })
  | .addMissCallback cb => (.says .unit, g.put i { m with onMiss := m.onMiss ++ [cb] })
  | .addAccessCallback cb => (.says .unit, g.put i { m with onAccess := m.onAccess ++ [cb] })
  | .clearHitCallbacks => (.says .unit, g.put i { m with onHit := [] })
  | .clearMissCallbacks => (.says .unit, g.put i { m with onMiss := [] })
  | .clearAccessCallbacks => (.says .unit, g.put i { m with onAccess := [] })
  | .clearAllCallbacks => (.says .unit, g.put i { m with onHit := [], onMiss := [], onAccess := [] })
  | _ => (.other, g)

/-- A call on a statistics object. -/
def Museum.instruct (g : Museum K V) (id : Nat) (j : Journal K) : SOp K → News K V × Museum K V
  | .monitor k => (.says .unit, g.note id (.watch k))
  | .unmonitor k => if (j.record k).isSome then (.says .unit, g.note id (.unwatch k)) else (.unmonitored, g)
  | .unmonitorAll => (.says .unit, g.note id .unwatchAll)
  | .resetKey k => if (j.record k).isSome then (.says .unit, g.note id (.reset k)) else (.unmonitored, g)

/-- What a program learns from a step made at the time `now`, what its callbacks are told, and the maps afterwards; `none`: the
step has no meaning. `swap` exchanges the maps and the times to live, through the base class the maps only; after a move
assignment both have the time to live of the source. Statistics objects and callbacks stay where they are; a map constructed by
a move has none. -/
def Museum.reply (g : Museum K V) (now : Int) : Deed K V → Option (News K V × List (Event K V) × Museum K V)
  | .use (.create kind c) =>
    let b := Book.make now c kind
    some (.says .unit, [], { g with maps := g.maps ++ [some (.bare b ((c.pairs.getLast?.map (·.1)).bind b.storedKey))] })
  | .use (.destroy i) => (g.map i).map fun _ => (.says .unit, [], { g with maps := g.maps.set i none })
  | .use (.op i o) => (g.map i).bind fun m =>
    if o.observes then some ((g.observe i m o).1, [], (g.observe i m o).2)
    else if m.book.capacity = none ∧ o.needsCapacity = true then none
    else some (g.call now i m o)
  | .use (.swap i j) => (g.map i).bind fun a => (g.map j).map fun b =>
      (.says .unit, [], (g.put i { a with book := b.book, latest := b.latest }).put j
        { b with book := a.book, latest := a.latest })
  | .use (.swapBase i j) => (g.map i).bind fun a => (g.map j).map fun b =>
      (.says .unit, [], (g.put i (b.into a)).put j (a.into b))
  | .use (.moveAssign i j) => (g.map i).bind fun a => (g.map j).map fun b =>
      (.says .unit, [], (g.put i { a with book := b.book, latest := b.latest }).put j (a.into b))
  | .use (.moveCtor i) => (g.map i).map fun a => (.says .unit, [],
      { g with maps := g.maps.set i (some { a with book := a.book.hollow, latest := none }) ++ [some (.bare a.book a.latest)] })
  | .use (.eq i j) => (g.map i).bind fun a => (g.map j).map fun b => (.says (.bool (a.book.same b.book)), [], g)
  | .use (.newStats ks) => some (.object (some g.journals.length), [], g.open ks)
  | .use (.stat id o) => g.journals[id]?.map fun j => ((g.instruct id j o).1, [], (g.instruct id j o).2)
  | .ask id q => g.journals[id]?.map fun j => (j.answer q, [], g)
  | _ => none

/-- Everything a program learns and everything its callbacks are told, step by step, up to its end. -/
def Museum.hears (g : Museum K V) : List (Deed K V × Int) → List (News K V × List (Event K V))
  | [] => []
  | (d, now) :: ds =>
    match g.reply now d with
    | none => [(.undefined, [])]
    | some (.says .terminated, _) => [(.says .terminated, [])]
    | some (a, evs, g') => (a, evs) :: Museum.hears g' ds

end textbook

/-- The steps are made at the given times: the clock shows that time whenever a step reads it. -/
def World.PacedDeeds [KeyEqual K] [DecidableEq K] [DecidableEq V] (O : Oracle K V) : World K V → List (Deed K V × Int) → Prop
  | _, [] => True
  | w, (.ask _ _, _) :: ds => World.PacedDeeds O w ds
  | w, (.use op, now) :: ds =>
    match Impl.wstep O op w with
    | .ok _ w' | .throw _ w' => (∀ n, w.g.ticks ≤ n → n < w'.g.ticks → O.clock n = now) ∧ World.PacedDeeds O w' ds
    | _ => True

end LRU
