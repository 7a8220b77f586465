import Verif.Spec.Machine
import Verif.Spec.Ranges
/-!
# Programs with several textbook LRU maps

A program creates, uses, swaps, moves, compares and destroys several LRU maps. `Shelf.tells` computes everything the program
learns. `World.tells` are the answers of the caches.
-/

set_option autoImplicit false

namespace LRU

variable {K V : Type}

/-- What a program learns from a step. -/
inductive Tidings (K V : Type) where
  | says (a : Ans K V)
  /-- the step has undefined behaviour -/
  | undefined
  /-- an exception other than `KeyNotFound`, or a call that never returns -/
  | other
  deriving DecidableEq

/-- The steps of programs that use several plain caches without copying them: construction in all ways, calls that take and
return keys, values and numbers, `swap`, move construction, move assignment, `==` and destruction. -/
def WOp.plain : WOp K V → Bool
  | .create .basic _ | .destroy _ | .swap _ _ | .swapBase _ _ | .moveCtor _ | .moveAssign _ _ | .eq _ _ => true
  | .op _ o => o.byKey
  | _ => false

/-! ### The textbook -/

section textbook

variable [KeyEqual K] [DecidableEq K] [DecidableEq V]

/-- LRU maps by number; `none`: destroyed. A map that was moved from is empty and has no capacity. -/
abbrev Shelf (K V : Type) := List (Option (Lru K V))

/-- The LRU map with that number, if it exists. -/
def Shelf.lru (sh : Shelf K V) (i : Nat) : Option (Lru K V) :=
  match sh[i]? with
  | some (some l) => some l
  | _ => none

/-- The calls that make no sense without a capacity. -/
def Op.needsCapacity : Op K V → Bool
  | .insert .. | .emplace .. | .capacity | .spaceLeft | .isFull | .assignRange _ | .assignRangeMove _ => true
  | .insertRange l | .insertRangeMove l => !l.isEmpty
  | _ => false

/-- What a program learns from a step, and the maps afterwards; `none`: the step has no meaning, because a map it uses does not
exist, or because a call needs the capacity of a map that was moved from. Move assignment exchanges the maps, like `swap`. -/
def Shelf.reply (sh : Shelf K V) : WOp K V → Option (Ans K V × Shelf K V)
  | .create _ c => some (.unit, sh ++ [some ((⟨some c.promised, []⟩ : Lru K V).storeAll c.pairs).2])
  | .destroy i => (sh.lru i).map fun _ => (.unit, sh.set i none)
  | .op i o => (sh.lru i).bind fun l =>
    if l.capacity = none ∧ o.needsCapacity = true then none
    else some ((l.reply o).1, sh.set i (some (l.reply o).2))
  | .swap i j | .swapBase i j | .moveAssign i j =>
    (sh.lru i).bind fun a => (sh.lru j).map fun b => (.unit, (sh.set i (some b)).set j (some a))
  | .moveCtor i => (sh.lru i).map fun a => (.unit, sh.set i (some ⟨none, []⟩) ++ [some a])
  | .eq i j => (sh.lru i).bind fun a => (sh.lru j).map fun b => (.bool (decide (a.items = b.items)), sh)
  | _ => none

/-- Everything a program learns, up to its end. -/
def Shelf.tells (sh : Shelf K V) : List (WOp K V) → List (Tidings K V)
  | [] => []
  | op :: ops =>
    match sh.reply op with
    | none => [.undefined]
    | some (.terminated, _) => [.says .terminated]
    | some (a, sh') => .says a :: Shelf.tells sh' ops

end textbook

/-! ### The caches -/

/-- The caches as LRU maps. -/
def World.shelf (w : World K V) : Shelf K V := w.caches.map (Option.map asLru)

/-- What a program learns from the outcome of a step. Iterators returned by a call on a cache denote items of that cache
afterwards. -/
def WOp.told (op : WOp K V) : Out (World K V) (Res K V) → Tidings K V
  | .ok r w =>
    let a := match op with
      | .op i _ => match w.caches[i]? with
        | some (some c) => r.ans c
        | _ => none
      | _ => match r with
        | .unit => some .unit
        | .bool b => some (.bool b)
        | _ => none
    match a with
    | some a => .says a
    | none => .other
  | .throw .keyNotFound _ => .says .notFound
  | .throw _ _ => .other
  | .terminate => .says .terminated
  | .ub => .undefined
  | .diverge => .other

/-- Everything a program learns, up to its end. Exceptions are caught. -/
def World.tells [KeyEqual K] [DecidableEq K] [DecidableEq V] (O : Oracle K V) : World K V → List (WOp K V) → List (Tidings K V)
  | _, [] => []
  | w, op :: ops =>
    op.told (Impl.wstep O op w) ::
      match Impl.wstep O op w with
      | .ok _ w' | .throw _ w' => World.tells O w' ops
      | _ => []

end LRU
