import Verif.Model.Optional
/-!
# Optional values

What the operations of an optional type mean, in terms of the values the objects hold: no heap, no pointers.
-/

set_option autoImplicit false

namespace LRU.Opt

variable {T : Type}

/-- What each object holds. `none`: the object is gone; `some none`: it holds no value. -/
abbrev Contents (T : Type) := List (Option (Option T))

/-- What the objects of a program hold. -/
def OSt.contents (s : OSt T) : Contents T := s.objs.map fun o => o.map fun p => p.bind s.heap

/-- What an operation does: it is undefined, throws because there is no value, or returns, changing the contents. -/
inductive Verdict (T : Type) where
  | undefined
  | noValue
  | done (r : ORes T) (c : Contents T)

/-- What the live object `i` holds. -/
def Contents.get (c : Contents T) (i : Nat) : Option (Option T) := (c[i]?).join

/-- Use object `i`; undefined if it is gone. -/
def using' (c : Contents T) (i : Nat) (k : Option T → Verdict T) : Verdict T :=
  match c.get i with
  | none => .undefined
  | some o => k o

/-- Use the value of object `i`; undefined if there is none. -/
def usingValue (c : Contents T) (i : Nat) (k : T → Verdict T) : Verdict T :=
  using' c i fun
    | none => .undefined
    | some t => k t

/-- The meaning of the operations. `after t`: what is left in an object that held `t` and was moved from. `left t`: what is left of a
value. -/
def meaning (after : T → Option T) (left : T → T) (c : Contents T) : OOp T → Verdict T
  | .create => .done .unit (c ++ [some none])
  | .copyNew i => using' c i fun o => .done .unit (c ++ [some o])
  | .moveNew i => using' c i fun o => .done .unit (c.set i (some (o.bind after)) ++ [some o])
  | .convertNew f i => using' c i fun o => .done .unit (c ++ [some (o.map f)])
  | .convertMoveNew f i => using' c i fun o => .done .unit (c.set i (some (o.map left)) ++ [some (o.map f)])
  | .destroy i => using' c i fun _ => .done .unit (c.set i none)
  | .assign i j => using' c i fun _ => using' c j fun o => .done .unit (c.set i (some o))
  | .moveAssign i j => using' c i fun _ => using' c j fun o => .done .unit ((c.set j (some (o.bind after))).set i (some o))
  | .swap i j => using' c i fun a => using' c j fun b => .done .unit ((c.set i (some b)).set j (some a))
  | .hasValue i => using' c i fun o => .done (.bool o.isSome) c
  | .deref i => usingValue c i fun t => .done (.value t) c
  | .value i => using' c i fun
    | none => .noValue
    | some t => .done (.value t) c
  | .valueOr i d => using' c i fun o => .done (.value (o.getD d)) c
  | .store i t => usingValue c i fun _ => .done .unit (c.set i (some (some t)))
  | .reset i => using' c i fun _ => .done .unit (c.set i (some none))
  | .emplace i t => using' c i fun _ => .done .unit (c.set i (some (some t)))
  | .emplaceFrom i j => usingValue c j fun t => using' c i fun _ => .done .unit (c.set i (some (some t)))

/-- The operations that construct a value. -/
def constructs (c : Contents T) : OOp T → Bool
  | .copyNew i => (c.get i).join.isSome
  | .convertNew _ i => (c.get i).join.isSome
  | .convertMoveNew _ i => (c.get i).join.isSome
  | .assign _ j => (c.get j).join.isSome
  | .emplace _ _ => true
  | .emplaceFrom _ _ => true
  | _ => false

/-- States of programs that use `Optional`s, and catch exceptions. -/
inductive OReach (fails : Nat → Bool) (left : T → T) : OSt T → Prop where
  | init : OReach fails left initial
  | ok {s s' : OSt T} {op : OOp T} {r : ORes T} : OReach fails left s → ostep fails left op s = .ok r s' → OReach fails left s'
  | throw {s s' : OSt T} {op : OOp T} {e : Err} : OReach fails left s → ostep fails left op s = .throw e s' → OReach fails left s'

/-! ### Programs -/

/-- What a program sees of an operation. -/
inductive Seen (T : Type) where
  | result (r : ORes T)
  | noValue
  | failed
  | undefined
  deriving DecidableEq

/-- What a program sees of objects with the given meaning. -/
def seen (step : Contents T → OOp T → Verdict T) : Contents T → List (OOp T) → List (Seen T)
  | _, [] => []
  | c, op :: ops =>
    match step c op with
    | .undefined => [.undefined]
    | .noValue => .noValue :: seen step c ops
    | .done r c' => .result r :: seen step c' ops

/-- What a program sees of the class. -/
def oseen (fails : Nat → Bool) (left : T → T) : OSt T → List (OOp T) → List (Seen T)
  | _, [] => []
  | s, op :: ops =>
    match ostep fails left op s with
    | .ok r s' => .result r :: oseen fails left s' ops
    | .throw .user s' => .noValue :: oseen fails left s' ops
    | .throw _ s' => .failed :: oseen fails left s' ops
    | .ub => [.undefined]
    | _ => [.failed]

/-- The objects whose contents an operation reads. -/
def OOp.reads : OOp T → List Nat
  | .copyNew i | .moveNew i | .convertNew _ i | .convertMoveNew _ i => [i]
  | .assign _ j | .moveAssign _ j | .emplaceFrom _ j => [j]
  | .swap i j => [i, j]
  | .hasValue i | .deref i | .value i | .valueOr i _ | .store i _ => [i]
  | .create | .destroy _ | .reset _ | .emplace _ _ => []

/-- The objects an operation gives a new content, whatever they held. -/
def OOp.writes : OOp T → List Nat
  | .destroy i | .assign i _ | .moveAssign i _ | .reset i | .emplace i _ | .emplaceFrom i _ => [i]
  | _ => []

/-- The objects an operation moves from. -/
def OOp.movesFrom : OOp T → List Nat
  | .moveNew i => [i]
  | .moveAssign _ j => [j]
  | _ => []

/-- `i = std::move(i)` and `i.emplace(*i)`. -/
def OOp.ofItself : OOp T → Bool
  | .moveAssign i j | .emplaceFrom i j => i == j
  | _ => false

/-- A program that does not use objects it has moved from (`moved`) until it gives them a new content, and does not move or emplace
an object into itself. -/
def careful : List Nat → List (OOp T) → Bool
  | _, [] => true
  | moved, op :: ops =>
    !op.ofItself && op.reads.all (fun i => !moved.contains i) &&
      careful (op.movesFrom ++ moved.filter (fun i => !op.writes.contains i)) ops

end LRU.Opt
