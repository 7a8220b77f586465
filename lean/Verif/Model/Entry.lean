/-!
# Entries

`Entry` (`entry.hpp` 37-130) is what dereferencing an iterator gives: a reference to a key and a reference to a value. Here
the references are addresses, so that it can be said what they refer to, and whether that still exists. Constructed entries are
numbered, and so are the elements of caches. Keys and values of all types are of one type each; a conversion between different
types is a function on it.

The comparisons (`entry.hpp` 70-103) use `==` of keys and values, which may throw. `entry == entry` is ambiguous (both templates of
`entry.hpp` 70-83 match equally well) and does not compile.

A conversion between different types binds a reference to a temporary object. That is ill-formed since the resolution of core
issue 1696; the model is that of compilers that accept it.
-/

set_option autoImplicit false

namespace LRU

/-- Objects and entries. `keys`, `vals`: the objects at the addresses; `none`: destroyed. `elems`: where the key and the value
of an element are. `entries`: what the two references of an entry refer to. -/
structure Refs (K V : Type) where
  keys : List (Option K)
  vals : List (Option V)
  elems : List (Nat × Nat)
  entries : List (Nat × Nat)

/-- What a program does with elements and entries. -/
inductive EStep (K V : Type) where
  /-- a new element of a cache -/
  | element (k : K) (v : V)
  | erase (i : Nat)
  /-- a value of the cache is replaced by other means -/
  | assign (i : Nat) (v : V)
  /-- `*iterator` for element `i` (`base-ordered-iterator.hpp` 272-280, `base-unordered-iterator.hpp` 169-181, `entry.hpp` 48-49) -/
  | deref (i : Nat)
  /-- The generalized constructor (`entry.hpp` 56-63). `none`: the types differ at most in `const`; `some f`: another type, to which `f` converts. -/
  | convert (e : Nat) (key : Option (K → K)) (value : Option (V → V))
  /-- `entry.value() = v` (`entry.hpp` 116-118) -/
  | write (e : Nat) (v : V)

namespace Refs

variable {K V : Type}

/-- `entry.key()`, `entry.first` (`entry.hpp` 111-113, 126); `none`: undefined. -/
def key (σ : Refs K V) (e : Nat) : Option K := do
  let p ← σ.entries[e]?
  (σ.keys[p.1]?).join

/-- `entry.value()`, `entry.second` (`entry.hpp` 116-123, 129); `none`: undefined. -/
def value (σ : Refs K V) (e : Nat) : Option V := do
  let p ← σ.entries[e]?
  (σ.vals[p.2]?).join

/-- `first(other.first)` (`entry.hpp` 62) for a reference to an object at `a`: a reference to the same object, or, if the types
are different, to a temporary object, which is destroyed at the end of the constructor ([class.temporary]). -/
def bind {α : Type} (mem : List (Option α)) (a : Nat) : Option (α → α) → Option (List (Option α) × Nat)
  | none => some (mem, a)
  | some f => do
    let x ← (mem[a]?).join
    let _ := f x
    some (mem ++ [none], mem.length)

end Refs

variable {K V : Type}

/-- A step; `none`: undefined. -/
def EStep.run (σ : Refs K V) : EStep K V → Option (Refs K V)
  | .element k v => some { σ with
      keys := σ.keys ++ [some k], vals := σ.vals ++ [some v], elems := σ.elems ++ [(σ.keys.length, σ.vals.length)] }
  | .erase i => do
    let p ← σ.elems[i]?
    let _ ← (σ.keys[p.1]?).join
    some { σ with keys := σ.keys.set p.1 none, vals := σ.vals.set p.2 none }
  | .assign i v => do
    let p ← σ.elems[i]?
    let _ ← (σ.vals[p.2]?).join
    some { σ with vals := σ.vals.set p.2 (some v) }
  | .deref i => do
    let p ← σ.elems[i]?
    let _ ← (σ.keys[p.1]?).join
    some { σ with entries := σ.entries ++ [p] }
  | .convert e f g => do
    let p ← σ.entries[e]?
    let (ks, a) ← Refs.bind σ.keys p.1 f
    let (vs, b) ← Refs.bind σ.vals p.2 g
    some { σ with keys := ks, vals := vs, entries := σ.entries ++ [(a, b)] }
  | .write e v => do
    let p ← σ.entries[e]?
    let _ ← (σ.vals[p.2]?).join
    some { σ with vals := σ.vals.set p.2 (some v) }

/-- A program. -/
def EStep.runAll : List (EStep K V) → Refs K V → Option (Refs K V)
  | [], σ => some σ
  | p :: ps, σ => (p.run σ).bind (EStep.runAll ps)

/-- How a comparison ends. -/
inductive Compared where
  | value (b : Bool)
  | terminate
  | ub
  deriving DecidableEq

/-- `==` of keys and of values; `none`: it throws. -/
structure Equalities (K V : Type) where
  keys : K → K → Option Bool
  vals : V → V → Option Bool

/-- `noexcept`. -/
def Compared.of : Option Bool → Compared
  | some b => .value b
  | none => .terminate

namespace Refs

/-- `entry.hpp` 70-73: `entry == pair`. -/
def eqPair (Q : Equalities K V) (σ : Refs K V) (e : Nat) (p : K × V) : Compared :=
  match σ.key e with
  | none => .ub
  | some k =>
    match Q.keys k p.1 with
    | none => .of none
    | some false => .of (some false)
    | some true =>
      match σ.value e with
      | none => .ub
      | some v => .of (Q.vals v p.2)

/-- `entry.hpp` 80-83: `pair == entry`. -/
def pairEq (Q : Equalities K V) (σ : Refs K V) (p : K × V) (e : Nat) : Compared := σ.eqPair Q e p

/-- `!` of a result. -/
def negate : Compared → Compared
  | .value b => .value (!b)
  | c => c

/-- `entry.hpp` 90-93: `entry != pair`. -/
def nePair (Q : Equalities K V) (σ : Refs K V) (e : Nat) (p : K × V) : Compared := negate (σ.eqPair Q e p)

/-- `entry.hpp` 100-103: `pair != entry`. -/
def pairNe (Q : Equalities K V) (σ : Refs K V) (p : K × V) (e : Nat) : Compared := σ.nePair Q e p

/-- `entry.hpp` 106-108: the conversion to `std::pair<const Key&, Value&>`: references to the same objects. -/
def toPair (σ : Refs K V) (e : Nat) : Option (Nat × Nat) := σ.entries[e]?

end Refs

end LRU
