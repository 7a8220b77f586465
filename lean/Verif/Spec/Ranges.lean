import Verif.Spec.Textbook
/-!
# Ranges of pairs

What inserting a range one by one means, and what a range amounts to when later pairs overwrite earlier ones.
-/

set_option autoImplicit false

namespace LRU

variable {K V : Type} [KeyEqual K] [DecidableEq K] [DecidableEq V]

/-- Making the call `ins k v` for every pair `(k, v)` of the list in order, from state `s`. Result `.ok n`: all calls
returned, `n` of them reported a new key. Result `.error e`: a call threw `e` and the rest was not made. -/
inductive OneByOne (O : Oracle K V) (ins : K → V → Op K V) :
    List (K × V) → St (Cache K V) K V → Except Err Nat → St (Cache K V) K V → Prop
  | nil (s) : OneByOne O ins [] s (.ok 0) s
  | new {k v l s s1 s2 n p} : Returns O (ins k v) s (.inserted true p) s1 → OneByOne O ins l s1 (.ok n) s2 →
      OneByOne O ins ((k, v) :: l) s (.ok (n + 1)) s2
  | old {k v l s s1 s2 n p} : Returns O (ins k v) s (.inserted false p) s1 → OneByOne O ins l s1 (.ok n) s2 →
      OneByOne O ins ((k, v) :: l) s (.ok n) s2
  | later {k v l s s1 s2 e r} : Returns O (ins k v) s r s1 → OneByOne O ins l s1 (.error e) s2 →
      OneByOne O ins ((k, v) :: l) s (.error e) s2
  | now {k v l s s1 e} : Throws O (ins k v) s e s1 → OneByOne O ins ((k, v) :: l) s (.error e) s1

omit [DecidableEq K] [DecidableEq V] in
/-- The pairs of a list that no later pair overwrites, in order: the distinct keys with their last values, by last
occurrence. -/
def finals : List (K × V) → List (K × V)
  | [] => []
  | p :: l => if l.any (fun q => keq q.1 p.1) then finals l else p :: finals l

/-- The same values under equivalent keys, in the same order. -/
inductive Alike [KeyEqual K] : List (K × V) → List (K × V) → Prop
  | nil : Alike [] []
  | cons {k k' v l l'} : keq k k' = true → Alike l l' → Alike ((k, v) :: l) ((k', v) :: l')

/-- Storing the pairs of a list. -/
def puts (l : List (K × V)) : List (Act K V) := l.map fun p => .put p.1 p.2

/-- The pairs handed to a constructor. -/
def Ctor.pairs : Ctor K V → List (K × V)
  | .default | .sized _ => []
  | .sizedItems _ l | .items l | .initList l | .sizedRangeMove _ l | .rangeMove l => l

/-- The capacity the documentation of the constructor promises: the one given explicitly; else 128 without contents,
the length of the range but not less than 128 for iterators and lvalue ranges, the length for initializer lists and
rvalue ranges. -/
def Ctor.promised : Ctor K V → Nat
  | .sized n | .sizedItems n _ | .sizedRangeMove n _ => n
  | .default => 128
  | .items l => if l.length ≤ 128 then 128 else l.length
  | .initList l | .rangeMove l => l.length

end LRU
