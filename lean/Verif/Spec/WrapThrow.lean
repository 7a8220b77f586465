import Verif.Spec.Wrap
/-!
# Wrapped functions that throw
-/

set_option autoImplicit false

namespace LRU

variable {K V : Type}

/-- What a call of the original function comes to (a value or an exception), if every wrapped function it calls does what
`F` says. -/
def Body.answer (F : Nat → K → Except Err V) : Body K V → Except Err V
  | .ret v => .ok v
  | .throw e => .error e
  | .call f k next => (next (F f k)).answer F

/-- The wrapped functions are deterministic, and so are their exceptions: `F f k` is what the function wrapped by `f`
returns or throws for the arguments `k`. Arguments that compare equal are not distinguished. All functions wrapped in
closures of one type agree. -/
structure Determined [KeyEqual K] (F : Nat → K → Except Err V) (fs : List (Wrapper K V)) : Prop where
  computes : ∀ (f : Nat) (x : Wrapper K V), fs[f]? = some x → ∀ h k, (x.fn h k).answer F = F f k
  respects : ∀ (f : Nat) (x : Wrapper K V), fs[f]? = some x → ∀ k k', keq k k' = true → F f k = F f k'
  agree : ∀ (f g : Nat) (x y : Wrapper K V), fs[f]? = some x → fs[g]? = some y → x.type = y.type → ∀ k, F f k = F g k

/-- The body makes nested calls only to the first `n` wrappers and only with smaller arguments (measured by `μ`). -/
def Descends (n : Nat) (μ : Nat → K → Nat) (m : Nat) : Body K V → Prop
  | .ret _ => True
  | .throw _ => True
  | .call f k next => f < n ∧ μ f k < m ∧ ∀ r, Descends n μ m (next r)

end LRU
