import Verif.Spec.Textbook
/-!
# The LRU stack

The classical description of LRU: write every key that is used on top of a stack and take away its older copy. A cache of
capacity `n` holds the top `n` keys.
-/

set_option autoImplicit false

namespace LRU

variable {K V : Type}

/-- Without repetitions, keeping the first (newest) of equal keys. -/
def recent [KeyEqual K] : List K → List K
  | [] => []
  | k :: r => k :: (recent r).filter (fun x => !keq x k)

/-- The same keys, up to `operator==`, in the same order. -/
def SameKeys [KeyEqual K] : List K → List K → Prop
  | [], [] => True
  | a :: l, b :: m => keq a b = true ∧ SameKeys l m
  | _, _ => False

/-- The keys of a cache, most recently used first. -/
def newestKeys (c : Cache K V) : List K := ((entries c).map (·.1)).reverse

/-- Memoised accesses on a cache, newest first: the key is looked for by `contains`, `find` or `lookup`; if it is not found,
the value `F k` is stored for it. `ms` are the keys that were not found. Other caches may be used in between. -/
inductive Memoised [KeyEqual K] [DecidableEq K] [DecidableEq V] (O : Oracle K V) (F : K → V) (s : St (Cache K V) K V) :
    (ks ms : List K) → St (Cache K V) K V → Prop
  | nil : Memoised O F s [] [] s
  | hit {ks ms s1 s2 op k res} : Memoised O F s ks ms s1 → op.Accesses k → Performs O op s1 res s2 → found res = true →
      Memoised O F s (k :: ks) ms s2
  | miss {ks ms s1 s2 s3 op op' k res r} : Memoised O F s ks ms s1 → op.Accesses k → Performs O op s1 res s2 →
      found res = false → op'.Inserts k (F k) → Returns O op' s2 r s3 → Memoised O F s (k :: ks) (k :: ms) s3
  | elsewhere {ks ms s1 s2} : Memoised O F s ks ms s1 → Elsewhere O s1 s2 → Memoised O F s ks ms s2

/-- The accesses (newest first) that a cache of capacity `n` has to miss: those of keys not among the `n` most recent. -/
def missesOf [KeyEqual K] (n : Nat) : List K → List K
  | [] => []
  | k :: ks => if ((recent ks).take n).any (fun a => keq a k) then missesOf n ks else k :: missesOf n ks

end LRU
