import Verif.Spec.Examples
/-!
# Serving requests through a cache, and other ways to serve them

`serve` is a program that answers requests with `MyWebServer::get` of the README. It is compared with anything that
answers the same requests with a store of bounded size, decides freely what to keep and what to load and may know all
requests in advance: `Schedule` says what such a competitor holds after each request.
-/

set_option autoImplicit false

namespace LRU

variable {K V : Type} [KeyEqual K]

/-- One request after the other. -/
def serve [DecidableEq K] (O : Oracle K V) (fetch : K → V) : List K → Impl.CM K V Unit
  | [] => pure ()
  | k :: ks => do
    let _ ← Impl.get O fetch k
    serve O fetch ks

/-- Some key of the list compares equal to `k`. -/
def holds (S : List K) (k : K) : Bool := S.any (fun x => keq x k)

/-- What a competitor with room for `h` keys holds after each request: different keys, at most `h`, among them the one
requested. -/
def Schedule (h : Nat) : List K → List (List K) → Prop
  | [], [] => True
  | k :: ks, S :: Ss => S.length ≤ h ∧ S.Pairwise (fun a b => keq a b = false) ∧ holds S k = true ∧ Schedule h ks Ss
  | _, _ => False

/-- How many keys the competitor loads, holding `S` at the start: those it has after a request and did not have before. -/
def loads : List K → List (List K) → Nat
  | _, [] => 0
  | S, S' :: Ss => (S'.filter (fun k => !holds S k)).length + loads S' Ss

/-- Every request differs from the `n` requests before it; `past` are the earlier ones, latest first. -/
def Spaced (n : Nat) : List K → List K → Prop
  | _, [] => True
  | past, k :: ks => (∀ x ∈ past.take n, keq x k = false) ∧ Spaced n (k :: past) ks

omit [KeyEqual K]

/-- The first `t` requests of a program that goes through the keys of a list again and again. -/
def around : List K → Nat → List K
  | [], _ => []
  | _ :: _, 0 => []
  | x :: P, t + 1 => x :: around (P ++ [x]) t

end LRU
