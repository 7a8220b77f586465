import Verif.Spec.Demo
import Verif.Model.IterObjects
import Verif.Model.Wrap
/-!
# The project's own tests, run on the model

The files in this directory transcribe the assertions of `/repo/tests/*.cpp` and evaluate them on the model. They are
tests, not proofs: they check that the model agrees with what its authors say the code does, and no claim rests on them.
Strings used as keys are numbered. Where an assertion of the project's fails on the model, or relies on undefined behaviour,
the transcription says so.

A test is a list of lines. The clock advances by one tick per reading; one tick is a microsecond, and `sleep n` lets `n`
more pass.
-/

set_option autoImplicit false

namespace LRU.Tests

open Impl

/-- What an assertion expects of a call. -/
inductive Want where
  | any
  | is (r : Res Nat Nat)
  | value (v : Nat)
  | inserted (b : Bool)
  | throws (e : Err)
  | ub

/-- Whether a call did what was expected. -/
def Want.met {σ : Type} : Want → Out σ (Res Nat Nat) → Bool
  | .any, .ok _ _ => true
  | .is r, .ok r' _ => decide (r' = r)
  | .value v, .ok (.ref _ v') _ => v' == v
  | .value v, .ok (.value v') _ => v' == v
  | .inserted b, .ok (.inserted b' _) _ => b' == b
  | .throws e, .throw e' _ => e' == e
  | .ub, .ub => true
  | _, _ => false

/-- The environment after sleeping for a while. -/
def after (slept : Nat) : Oracle Nat Nat := { calmO with clock := fun n => ((n + slept : Nat) : Int) }

/-- A line of a test that uses caches. -/
inductive Line where
  | call (o : WOp Nat Nat) (w : Want)
  | sleep (n : Nat)
  | check (f : World Nat Nat → Bool)

/-- All assertions hold; `slept` is the time spent sleeping so far. -/
def passes : Nat → List Line → World Nat Nat → Bool
  | _, [], _ => true
  | slept, .sleep n :: ls, w => passes (slept + n) ls w
  | slept, .check f :: ls, w => f w && passes slept ls w
  | slept, .call o want :: ls, w =>
    let r := wstep (after slept) o w
    want.met r && (match r with
      | .ok _ w' => passes slept ls w'
      | .throw _ w' => passes slept ls w'
      | _ => ls.isEmpty)

/-- Run a test. -/
def Pass (ls : List Line) : Bool := passes 0 ls initWorld

/-- A line of a test that uses iterator objects of one cache. -/
inductive ILine where
  | call (o : IOp Nat Nat) (w : Want)
  | sleep (n : Nat)

/-- All assertions hold. `heap`: the `Optional` of `optional.hpp` 54-201 is used. -/
def ipasses (heap : Bool) : Nat → List ILine → ISt Nat Nat → Bool
  | _, [], _ => true
  | slept, .sleep n :: ls, t => ipasses heap (slept + n) ls t
  | slept, .call o want :: ls, t =>
    let r := istep (after slept) heap o t
    want.met r && (match r with
      | .ok _ t' => ipasses heap slept ls t'
      | .throw _ t' => ipasses heap slept ls t'
      | _ => ls.isEmpty)

/-- Run a test on a cache that was just created, with either kind of `Optional`. -/
def IPass (kind : Kind) (c : Ctor Nat Nat) (ls : List ILine) : Bool :=
  let t : ISt Nat Nat := ⟨demoState calmO [.create kind c] 0, fun _ => It.singular true⟩
  ipasses false 0 ls t && ipasses true 0 ls t

/-- A call on cache 0. -/
def on (o : Op Nat Nat) (w : Want := .any) : Line := .call (.op 0 o) w

/-- A call on cache 1. -/
def on1 (o : Op Nat Nat) (w : Want := .any) : Line := .call (.op 1 o) w

/-- `EXPECT_TRUE`. -/
def yes (o : Op Nat Nat) : Line := on o (.is (.bool true))

/-- `EXPECT_FALSE`. -/
def no (o : Op Nat Nat) : Line := on o (.is (.bool false))

/-- `EXPECT_EQ` with a number. -/
def num (o : Op Nat Nat) (n : Nat) : Line := on o (.is (.nat n))

/-- The elements in order, `is_equal_to_range`. -/
def contentIs (i : Nat) (l : List (Nat × Nat)) : Line := .check fun w =>
  match w.caches[i]? with
  | some (some c) => (elements c).map (fun n => (n.key, n.info.value)) == l
  | _ => false

/-- A `Cache<K, V>` constructed like this. -/
def cache (c : Ctor Nat Nat) : Line := .call (.create .basic c) .any

/-- A `TimedCache<K, V>` with that time to live in microseconds. -/
def timedCache (ttl : Int) (c : Ctor Nat Nat) : Line := .call (.create (timedKind ttl 1) c) .any

end LRU.Tests
