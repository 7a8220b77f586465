import Verif.Model.Types
/-!
# Assumptions about the environment

Hypotheses used in theorem statements. Everything else the environment decides (clock readings, hash order,
throwing callbacks, constructors and allocations) is arbitrary.
-/

namespace LRU

variable {K V : Type}

/-- Allocation of list nodes never fails. (`Props.Exceptions` shows what happens otherwise.) -/
def NoListFault (O : Oracle K V) : Prop := ∀ n, O.fails .listNode n = false

/-- Assigning a value to an existing entry never throws. (`Props.Exceptions` shows what happens otherwise.) -/
def NoAssignFault (O : Oracle K V) : Prop := ∀ n, O.fails .assign n = false

/-- An assignment that throws leaves the value as it is if it was to be assigned an equal one. -/
def KeepsEqual (O : Oracle K V) : Prop := ∀ n v, O.fails .assign n = true → O.torn n v v = v

/-- Callbacks never throw. -/
def NoCallbackFault (O : Oracle K V) : Prop := ∀ cb n, O.fails (.callback cb) n = false

/-- Nothing the library calls throws: no callback, constructor, assignment or allocation. -/
def Calm (O : Oracle K V) : Prop := ∀ site n, O.fails site n = false

/-- The clock is monotone (`std::chrono::steady_clock`). -/
def Steady (O : Oracle K V) : Prop := ∀ m n, m ≤ n → O.clock m ≤ O.clock n

theorem Calm.keepsEqual {O : Oracle K V} (h : Calm O) : KeepsEqual O := fun n _ hf => by rw [h] at hf; cases hf

theorem Calm.noListFault {O : Oracle K V} (h : Calm O) : NoListFault O := fun n => h _ n

theorem Calm.noCallbackFault {O : Oracle K V} (h : Calm O) : NoCallbackFault O := fun _ n => h _ n

theorem Calm.noAssignFault {O : Oracle K V} (h : Calm O) : NoAssignFault O := fun n => h _ n

end LRU
