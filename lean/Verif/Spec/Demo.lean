import Verif.Spec.Observe
/-!
# Concrete programs

Used for the examples that accompany the theorems (every hypothesis is met by some program) and for the
witnesses of the refutations. `demo O ops i` runs a program and returns cache `i` as its next member
function would see it.
-/

namespace LRU

variable {K V : Type} [KeyEqual K] [DecidableEq K] [DecidableEq V]

/-- Run the steps of a program, catching exceptions. `none`: the program has undefined behaviour, terminates or
hangs. -/
def exec (O : Oracle K V) : List (WOp K V) → World K V → Option (World K V)
  | [], w => some w
  | op :: ops, w =>
    match Impl.wstep O op w with
    | .ok _ w' => exec O ops w'
    | .throw _ w' => exec O ops w'
    | _ => none

/-- Cache `i` after running a program. -/
def demo (O : Oracle K V) (ops : List (WOp K V)) (i : Nat) : Option (St (Cache K V) K V) :=
  match exec O ops Impl.initWorld with
  | none => none
  | some w =>
    match w.caches[i]? with
    | some (some c) => some (viewOf w i c)
    | _ => none

theorem exec_reach {O : Oracle K V} {ok : WOp K V → Prop} {ops : List (WOp K V)} {w w' : World K V}
    (h : exec O ops w = some w') (hok : ∀ op ∈ ops, ok op) (hw : Reach O ok w) : Reach O ok w' := by
  induction ops generalizing w with
  | nil =>
    injection h with h
    exact h ▸ hw
  | cons op ops ih =>
    unfold exec at h
    have hop := hok op (List.mem_cons_self ..)
    have hops := fun o ho => hok o (List.mem_cons_of_mem _ ho)
    cases hs : Impl.wstep O op w <;> rw [hs] at h <;> first | cases h | skip
    · exact ih h hops (hw.step op hop hs)
    · exact ih h hops (hw.throw op hop hs)

theorem demo_reachable {O : Oracle K V} {ops : List (WOp K V)} {i : Nat} {s : St (Cache K V) K V}
    (h : demo O ops i = some s) (hok : ops.all (fun op => !op.copies) = true) : Reachable O s := by
  unfold demo at h
  cases he : exec O ops Impl.initWorld with
  | none => rw [he] at h; cases h
  | some w =>
    rw [he] at h
    rcases hc : w.caches[i]? with _ | _ | c
    · simp [hc] at h
    · simp [hc] at h
    · simp only [hc, Option.some.injEq] at h
      refine ⟨w, _, i, c, (exec_reach (ok := fun op => op.copies = false) he ?_ .init).prog, rfl, hc, h.symm⟩
      intro op hop
      have := List.all_eq_true.1 hok op hop
      simpa using this

/-- The state (a default is used only if the program went wrong). -/
def demoState (O : Oracle K V) (ops : List (WOp K V)) (i : Nat) : St (Cache K V) K V :=
  (demo O ops i).getD ⟨Impl.emptyCache .basic 0, Impl.initWorld.g⟩

theorem demoState_reachable {O : Oracle K V} {ops : List (WOp K V)} {i : Nat}
    (h : (demo O ops i).isSome = true) (hok : ops.all (fun op => !op.copies) = true) :
    Reachable O (demoState O ops i) := by
  unfold demoState
  cases hd : demo O ops i with
  | none => rw [hd] at h; cases h
  | some s => exact demo_reachable hd hok

/-- Natural numbers compared by `==`. -/
instance natKeyEqual : KeyEqual Nat where
  keq a b := a == b
  refl := by simp
  symm a b := BEq.comm
  trans a b c h h' := by rw [eq_of_beq h]; exact h'

/-- An environment in which nothing fails, time advances by one tick per reading, and the hash table enumerates
the newest element first. -/
def calmO : Oracle Nat Nat where
  clock n := n
  fails _ _ := false
  shuffle _ l := l
  shuffle_perm _ l := List.Perm.refl l

/-- The result of a call, forgetting the state. -/
def Out.result {σ α : Type} : Out σ α → Option α
  | .ok a _ => some a
  | _ => none

/-- The state after a call. -/
def Out.state {σ α : Type} : Out σ α → Option σ
  | .ok _ s => some s
  | .throw _ s => some s
  | _ => none

/-- The exception a call throws. -/
def Out.err {σ α : Type} : Out σ α → Option Err
  | .throw e _ => some e
  | _ => none

/-- The call has undefined behaviour. -/
def Out.isUb {σ α : Type} : Out σ α → Bool
  | .ub => true
  | _ => false

theorem Out.isUb_iff {σ α : Type} {o : Out σ α} : o.isUb = true ↔ o = .ub := by cases o <;> simp [Out.isUb]

theorem Out.ok_of {σ α : Type} {o : Out σ α} {a : α} (h : o.result = some a) : ∃ s, o = .ok a s := by
  cases o <;> simp [Out.result] at h
  subst h; exact ⟨_, rfl⟩

/-- A call that returns `a` and leaves a state with `f s = y`. -/
theorem Out.ok_fact {σ α β : Type} {o : Out σ α} {a : α} {f : σ → β} {y : β} (h : o.result = some a)
    (hf : o.state.map f = some y) : ∃ s, o = .ok a s ∧ f s = y := by
  cases o <;> simp [Out.result] at h
  subst h
  exact ⟨_, rfl, by simpa [Out.state] using hf⟩

/-- A call that throws `e` and leaves a state with `f s = y`. -/
theorem Out.throw_fact {σ α β : Type} {o : Out σ α} {e : Err} {f : σ → β} {y : β} (h : o.err = some e)
    (hf : o.state.map f = some y) : ∃ s, o = .throw e s ∧ f s = y := by
  cases o <;> simp [Out.err] at h
  subst h
  exact ⟨_, rfl, by simpa [Out.state] using hf⟩

theorem calmO_calm : Calm calmO := fun _ _ => rfl

theorem calmO_steady : Steady calmO := by intro m n h; show (m : Int) ≤ n; omega

/-- A plain cache of capacity 3 holding 1, 2, 3, the least recently used being 2. -/
def demo3 : List (WOp Nat Nat) :=
  [.create .basic (.sized 3), .op 0 (.insert 1 10), .op 0 (.insert 2 20), .op 0 (.insert 3 30),
   .op 0 (.lookup 1)]

theorem demo3_reachable : Reachable calmO (demoState calmO demo3 0) :=
  demoState_reachable (by decide +kernel) rfl

example : entries (demoState calmO demo3 0).c = [(2, 20), (3, 30), (1, 10)] := by decide +kernel

example : ((Impl.step calmO (.insert 4 40) (demoState calmO demo3 0)).state.map fun s' => entries s'.c) =
    some [(3, 30), (1, 10), (4, 40)] := by decide +kernel

end LRU
