import Verif.Proofs.WorldInv
import Verif.Spec.Trace
/-!
# The possible outcomes of a program step
-/

set_option linter.unusedSectionVars false
set_option autoImplicit false

namespace LRU

variable {K V : Type} [KeyEqual K] [DecidableEq K] [DecidableEq V] {O : Oracle K V}

/-- One more fallible action. -/
def stepG (g : Shared K V) : Shared K V := { g with steps := g.steps + 1 }

/-- Everything a program step can do, in closed form. -/
inductive WEffect (O : Oracle K V) (w : World K V) : WOp K V → Except Err (Res K V) → World K V → Prop
  | created (kind : Kind) (ctor : Ctor K V) (n : Nat) (s' : St (Cache K V) K V) :
      Impl.ctorBody O ctor ⟨Impl.emptyCache kind (Impl.ctorCapacity ctor), { w.g with ext := Impl.allNodes w.caches }⟩
        = .ok n s' →
      WEffect O w (.create kind ctor) (.ok .unit) ⟨w.caches ++ [some s'.c], s'.g⟩
  | createThrow (kind : Kind) (ctor : Ctor K V) (e : Err) (s' : St (Cache K V) K V) :
      Impl.ctorBody O ctor ⟨Impl.emptyCache kind (Impl.ctorCapacity ctor), { w.g with ext := Impl.allNodes w.caches }⟩
        = .throw e s' →
      WEffect O w (.create kind ctor) (.error e) ⟨w.caches, s'.g⟩
  | destroyed (i : Nat) (c : Cache K V) : w.caches[i]? = some (some c) →
      WEffect O w (.destroy i) (.ok .unit) ⟨w.caches.set i none, w.g⟩
  | called (i : Nat) (o : Op K V) (c : Cache K V) (res : Except Err (Res K V)) (s' : St (Cache K V) K V) :
      w.caches[i]? = some (some c) → Performs O o (viewOf w i c) res s' →
      WEffect O w (.op i o) res ⟨w.caches.set i (some s'.c), s'.g⟩
  | swapped (i j : Nat) (a b : Cache K V) : w.caches[i]? = some (some a) → w.caches[j]? = some (some b) → i ≠ j →
      Impl.sameType a.kind b.kind = true →
      WEffect O w (.swap i j) (.ok .unit)
        ⟨(w.caches.set i (some { b with obs := a.obs })).set j (some { a with obs := b.obs }), w.g⟩
  | swapNothing (i j : Nat) (a b : Cache K V) : w.caches[i]? = some (some a) → w.caches[j]? = some (some b) →
      i = j ∨ Impl.sameType a.kind b.kind = false → WEffect O w (.swap i j) (.ok .unit) w
  | baseSwapped (i j : Nat) (a b : Cache K V) : w.caches[i]? = some (some a) → w.caches[j]? = some (some b) → i ≠ j →
      Impl.sameBase a.kind b.kind = true →
      WEffect O w (.swapBase i j) (.ok .unit)
        ⟨(w.caches.set i (some { b with obs := a.obs, kind := a.kind })).set j
          (some { a with obs := b.obs, kind := b.kind }), w.g⟩
  | baseSwapNothing (i j : Nat) (a b : Cache K V) : w.caches[i]? = some (some a) → w.caches[j]? = some (some b) →
      i = j ∨ Impl.sameBase a.kind b.kind = false → WEffect O w (.swapBase i j) (.ok .unit) w
  | moved (i : Nat) (b : Cache K V) : w.caches[i]? = some (some b) →
      WEffect O w (.moveCtor i) (.ok .unit)
        ⟨w.caches.set i (some { b with map := [], order := [], last := none, capacity := none }) ++
          [some { b with obs := {} }], w.g⟩
  | moveAssigned (i j : Nat) (a b : Cache K V) : w.caches[i]? = some (some a) → w.caches[j]? = some (some b) → i ≠ j →
      Impl.sameType a.kind b.kind = true →
      WEffect O w (.moveAssign i j) (.ok .unit)
        ⟨(w.caches.set i (some { b with obs := a.obs })).set j (some { a with obs := b.obs, kind := b.kind }), w.g⟩
  | moveNothing (i j : Nat) (a b : Cache K V) : w.caches[i]? = some (some a) → w.caches[j]? = some (some b) →
      i = j ∨ Impl.sameType a.kind b.kind = false → WEffect O w (.moveAssign i j) (.ok .unit) w
  | copied (i : Nat) (b c : Cache K V) : w.caches[i]? = some (some b) → Impl.copyOf O w.g.next b = some c →
      WEffect O w (.copyCtor i) (.ok .unit)
        ⟨w.caches ++ [some c], { stepG w.g with next := w.g.next + w.g.next + b.order.length }⟩
  | copyThrow (i : Nat) (b : Cache K V) : w.caches[i]? = some (some b) → O.fails .mapNode w.g.steps = true →
      WEffect O w (.copyCtor i) (.error .badAlloc) ⟨w.caches, stepG w.g⟩
  | copyAssigned (i j : Nat) (a b c : Cache K V) : w.caches[i]? = some (some a) → w.caches[j]? = some (some b) → i ≠ j →
      Impl.sameType a.kind b.kind = true → Impl.copyOf O w.g.next b = some c →
      WEffect O w (.copyAssign i j) (.ok .unit)
        ⟨w.caches.set i (some c), { stepG w.g with next := w.g.next + w.g.next + b.order.length }⟩
  | copyNothing (i j : Nat) (a b : Cache K V) : w.caches[i]? = some (some a) → w.caches[j]? = some (some b) →
      i = j ∨ Impl.sameType a.kind b.kind = false → WEffect O w (.copyAssign i j) (.ok .unit) w
  | same (i : Nat) (a : Cache K V) : w.caches[i]? = some (some a) → WEffect O w (.eq i i) (.ok (.bool true)) w
  | compared (i j : Nat) (a b : Cache K V) (r : Bool) : w.caches[i]? = some (some a) → w.caches[j]? = some (some b) →
      i ≠ j → Impl.cacheEq a b = some r → WEffect O w (.eq i j) (.ok (.bool r)) w
  | newStats (ks : List K) : WEffect O w (.newStats ks) (.ok (.nat w.g.nextStat)) ⟨w.caches, { w.g with
      nextStat := w.g.nextStat + 1
      stats := fun j => if j = w.g.nextStat then Statistics.ofKeys ks else w.g.stats j }⟩
  | stat (id : Nat) (o : SOp K) (st : Statistics K) : Impl.statStep (w.g.stats id) o = .ok st →
      WEffect O w (.stat id o) (.ok .unit) ⟨w.caches, { w.g with stats := fun j => if j = id then st else w.g.stats j }⟩
  | statThrow (id : Nat) (o : SOp K) (e : Err) : Impl.statStep (w.g.stats id) o = .error e →
      WEffect O w (.stat id o) (.error e) w

/-- An outcome matches what a program step can do. -/
def Out.Eff (O : Oracle K V) (w : World K V) (op : WOp K V) : Out (World K V) (Res K V) → Prop
  | .ok r w' => WEffect O w op (.ok r) w'
  | .throw e w' => WEffect O w op (.error e) w'
  | _ => True

theorem set_two {α : Type} (l : List α) {i j : Nat} (x y : α) (h : i ≠ j) : (l.set i x).set j y = (l.set j y).set i x := by
  apply List.ext_getElem?
  intro n
  simp only [List.getElem?_set, List.length_set]
  by_cases h1 : i = n <;> by_cases h2 : j = n <;> simp_all

theorem worldAttempt_cases (site : Site) (w : World K V) :
    (Impl.worldAttempt O site w = .ok () ⟨w.caches, stepG w.g⟩ ∧ O.fails site w.g.steps = false) ∨
    (Impl.worldAttempt O site w = .throw .badAlloc ⟨w.caches, stepG w.g⟩ ∧ O.fails site w.g.steps = true) := by
  unfold Impl.worldAttempt
  cases h : O.fails site w.g.steps with
  | true => right; exact ⟨by simp [stepG], rfl⟩
  | false => left; exact ⟨by simp [stepG], rfl⟩

/-- A copy has the members of the original except for the containers. -/
theorem copyOf_fields {base : Ptr} {b c : Cache K V} (h : Impl.copyOf O base b = some c) :
    c = { b with map := c.map, order := c.order } := by
  unfold Impl.copyOf at h
  simp only at h
  split at h
  · cases h
  · injection h with h; subst h; rfl

theorem makeCopy_none {w : World K V} {b : Cache K V} (h : Impl.copyOf O w.g.next b = none) :
    Impl.makeCopy O b w = .ub := by
  unfold Impl.makeCopy; rw [h]

theorem makeCopy_some {w : World K V} {b c : Cache K V} (h : Impl.copyOf O w.g.next b = some c) :
    Impl.makeCopy O b w = .ok c { w with g := { w.g with next := w.g.next + w.g.next + b.order.length } } := by
  unfold Impl.makeCopy; rw [h]

section noexcept

variable {σ α : Type} {m : M σ α} {s s' : σ} {a : α} {e : Err}

theorem noexcept_ok (h : m s = .ok a s') : M.noexcept m s = .ok a s' := by unfold M.noexcept; rw [h]
theorem noexcept_ub (h : m s = .ub) : M.noexcept m s = .ub := by unfold M.noexcept; rw [h]
theorem noexcept_throw (h : m s = .throw e s') : M.noexcept m s = .terminate := by unfold M.noexcept; rw [h]

end noexcept

theorem wstep_eff (w : World K V) (op : WOp K V) : (Impl.wstep O op w).Eff O w op := by
  cases op with
  | create kind ctor =>
    show (M.bind _ _ w).Eff O w _
    unfold M.bind Impl.create
    split <;> try trivial
    · next h =>
      split at h <;> cases h
      next h => exact .created _ _ _ _ h
    · next h =>
      split at h <;> cases h
      next h => exact .createThrow _ _ _ _ h
  | destroy i =>
    show (Impl.ret (Impl.getCache i >>= _) _ w).Eff O w _
    rcases getCache_cases i w with ⟨c, hc, hg⟩ | hu
    · rw [ret_ok (a := ()) (s' := ⟨w.caches.set i none, w.g⟩) (by rw [bind_ok hg]; rfl)]
      exact .destroyed i c hc
    · rw [ret_ub (bind_ub hu)]; trivial
  | op i o =>
    show (Impl.onCache i (Impl.step O o) w).Eff O w _
    unfold Impl.onCache
    rcases hc : w.caches[i]? with _ | _ | c
    · trivial
    · trivial
    · simp only
      generalize hs : Impl.step O o ⟨c, _⟩ = out
      cases out with
      | ok a s1 => exact .called i o c (.ok a) s1 hc hs
      | throw e s1 => exact .called i o c (.error e) s1 hc hs
      | ub => trivial
      | terminate => trivial
      | diverge => trivial
  | swap i j =>
    show (Impl.ret (Impl.swap i j) _ w).Eff O w _
    unfold Impl.swap
    rcases getCache_cases i w with ⟨a, ha, hga⟩ | hu
    · rcases getCache_cases j w with ⟨b, hb, hgb⟩ | hu
      · by_cases hc : (i = j || !Impl.sameType a.kind b.kind) = true
        · rw [ret_ok (a := ()) (s' := w) (by rw [bind_ok hga, bind_ok hgb, if_pos (by simpa using hc)]; rfl)]
          exact .swapNothing i j a b ha hb (by simpa using hc)
        · rw [ret_ok (a := ()) (s' := _) (by rw [bind_ok hga, bind_ok hgb, if_neg (by simpa using hc)]; rfl)]
          have h2 : i ≠ j ∧ Impl.sameType a.kind b.kind = true := by simpa using hc
          have := WEffect.swapped (O := O) i j a b ha hb h2.1 h2.2
          exact this
      · rw [ret_ub (by rw [bind_ok hga, bind_ub hu])]; trivial
    · rw [ret_ub (bind_ub hu)]; trivial
  | swapBase i j =>
    show (Impl.ret (Impl.swapThroughBase i j) _ w).Eff O w _
    unfold Impl.swapThroughBase
    rcases getCache_cases i w with ⟨a, ha, hga⟩ | hu
    · rcases getCache_cases j w with ⟨b, hb, hgb⟩ | hu
      · by_cases hc : (i = j || !Impl.sameBase a.kind b.kind) = true
        · rw [ret_ok (a := ()) (s' := w) (by rw [bind_ok hga, bind_ok hgb, if_pos (by simpa using hc)]; rfl)]
          exact .baseSwapNothing i j a b ha hb (by simpa using hc)
        · rw [ret_ok (a := ()) (s' := _) (by rw [bind_ok hga, bind_ok hgb, if_neg (by simpa using hc)]; rfl)]
          have h2 : i ≠ j ∧ Impl.sameBase a.kind b.kind = true := by simpa using hc
          have := WEffect.baseSwapped (O := O) i j a b ha hb h2.1 h2.2
          exact this
      · rw [ret_ub (by rw [bind_ok hga, bind_ub hu])]; trivial
    · rw [ret_ub (bind_ub hu)]; trivial
  | moveCtor i =>
    show (Impl.ret (Impl.moveCtor i) _ w).Eff O w _
    unfold Impl.moveCtor
    rcases getCache_cases i w with ⟨b, hb, hg⟩ | hu
    · rw [ret_ok (a := ()) (s' := _) (by rw [bind_ok hg]; rfl)]
      exact .moved i b hb
    · rw [ret_ub (bind_ub hu)]; trivial
  | moveAssign i j =>
    show (Impl.ret (Impl.moveAssign i j) _ w).Eff O w _
    unfold Impl.moveAssign
    rcases getCache_cases i w with ⟨a, ha, hga⟩ | hu
    · rcases getCache_cases j w with ⟨b, hb, hgb⟩ | hu
      · by_cases hc : (i = j || !Impl.sameType a.kind b.kind) = true
        · rw [ret_ok (a := ()) (s' := w) (by rw [bind_ok hga, bind_ok hgb, if_pos (by simpa using hc)]; rfl)]
          exact .moveNothing i j a b ha hb (by simpa using hc)
        · rw [ret_ok (a := ()) (s' := _) (by rw [bind_ok hga, bind_ok hgb, if_neg (by simpa using hc)]; rfl)]
          have h2 : i ≠ j ∧ Impl.sameType a.kind b.kind = true := by simpa using hc
          have := WEffect.moveAssigned (O := O) i j a b ha hb h2.1 h2.2
          exact this
      · rw [ret_ub (by rw [bind_ok hga, bind_ub hu])]; trivial
    · rw [ret_ub (bind_ub hu)]; trivial
  | copyCtor i =>
    show (Impl.ret (Impl.copyCtor O i) _ w).Eff O w _
    unfold Impl.copyCtor
    rcases getCache_cases i w with ⟨b, hb, hg⟩ | hu
    · rcases worldAttempt_cases (O := O) .mapNode w with ⟨h1, h2⟩ | ⟨h1, h2⟩
      · cases hc : Impl.copyOf O w.g.next b with
        | none => rw [ret_ub (by rw [bind_ok hg, bind_ok h1, bind_ub (makeCopy_none (by exact hc))])]; trivial
        | some c =>
          rw [ret_ok (a := ()) (s' := _) (by rw [bind_ok hg, bind_ok h1, bind_ok (makeCopy_some (by exact hc))]; rfl)]
          exact .copied i b c hb hc
      · rw [ret_throw (by rw [bind_ok hg, bind_throw h1])]
        exact .copyThrow i b hb h2
    · rw [ret_ub (bind_ub hu)]; trivial
  | copyAssign i j =>
    show (Impl.ret (Impl.copyAssign O i j) _ w).Eff O w _
    unfold Impl.copyAssign
    rcases getCache_cases i w with ⟨a, ha, hga⟩ | hu
    · rcases getCache_cases j w with ⟨b, hb, hgb⟩ | hu
      · by_cases hc : (i = j || !Impl.sameType a.kind b.kind) = true
        · rw [ret_ok (a := ()) (s' := w) (noexcept_ok (by rw [bind_ok hga, bind_ok hgb, if_pos (by simpa using hc)]; rfl))]
          exact .copyNothing i j a b ha hb (by simpa using hc)
        · have h3 : i ≠ j ∧ Impl.sameType a.kind b.kind = true := by simpa using hc
          rcases worldAttempt_cases (O := O) .mapNode w with ⟨h1, h2⟩ | ⟨h1, h2⟩
          · cases hcp : Impl.copyOf O w.g.next b with
            | none =>
              rw [ret_ub (noexcept_ub (by
                rw [bind_ok hga, bind_ok hgb, if_neg (by simpa using hc), bind_ok h1, bind_ub (makeCopy_none (by exact hcp))]))]
              trivial
            | some c =>
              rw [ret_ok (a := ()) (s' := _) (noexcept_ok (by
                rw [bind_ok hga, bind_ok hgb, if_neg (by simpa using hc), bind_ok h1, bind_ok (makeCopy_some (by exact hcp))]
                rfl))]
              exact .copyAssigned i j a b c ha hb h3.1 h3.2 hcp
          · have : Impl.ret (M.noexcept (Impl.getCache i >>= fun a => Impl.getCache j >>= fun b =>
                if (i = j || !Impl.sameType a.kind b.kind) = true then pure () else
                  Impl.worldAttempt O .mapNode >>= fun _ => Impl.makeCopy O b >>= fun c => Impl.putCache i (some c)))
                (fun _ => (.unit : Res K V)) w = .terminate := by
              refine bind_terminate (noexcept_throw (e := .badAlloc) (s' := ⟨w.caches, stepG w.g⟩) ?_)
              rw [bind_ok hga, bind_ok hgb, if_neg (by simpa using hc), bind_throw h1]
            have h4 : Out.Eff O w (.copyAssign i j) (.terminate) := trivial
            exact this ▸ h4
      · rw [ret_ub (noexcept_ub (by rw [bind_ok hga, bind_ub hu]))]; trivial
    · rw [ret_ub (noexcept_ub (bind_ub hu))]; trivial
  | eq i j =>
    show (Impl.ret (Impl.equal i j) _ w).Eff O w _
    unfold Impl.equal
    rcases getCache_cases i w with ⟨a, ha, hga⟩ | hu
    · rcases getCache_cases j w with ⟨b, hb, hgb⟩ | hu
      · by_cases hij : i = j
        · subst hij
          rw [ret_ok (a := true) (s' := w) (by rw [bind_ok hga, bind_ok hgb, if_pos rfl]; rfl)]
          exact .same i a ha
        · cases hc : Impl.cacheEq a b with
          | none => rw [ret_ub (by rw [bind_ok hga, bind_ok hgb, if_neg hij, hc]; rfl)]; trivial
          | some r =>
            rw [ret_ok (a := r) (s' := w) (by rw [bind_ok hga, bind_ok hgb, if_neg hij, hc]; rfl)]
            exact .compared i j a b r ha hb hij hc
      · rw [ret_ub (by rw [bind_ok hga, bind_ub hu])]; trivial
    · rw [ret_ub (bind_ub hu)]; trivial
  | newStats ks => exact .newStats ks
  | stat id o =>
    show (Impl.ret (Impl.stat id o) _ w).Eff O w _
    cases hs : Impl.statStep (w.g.stats id) o with
    | error e =>
      rw [ret_throw (e := e) (s' := w) (by unfold Impl.stat; rw [hs])]
      exact .statThrow id o e hs
    | ok st =>
      rw [ret_ok (a := ()) (s' := _) (by unfold Impl.stat; rw [hs])]
      exact .stat id o st hs

theorem WPerforms.effect {w w' : World K V} {op : WOp K V} {res : Except Err (Res K V)} (h : WPerforms O op w res w') :
    WEffect O w op res w' := by
  have h1 := wstep_eff (O := O) w op
  cases res with
  | ok r =>
    rw [show Impl.wstep O op w = _ from h] at h1
    exact h1
  | error e =>
    rw [show Impl.wstep O op w = _ from h] at h1
    exact h1

end LRU
