import Verif.Proofs.Layers
/-!
# Callbacks that use one cache only

Here the model with several caches (`Model.Layers`) and the one with a single cache (`Model.Reenter`) agree.
-/

set_option linter.unusedSectionVars false
set_option autoImplicit false

namespace LRU

variable {K V : Type} [KeyEqual K] [DecidableEq K] [DecidableEq V] {α β : Type} {i : Nat}

/-- Cache `i` is live, the shared state lists the nodes of the other caches, and the cache is in bounds. -/
structure Settled (i : Nat) (w : World K V) (c : Cache K V) : Prop where
  live : w.caches[i]? = some (some c)
  ext : w.g.ext = Impl.allNodes (w.caches.set i none)
  bounded : Bounded ⟨c, w.g⟩

/-- `m'` is `m` on cache `i`. -/
structure Lift (i : Nat) (m' : M (World K V) α) (m : Impl.CM K V α) : Prop where
  raw : Raw m
  eq : ∀ w c, Settled i w c → m' w = Impl.onCache i m w

theorem Settled.view {w : World K V} {c : Cache K V} (h : Settled i w c) : viewOf w i c = ⟨c, w.g⟩ := by
  unfold viewOf
  rw [← h.ext]

theorem Settled.next {w : World K V} {c : Cache K V} (h : Settled i w c) {s : St (Cache K V) K V}
    (hs : RawStep ⟨c, w.g⟩ s) : Settled i ⟨w.caches.set i (some s.c), s.g⟩ s.c := by
  refine ⟨get_set_self h.live, ?_, hs.bounded⟩
  rw [hs.ext]
  show w.g.ext = Impl.allNodes ((w.caches.set i (some s.c)).set i none)
  rw [h.ext, List.set_set]

/-- What comes after a program on cache `i`. -/
theorem onCache_after {l : List (Option (Cache K V))} {s : St (Cache K V) K V}
    (h : Settled i ⟨l.set i (some s.c), s.g⟩ s.c) (m : Impl.CM K V α) :
    Impl.onCache i m ⟨l.set i (some s.c), s.g⟩ =
      match m s with
      | .ok a s => .ok a ⟨l.set i (some s.c), s.g⟩
      | .throw e s => .throw e ⟨l.set i (some s.c), s.g⟩
      | .ub => .ub
      | .terminate => .terminate
      | .diverge => .diverge := by
  rw [onCache_of h.live, h.view]
  show (match m s with | .ok a s' => _ | .throw e s' => _ | .ub => _ | .terminate => _ | .diverge => _) = _
  cases m s <;> simp only [List.set_set]

theorem Lift.on {m : Impl.CM K V α} (h : Raw m) : Lift i (Impl.onCache i m) m := ⟨h, fun _ _ _ => rfl⟩

theorem Lift.bind {m' : M (World K V) α} {m : Impl.CM K V α} {f' : α → M (World K V) β} {f : α → Impl.CM K V β}
    (h : Lift i m' m) (hf : ∀ a, Lift i (f' a) (f a)) : Lift i (m' >>= f') (m >>= f) := by
  refine ⟨h.raw.bind fun a => (hf a).raw, fun w c hw => ?_⟩
  have h1 := h.eq w c hw
  have h2 := h.raw _ hw.bounded
  show M.bind m' f' w = Impl.onCache i (M.bind m f) w
  rw [onCache_of hw.live, hw.view] at h1 ⊢
  unfold M.bind
  rw [h1]
  cases hm : m ⟨c, w.g⟩ with
  | ok a s =>
    rw [hm] at h2
    have hn := hw.next h2
    simp only
    rw [(hf a).eq _ _ hn]
    exact onCache_after hn _
  | _ => rfl

theorem Lift.pure {a : α} : Lift i (Pure.pure a : M (World K V) α) (Pure.pure a) := by
  refine ⟨.pure, fun w c hw => ?_⟩
  rw [onCache_of hw.live, hw.view]
  show Out.ok a w = Out.ok a ⟨w.caches.set i (some c), w.g⟩
  rw [set_same hw.live]

theorem Lift.throw {e : Err} : Lift i (M.throw e : M (World K V) α) (M.throw e) := by
  refine ⟨.throw, fun w c hw => ?_⟩
  rw [onCache_of hw.live, hw.view]
  show Out.throw e w = Out.throw e ⟨w.caches.set i (some c), w.g⟩
  rw [set_same hw.live]

theorem Lift.ub : Lift i (M.ub : M (World K V) α) (M.ub) := by
  refine ⟨.ub, fun w c hw => ?_⟩
  rw [onCache_of hw.live]
  rfl

theorem Lift.diverge : Lift i (M.diverge : M (World K V) α) (M.diverge) := by
  refine ⟨.diverge, fun w c hw => ?_⟩
  rw [onCache_of hw.live]
  rfl

theorem Lift.ite {c : Prop} [Decidable c] {m₁' m₂' : M (World K V) α} {m₁ m₂ : Impl.CM K V α} (h₁ : Lift i m₁' m₁)
    (h₂ : Lift i m₂' m₂) : Lift i (if c then m₁' else m₂') (if c then m₁ else m₂) := by
  split <;> assumption

variable {O : Oracle K V} {G : Event K V → Script K V} {F : Nat → Event K V → WScript K V}

theorem entryU_raw {it : Option Ptr} : Raw (Impl.entryU O it) :=
  derefIt_raw.bind fun _ => throwIfInvalidU_raw.bind fun _ => .pure

/-- The body of a callback. -/
theorem runW_lift {call' : Nat → Op K V → M (World K V) (Res K V)} {call : Op K V → Impl.CM K V (Res K V)}
    (h : ∀ op, Lift i (call' i op) (call op)) (p : Script K V) :
    Lift i (Impl.runW call' (WScript.on i p)) (Impl.runScript call p) := by
  induction p with
  | done => exact .pure
  | call op next ih =>
    refine ⟨fun s hs => ?_, fun w c hw => ?_⟩
    · have h1 := (h op).raw s hs
      unfold Impl.runScript
      cases hc : call op s with
      | ok r s' => rw [hc] at h1; exact ((ih (.ok r)).raw s' h1.bounded).imp fun _ h2 => RawStep.trans h1 h2
      | throw e s' => rw [hc] at h1; exact ((ih (.error e)).raw s' h1.bounded).imp fun _ h2 => RawStep.trans h1 h2
      | _ => trivial
    · have h1 := (h op).eq w c hw
      have h2 := (h op).raw _ hw.bounded
      rw [onCache_of hw.live, hw.view] at h1 ⊢
      show Impl.runW call' (.call i op fun r => WScript.on i (next r)) w = _
      unfold Impl.runW Impl.runScript
      rw [h1]
      cases hc : call op ⟨c, w.g⟩ with
      | ok r s =>
        rw [hc] at h2
        have hn := hw.next h2
        simp only
        rw [(ih (.ok r)).eq _ _ hn]
        exact onCache_after hn _
      | throw e s =>
        rw [hc] at h2
        have hn := hw.next h2
        simp only
        rw [(ih (.error e)).eq _ _ hn]
        exact onCache_after hn _
      | _ => rfl

section calls

variable {call' : List (Nat × CbList) → Nat → Op K V → M (World K V) (Res K V)}
variable {call : List CbList → Op K V → Impl.CM K V (Res K V)} {busy : List CbList} {k : K}

/-- The containers of cache `i`. -/
def busyOf (i : Nat) (busy : List CbList) : List (Nat × CbList) := busy.map fun b => (i, b)

theorem callEachL_lift (hF : ∀ e, F i e = WScript.on i (G e)) {call' : Nat → Op K V → M (World K V) (Res K V)}
    {call : Op K V → Impl.CM K V (Res K V)} (h : ∀ op, Lift i (call' i op) (call op)) {ev : Nat → Impl.CM K V (Event K V)}
    (he : ∀ cb, Raw (ev cb)) (l : List Nat) :
    Lift i (Impl.callEachL O F i call' ev l) (Impl.callEachR O G call ev l) := by
  induction l with
  | nil => exact .pure
  | cons cb rest ih =>
    refine (Lift.on (he cb)).bind fun e => (Lift.on emit_raw).bind fun _ => ?_
    rw [hF e]
    exact (runW_lift h (G e)).bind fun _ => (Lift.on attempt_raw).bind fun _ => ih

theorem registerHitL_lift (hF : ∀ e, F i e = WScript.on i (G e))
    (h : ∀ b op, Lift i (call' (busyOf i b) i op) (call b op)) {p : Ptr} :
    Lift i (Impl.registerHitL O F call' (busyOf i busy) i k p) (Impl.registerHitR O G call busy k p) :=
  (Lift.on getObs_raw).bind fun _ => (Lift.on countHit_raw).bind fun _ =>
    (callEachL_lift hF (h (.hit :: busy)) (fun _ => deref_raw.bind fun _ => .pure) _).bind fun _ =>
      (Lift.on getObs_raw).bind fun _ => callEachL_lift hF (h (.access :: busy)) (fun _ => .pure) _

theorem registerMissL_lift (hF : ∀ e, F i e = WScript.on i (G e))
    (h : ∀ b op, Lift i (call' (busyOf i b) i op) (call b op)) :
    Lift i (Impl.registerMissL O F call' (busyOf i busy) i k) (Impl.registerMissR O G call busy k) :=
  (Lift.on getObs_raw).bind fun _ => (Lift.on countMiss_raw).bind fun _ =>
    (callEachL_lift hF (h (.miss :: busy)) (fun _ => .pure) _).bind fun _ =>
      (Lift.on getObs_raw).bind fun _ => callEachL_lift hF (h (.access :: busy)) (fun _ => .pure) _

theorem findL_lift (hF : ∀ e, F i e = WScript.on i (G e))
    (h : ∀ b op, Lift i (call' (busyOf i b) i op) (call b op)) :
    Lift i (Impl.findL O F call' (busyOf i busy) i k) (Impl.findR O G call busy k) := by
  refine (Lift.on mapFind_raw).bind fun r => ?_
  cases r with
  | none => exact (registerMissL_lift hF h).bind fun _ => .pure
  | some n =>
    refine (Lift.on hasExpiredInfo_raw).bind fun b => .ite ?_ ?_
    · exact (registerMissL_lift hF h).bind fun _ => .pure
    · exact (registerHitL_lift hF h).bind fun _ => (Lift.on touchR_raw).bind fun _ => .pure

theorem containsL_lift (hF : ∀ e, F i e = WScript.on i (G e))
    (h : ∀ b op, Lift i (call' (busyOf i b) i op) (call b op)) :
    Lift i (Impl.containsL O F call' (busyOf i busy) i k) (Impl.containsR O G call busy k) := by
  refine (Lift.on lastIs_raw).bind fun b => .ite ?_ ?_
  · refine (Lift.on lastAccessedIsOk_raw).bind fun b => .ite ?_ .pure
    exact (Lift.on lastNode_raw).bind fun n => (registerHitL_lift hF h).bind fun _ => .pure
  · exact (findL_lift hF h).bind fun _ => .pure

theorem lookupL_lift (hF : ∀ e, F i e = WScript.on i (G e))
    (h : ∀ b op, Lift i (call' (busyOf i b) i op) (call b op)) :
    Lift i (Impl.lookupL O F call' (busyOf i busy) i k) (Impl.lookupR O G call busy k) := by
  refine (Lift.on lastIs_raw).bind fun b => .ite ?_ ?_
  · exact (Lift.on valueForLastAccessed_raw).bind fun n => (registerHitL_lift hF h).bind fun _ =>
      (Lift.on deref_raw).bind fun _ => .pure
  · refine (findL_lift hF h).bind fun r => ?_
    cases r with
    | none => exact .throw
    | some p => exact (Lift.on entryU_raw).bind fun _ => .pure

theorem dispatchL_lift (hF : ∀ e, F i e = WScript.on i (G e))
    (h : ∀ b op, Lift i (call' (busyOf i b) i op) (call b op)) (op : Op K V) :
    Lift i (Impl.dispatchL O F call' (busyOf i busy) i op) (Impl.dispatchR O G call busy op) := by
  unfold Impl.dispatchL Impl.dispatchR
  split
  · exact (containsL_lift hF h).bind fun _ => .pure
  · exact (findL_lift hF h).bind fun _ => .pure
  · exact (lookupL_lift hF h).bind fun _ => .pure
  · rename_i h1 h2 h3
    split
    · exact absurd rfl (h1 _)
    · exact absurd rfl (h2 _)
    · exact absurd rfl (h3 _)
    · exact .on (step_raw op)

end calls

theorem busy_any (i : Nat) (busy : List CbList) (op : Op K V) :
    (busyOf i busy).any (fun b => b.1 == i && op.registers b.2) = busy.any op.registers := by
  unfold busyOf
  induction busy with
  | nil => rfl
  | cons b rest ih => simp only [List.map_cons, List.any_cons, ih, beq_self_eq_true, Bool.true_and]

theorem stepL_lift (hF : ∀ e, F i e = WScript.on i (G e)) (d : Nat) (busy : List CbList) (op : Op K V) :
    Lift i (Impl.stepL O F d (busyOf i busy) i op) (Impl.stepR O G d busy op) := by
  induction d generalizing busy op with
  | zero => exact .diverge
  | succ d ih =>
    unfold Impl.stepL Impl.stepR
    rw [busy_any]
    exact .ite .ub (dispatchL_lift hF (fun b op => ih b op) op)

/-! ### The first step -/

/-- The shared state lists the nodes of the other caches. -/
def settle (i : Nat) (w : World K V) : World K V :=
  ⟨w.caches, { w.g with ext := Impl.allNodes (w.caches.set i none) }⟩

/-- `m` looks at `w` through cache `i` only. -/
def Starts (i : Nat) (m : M (World K V) α) : Prop := ∀ w, m w = m (settle i w)

theorem onCache_starts (m : Impl.CM K V α) : Starts i (Impl.onCache i m) := by
  intro w
  rfl

theorem Starts.bind {m : M (World K V) α} (f : α → M (World K V) β) (h : Starts i m) : Starts i (m >>= f) := by
  intro w
  show M.bind m f w = M.bind m f (settle i w)
  unfold M.bind
  rw [← h w]

theorem dispatchL_starts {call' : List (Nat × CbList) → Nat → Op K V → M (World K V) (Res K V)}
    {busy : List (Nat × CbList)} (op : Op K V) : Starts i (Impl.dispatchL O F call' busy i op) := by
  unfold Impl.dispatchL
  split
  · exact ((onCache_starts _).bind _).bind _
  · exact ((onCache_starts _).bind _).bind _
  · exact ((onCache_starts _).bind _).bind _
  · exact onCache_starts _

theorem stepL_starts (d : Nat) (busy : List (Nat × CbList)) (op : Op K V) : Starts i (Impl.stepL O F d busy i op) := by
  cases d with
  | zero => exact fun _ => rfl
  | succ d =>
    unfold Impl.stepL
    split
    · exact fun _ => rfl
    · exact dispatchL_starts op

/-- Callbacks that use their own cache only. -/
theorem stepL_one {w : World K V} {c : Cache K V} (hF : ∀ e, F i e = WScript.on i (G e)) (hc : w.caches[i]? = some (some c))
    (hb : Bounded (viewOf w i c)) (d : Nat) (op : Op K V) :
    Impl.stepL O F d [] i op w = Impl.onCache i (Impl.stepR O G d [] op) w := by
  rw [stepL_starts d [] op w, onCache_starts _ w]
  exact (stepL_lift (busy := []) hF d op).eq _ c ⟨hc, rfl, hb⟩

end LRU
