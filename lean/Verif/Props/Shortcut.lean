import Verif.Proofs.Shortcut
import Verif.Props.Exceptions
import Verif.Spec.Demo
/-!
# The last-accessed shortcut is unobservable on plain caches (C17)

`forget` makes `_last_accessed` invalid, so that a call on `forget s` is never served by the shortcut. A call on a plain
cache ends the same way with and without: same result or exception, same entries in the same order with the same
identities, same statistics, callbacks, clock readings and allocations.

The theorems assume that assigning a value never throws (`NoAssignFault`); without this the property is false of the
code (`C17_refuted`). For timed caches it is false in any case (`C17_timed_shortcut_observable`).
-/

set_option autoImplicit false
set_option linter.unusedSectionVars false

namespace LRU

variable {K V : Type} [KeyEqual K] [DecidableEq K] [DecidableEq V] {O : Oracle K V}
variable {s s' : St (Cache K V) K V}

section lemmas

theorem L.same {s₁ s₂ : St (Cache K V) K V} {t u : St (MCache K V) K V} (h : L t u) (h₁ : Rel s₁ t) (h₂ : Rel s₂ u) :
    SameButLast s₁ s₂ where
  order := by rw [h₁.rep.order, h₂.rep.order, h.ents]
  map := by
    refine h₂.rep.map.trans ?_
    rw [h.ents]
    exact h₁.rep.map.symm
  elements := by rw [h₁.elements, h₂.elements, h.ents]
  capacity := by rw [h₁.rep.cap, h₂.rep.cap, h.cap]
  kind := by rw [h₁.rep.kind, h₂.rep.kind, h.kind]
  obs := by rw [h₁.rep.obs, h₂.rep.obs, h.obs]
  shared := by rw [h₁.g, h₂.g, h.g]

/-- The list machine with `_last_accessed` made invalid. -/
def forgetM (t : St (MCache K V) K V) : St (MCache K V) K V := ⟨{ t.c with last := none }, t.g⟩

theorem forget_awf {a : MCache K V} {g : Shared K V} (h : AWF a g) : AWF { a with last := none } g :=
  ⟨h.ids, h.slots, h.keys, h.linked, h.bound, h.capNone, h.lt, fun _ _ _ h => (by cases h), fun _ h => (by cases h),
    h.extDisj, h.extLt⟩

theorem forget_ok {t : St (MCache K V) K V} (h : OkM t) : OkM (forgetM t) :=
  ⟨⟨forget_awf h.ok.awf, h.ok.clean.linked, fun _ h => (by cases h)⟩, fun _ h => (by cases h)⟩

theorem forget_rel {t : St (MCache K V) K V} (h : Rel s t) : Rel (forget s) (forgetM t) :=
  ⟨⟨h.rep.order, h.rep.map, rfl, h.rep.cap, h.rep.kind, h.rep.obs⟩, h.g, forget_awf h.awf⟩

/-- Both list machines are in order and equal but for `_last_accessed`. -/
def AlikeL (s₁ s₂ : St (Cache K V) K V) : Prop := ∃ t u, Rel s₁ t ∧ OkM t ∧ Rel s₂ u ∧ OkM u ∧ L t u

theorem AlikeL.same {s₁ s₂ : St (Cache K V) K V} (h : AlikeL s₁ s₂) : SameButLast s₁ s₂ := by
  obtain ⟨t, u, h1, -, h2, -, hl⟩ := h
  exact hl.same h1 h2

theorem AlikeL.symm {s₁ s₂ : St (Cache K V) K V} (h : AlikeL s₁ s₂) : AlikeL s₂ s₁ := by
  obtain ⟨t, u, h1, h2, h3, h4, hl⟩ := h
  exact ⟨u, t, h3, h4, h1, h2, hl.symm⟩

theorem AlikeL.forget {s₁ s₂ : St (Cache K V) K V} (h : AlikeL s₁ s₂) : AlikeL s₁ (LRU.forget s₂) := by
  obtain ⟨t, u, h1, h2, h3, h4, hl⟩ := h
  exact ⟨t, forgetM u, h1, h2, forget_rel h3, forget_ok h4, hl.trans (.last hl.symm.basic none)⟩

theorem AlikeL.start (hO : NoListFault O) (hA : NoAssignFault O) (h : Reachable O s) (hk : s.c.kind = .basic) :
    AlikeL s s := by
  obtain ⟨t, hr, ht⟩ := h.relM hO hA
  exact ⟨t, t, hr, ht, hr, ht, .refl (hr.rep.kind ▸ hk)⟩

theorem AlikeL.step (hO : NoListFault O) (hA : NoAssignFault O) {s₁ s₂ : St (Cache K V) K V} (h : AlikeL s₁ s₂)
    (op : Op K V) : SameOutcome AlikeL (Impl.step O op s₁) (Impl.step O op s₂) := by
  obtain ⟨t, u, h1, ht, h2, hu, hl⟩ := h
  have a1 := step_sim hO op s₁ t h1 trivial
  have a2 := step_sim hO op s₂ u h2 trivial
  have k1 := step_keepsM hO hA op t ht
  have k2 := step_keepsM hO hA op u hu
  have l := step_l (O := O) hl ht hu op
  cases e1 : Mid.step O op t <;> cases e2 : Mid.step O op u <;> rw [e1, e2] at l <;> first | exact l.elim | skip
  all_goals
    rw [e1] at a1 k1
    rw [e2] at a2 k2
    cases m1 : Impl.step O op s₁ <;> cases m2 : Impl.step O op s₂ <;> rw [m1] at a1 <;> rw [m2] at a2 <;>
      first | exact a1.elim | exact a2.elim | trivial | skip
  · exact ⟨a2.1.trans (l.1.trans a1.1.symm), _, _, a1.2.1, k1, a2.2.1, k2, l.2⟩
  · exact ⟨a2.1.trans (l.1.trans a1.1.symm), _, _, a1.2, k1, a2.2, k2, l.2⟩

theorem AlikeL.performs (hO : NoListFault O) (hA : NoAssignFault O) {s₁ s₂ s₁' : St (Cache K V) K V} (h : AlikeL s₁ s₂)
    {op : Op K V} {res : Except Err (Res K V)} (hp : Performs O op s₁ res s₁') :
    ∃ s₂', Performs O op s₂ res s₂' ∧ AlikeL s₁' s₂' := by
  have hs := h.step hO hA op
  cases res with
  | ok r =>
    rw [show Impl.step O op s₁ = _ from hp] at hs
    cases m : Impl.step O op s₂ <;> rw [m] at hs <;> first | exact hs.elim | skip
    obtain ⟨rfl, hs⟩ := hs
    exact ⟨_, m, hs⟩
  | error e =>
    rw [show Impl.step O op s₁ = _ from hp] at hs
    cases m : Impl.step O op s₂ <;> rw [m] at hs <;> first | exact hs.elim | skip
    obtain ⟨rfl, hs⟩ := hs
    exact ⟨_, m, hs⟩

theorem SameOutcome.mono {σ α : Type} {R Q : σ → σ → Prop} (hR : ∀ s t, R s t → Q s t) {a b : Out σ α}
    (h : SameOutcome R a b) : SameOutcome Q a b := by
  cases a <;> cases b <;> first | exact h.elim | trivial | exact ⟨h.1, hR _ _ h.2⟩

end lemmas

/-- C17. Any call on a plain cache ends the same way whether or not `_last_accessed` is valid, whichever entry it
designates: with the same result, the same exception, undefined behaviour in the same cases. Entries and their order,
statistics, callbacks, allocations and clock readings are the same afterwards. -/
theorem C17_call_partial (hO : NoListFault O) (hA : NoAssignFault O) (h : Reachable O s) (hk : s.c.kind = .basic) (op : Op K V) :
    SameOutcome SameButLast (Impl.step O op s) (Impl.step O op (forget s)) :=
  ((AlikeL.start hO hA h hk).forget.step hO hA op).mono fun _ _ h => h.same

/-- C17, for whole histories. Any sequence of calls on a plain cache gets the same answers if `_last_accessed` is made
invalid before every single call. -/
theorem C17_run_partial (hO : NoListFault O) (hA : NoAssignFault O) (h : Reachable O s) (hk : s.c.kind = .basic)
    {hist : List (Call K V)} (hr : Run O s hist s') :
    ∃ hist' s'', RunWithout O s hist' s'' ∧ hist'.map Call.told = hist.map Call.told ∧ SameButLast s' s'' := by
  suffices hs : ∃ hist' s'', RunWithout O s hist' s'' ∧ hist'.map Call.told = hist.map Call.told ∧ AlikeL s' s'' by
    obtain ⟨h', s'', h1, h2, h3⟩ := hs
    exact ⟨h', s'', h1, h2, h3.same⟩
  induction hr with
  | nil => exact ⟨[], s, .nil, rfl, .start hO hA h hk⟩
  | call _ hp ih =>
    obtain ⟨h', s'', h1, h2, h3⟩ := ih
    obtain ⟨s₂, hp', ha⟩ := h3.forget.performs hO hA hp
    exact ⟨_, s₂, h1.call hp', by rw [List.map_cons, List.map_cons, h2]; rfl, ha⟩

/-- C17, the other way round: what happens without the shortcut happens with it. -/
theorem C17_run_back_partial (hO : NoListFault O) (hA : NoAssignFault O) (h : Reachable O s) (hk : s.c.kind = .basic)
    {hist : List (Call K V)} (hr : RunWithout O s hist s') :
    ∃ hist' s'', Run O s hist' s'' ∧ hist'.map Call.told = hist.map Call.told ∧ SameButLast s'' s' := by
  suffices hs : ∃ hist' s'', Run O s hist' s'' ∧ hist'.map Call.told = hist.map Call.told ∧ AlikeL s'' s' by
    obtain ⟨h', s'', h1, h2, h3⟩ := hs
    exact ⟨h', s'', h1, h2, h3.same⟩
  induction hr with
  | nil => exact ⟨[], s, .nil, rfl, .start hO hA h hk⟩
  | call _ hp ih =>
    obtain ⟨h', s'', h1, h2, h3⟩ := ih
    obtain ⟨s₂, hp', ha⟩ := h3.forget.symm.performs hO hA hp
    exact ⟨_, s₂, h1.call hp', by rw [List.map_cons, List.map_cons, h2]; rfl, ha.symm⟩

/-! The hypotheses can be met, and the shortcut is really taken: key `1` is the last accessed one. -/
example : Reachable calmO (demoState calmO demo3 0) ∧ (demoState calmO demo3 0).c.kind = .basic ∧
    (demoState calmO demo3 0).c.last.isSome = true ∧
    (Impl.step calmO (.contains 1) (demoState calmO demo3 0)).result = some (.bool true) ∧
    (Impl.step calmO (.contains 1) (forget (demoState calmO demo3 0))).result = some (.bool true) :=
  ⟨demo3_reachable, by decide +kernel, by decide +kernel, by decide +kernel, by decide +kernel⟩

/-- C17 fails if assigning a value may throw. `insert` of a stored key moves the entry to the most recently used place,
and only after the assignment makes it the last accessed one. If the assignment throws, the last accessed entry is not the
most recently used one, and the shortcut omits to move it there. -/
theorem C17_refuted :
    ¬ ∀ (O : Oracle Nat Nat) (s : St (Cache Nat Nat) Nat Nat) (op : Op Nat Nat),
      NoListFault O → Reachable O s → s.c.kind = .basic →
      SameOutcome SameButLast (Impl.step O op s) (Impl.step O op (forget s)) := by
  intro h
  have hre : Reachable (faultyO .assign 6) (demoState (faultyO .assign 6)
      [.create .basic (.sized 3), .op 0 (.insert 1 10), .op 0 (.insert 2 20), .op 0 (.insert 1 11)] 0) :=
    demoState_reachable (by decide +kernel) rfl
  obtain ⟨s₁, h1, h2⟩ := Out.ok_fact (o := Impl.step (faultyO .assign 6) (.contains 2) (demoState (faultyO .assign 6)
      [.create .basic (.sized 3), .op 0 (.insert 1 10), .op 0 (.insert 2 20), .op 0 (.insert 1 11)] 0))
    (a := .bool true) (f := fun s' => keys s'.c) (y := [2, 1]) (by decide +kernel) (by decide +kernel)
  obtain ⟨s₂, h3, h4⟩ := Out.ok_fact (o := Impl.step (faultyO .assign 6) (.contains 2) (forget (demoState (faultyO .assign 6)
      [.create .basic (.sized 3), .op 0 (.insert 1 10), .op 0 (.insert 2 20), .op 0 (.insert 1 11)] 0)))
    (a := .bool true) (f := fun s' => keys s'.c) (y := [1, 2]) (by decide +kernel) (by decide +kernel)
  have h5 := h _ _ (.contains 2) (fun n => by simp [faultyO]) hre (by decide +kernel)
  rw [h1, h3] at h5
  have h6 : keys s₂.c = keys s₁.c := by unfold keys; rw [h5.2.elements]
  rw [h2, h4] at h6
  revert h6
  decide

/-- The shortcut is observable on timed caches: `lookup` of an expired key throws `KeyExpired` if it is the last accessed
one, `KeyNotFound` otherwise. -/
theorem C17_timed_shortcut_observable :
    ¬ ∀ (O : Oracle Nat Nat) (s : St (Cache Nat Nat) Nat Nat) (op : Op Nat Nat),
      Calm O → Steady O → Reachable O s →
      SameOutcome SameButLast (Impl.step O op s) (Impl.step O op (forget s)) := by
  intro h
  have hre : Reachable calmO (demoState calmO [.create (.timed 2 1) (.sized 3), .op 0 (.insert 1 10),
      .op 0 (.hasExpired 1), .op 0 (.hasExpired 1), .op 0 (.hasExpired 1)] 0) :=
    demoState_reachable (by decide +kernel) rfl
  obtain ⟨s₁, h1, -⟩ := Out.throw_fact (o := Impl.step calmO (.lookup 1) (demoState calmO
      [.create (.timed 2 1) (.sized 3), .op 0 (.insert 1 10), .op 0 (.hasExpired 1), .op 0 (.hasExpired 1),
       .op 0 (.hasExpired 1)] 0))
    (e := .keyExpired) (f := fun s' => keys s'.c) (y := [1]) (by decide +kernel) (by decide +kernel)
  obtain ⟨s₂, h2, -⟩ := Out.throw_fact (o := Impl.step calmO (.lookup 1) (forget (demoState calmO
      [.create (.timed 2 1) (.sized 3), .op 0 (.insert 1 10), .op 0 (.hasExpired 1), .op 0 (.hasExpired 1),
       .op 0 (.hasExpired 1)] 0)))
    (e := .keyNotFound) (f := fun s' => keys s'.c) (y := [1]) (by decide +kernel) (by decide +kernel)
  have h5 := h _ _ (.lookup 1) calmO_calm calmO_steady hre
  rw [h1, h2] at h5
  exact absurd h5.1 (by decide)

end LRU
