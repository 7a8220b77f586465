import Verif.Spec.Optional
/-! # Lemmas about `Optional` -/

set_option autoImplicit false
set_option linter.unusedSectionVars false

namespace LRU.Opt

variable {T : Type} {fails : Nat → Bool} {left : T → T}

/-! ### Ownership -/

/-- The cells the objects own. -/
def ptrs (l : List (Option (Option Nat))) : List Nat := l.filterMap Option.join

/-- Every live cell has exactly one owner: one of the objects, or a local variable (`fl`). -/
structure Owned (s : OSt T) (fl : List Nat) : Prop where
  nodup : (ptrs s.objs ++ fl).Nodup
  live : ∀ a, (s.heap a).isSome = true ↔ a ∈ ptrs s.objs ++ fl
  fresh : ∀ a, (s.heap a).isSome = true → a < s.next

theorem Owned.perm {s s' : OSt T} {fl fl' : List Nat} (h : Owned s fl) (hh : s'.heap = s.heap) (hn : s'.next = s.next)
    (hp : (ptrs s.objs ++ fl).Perm (ptrs s'.objs ++ fl')) : Owned s' fl' :=
  ⟨hp.nodup_iff.1 h.nodup, fun a => by rw [hh, h.live a, hp.mem_iff], fun a ha => by rw [hh] at ha; rw [hn]; exact h.fresh a ha⟩

theorem ptrs_cons (x : Option (Option Nat)) (r : List (Option (Option Nat))) : ptrs (x :: r) = x.join.toList ++ ptrs r := by
  unfold ptrs
  rcases x with _ | _ | a <;> rfl

theorem ptrs_set {l : List (Option (Option Nat))} {i : Nat} {p : Option Nat} (h : l[i]? = some (some p)) (q : Option (Option Nat)) :
    (ptrs l ++ q.join.toList).Perm (ptrs (l.set i q) ++ p.toList) := by
  induction l generalizing i with
  | nil => cases h
  | cons x r ih =>
    cases i with
    | zero =>
      simp only [List.getElem?_cons_zero, Option.some.injEq] at h
      subst h
      rw [List.set_cons_zero, ptrs_cons, ptrs_cons, show (some p : Option (Option Nat)).join = p from rfl]
      exact List.perm_append_comm.trans ((List.perm_append_comm.append_left _).trans (.of_eq (List.append_assoc ..).symm))
    | succ i =>
      simp only [List.getElem?_cons_succ] at h
      have := ih h
      rw [List.set_cons_succ, ptrs_cons, ptrs_cons, List.append_assoc, List.append_assoc]
      exact this.append_left _

theorem ptrs_push (l : List (Option (Option Nat))) (q : Option Nat) : ptrs (l ++ [some q]) = ptrs l ++ q.toList := by
  simp only [ptrs, List.filterMap_append]
  cases q <;> rfl

theorem mem_ptrs {l : List (Option (Option Nat))} {i : Nat} {a : Nat} (h : l[i]? = some (some (some a))) : a ∈ ptrs l :=
  List.mem_filterMap.2 ⟨some (some a), List.mem_of_getElem? h, rfl⟩

/-! ### The steps of the operations -/

theorem bind_of_ok {α β : Type} {m : OM T α} {f : α → OM T β} {s s' : OSt T} {a : α} (h : m s = .ok a s') : (m >>= f) s = f a s' := by
  show M.bind m f s = _; unfold M.bind; rw [h]

theorem bind_of_throw {α β : Type} {m : OM T α} {f : α → OM T β} {s s' : OSt T} {e : Err} (h : m s = .throw e s') :
    (m >>= f) s = .throw e s' := by
  show M.bind m f s = _; unfold M.bind; rw [h]

theorem bind_of_ub {α β : Type} {m : OM T α} {f : α → OM T β} {s : OSt T} (h : m s = .ub) : (m >>= f) s = .ub := by
  show M.bind m f s = _; unfold M.bind; rw [h]

theorem bind_of_terminate {α β : Type} {m : OM T α} {f : α → OM T β} {s : OSt T} (h : m s = .terminate) : (m >>= f) s = .terminate := by
  show M.bind m f s = _; unfold M.bind; rw [h]

theorem noexcept_of_ok {α : Type} {m : OM T α} {s s' : OSt T} {a : α} (h : m s = .ok a s') : M.noexcept m s = .ok a s' := by
  unfold M.noexcept; rw [h]

theorem noexcept_of_ub {α : Type} {m : OM T α} {s : OSt T} (h : m s = .ub) : M.noexcept m s = .ub := by
  unfold M.noexcept; rw [h]

theorem noexcept_of_throw {α : Type} {m : OM T α} {s s' : OSt T} {e : Err} (h : m s = .throw e s') : M.noexcept m s = .terminate := by
  unfold M.noexcept; rw [h]

theorem ptrOf_ok {s : OSt T} {i : Nat} {p : Option Nat} (h : s.objs[i]? = some (some p)) : ptrOf i s = .ok p s := by
  unfold ptrOf; rw [h]

theorem ptrOf_gone {s : OSt T} {i : Nat} (h : (s.objs[i]?).join = none) : ptrOf i s = .ub := by
  unfold ptrOf
  rcases hs : s.objs[i]? with _ | _ | p
  · rfl
  · rfl
  · rw [hs] at h; cases h

/-- The state after `putPtr`. -/
abbrev OSt.put (s : OSt T) (i : Nat) (q : Option (Option Nat)) : OSt T := { s with objs := s.objs.set i q }

theorem Owned.put {s : OSt T} {fl : List Nat} {i : Nat} {p : Option Nat} {q : Option (Option Nat)} (h : Owned s (q.join.toList ++ fl))
    (hi : s.objs[i]? = some (some p)) : Owned (s.put i q) (p.toList ++ fl) := by
  refine h.perm rfl rfl ?_
  rw [← List.append_assoc, ← List.append_assoc]
  exact (ptrs_set hi q).append_right fl

theorem contents_put (s : OSt T) (i : Nat) (q : Option (Option Nat)) :
    (s.put i q).contents = s.contents.set i (q.map fun p => p.bind s.heap) := by
  simp only [OSt.contents, List.map_set]

/-- The state after `push`. -/
abbrev OSt.pushed (s : OSt T) (q : Option Nat) : OSt T := { s with objs := s.objs ++ [some q] }

theorem Owned.pushed {s : OSt T} {fl : List Nat} {q : Option Nat} (h : Owned s (q.toList ++ fl)) : Owned (s.pushed q) fl := by
  refine h.perm rfl rfl ?_
  rw [show (s.pushed q).objs = s.objs ++ [some q] from rfl, ptrs_push, List.append_assoc]

theorem contents_pushed (s : OSt T) (q : Option Nat) : (s.pushed q).contents = s.contents ++ [some (q.bind s.heap)] := by
  simp only [OSt.contents, List.map_append]; rfl

/-- The state after `makeUnique`. -/
abbrev OSt.made (s : OSt T) (t : T) : OSt T :=
  { s with heap := fun a => if a = s.next then some t else s.heap a, next := s.next + 1, steps := s.steps + 1 }

theorem makeUnique_ok {s : OSt T} (t : T) (h : fails s.steps = false) : makeUnique fails t s = .ok s.next (s.made t) := by
  simp only [makeUnique, h]; rfl

theorem makeUnique_fails {s : OSt T} (t : T) (h : fails s.steps = true) :
    makeUnique fails t s = .throw .badAlloc { s with steps := s.steps + 1 } := by
  simp only [makeUnique, h]; rfl

theorem Owned.next_free {s : OSt T} {fl : List Nat} (h : Owned s fl) : s.next ∉ ptrs s.objs ++ fl := fun hm =>
  Nat.lt_irrefl _ (h.fresh _ ((h.live _).2 hm))

theorem Owned.made {s : OSt T} {fl : List Nat} (h : Owned s fl) (t : T) : Owned (s.made t) (s.next :: fl) := by
  refine ⟨?_, fun a => ?_, fun a ha => ?_⟩
  · exact (List.perm_middle.nodup_iff).2 (List.nodup_cons.2 ⟨h.next_free, h.nodup⟩)
  · show ((if a = s.next then some t else s.heap a).isSome = true) ↔ a ∈ ptrs s.objs ++ s.next :: fl
    rw [List.perm_middle.mem_iff, List.mem_cons]
    by_cases ha : a = s.next
    · simp [ha]
    · rw [if_neg ha, h.live a]; simp [ha]
  · change (if a = s.next then some t else s.heap a).isSome = true at ha
    show a < s.next + 1
    by_cases hn : a = s.next
    · omega
    · rw [if_neg hn] at ha; have := h.fresh a ha; omega

theorem contents_heap {s s' : OSt T} (ho : s'.objs = s.objs) (hh : ∀ a ∈ ptrs s.objs, s'.heap a = s.heap a) : s'.contents = s.contents := by
  unfold OSt.contents
  rw [ho]
  refine List.map_congr_left fun o hm => ?_
  rcases o with _ | _ | a
  · rfl
  · rfl
  · exact congrArg some (hh a (List.mem_filterMap.2 ⟨_, hm, rfl⟩))

theorem Owned.contents_made {s : OSt T} {fl : List Nat} (h : Owned s fl) (t : T) : (s.made t).contents = s.contents := by
  refine contents_heap rfl fun a ha => ?_
  show (if a = s.next then some t else s.heap a) = _
  rw [if_neg]
  rintro rfl
  exact h.next_free (List.mem_append_left _ ha)

/-- The heap without a cell. -/
abbrev OSt.without (s : OSt T) (p : Option Nat) : OSt T := { s with heap := fun a => if some a = p then none else s.heap a }

theorem free_ok {s : OSt T} {fl : List Nat} {p : Option Nat} (h : Owned s (p.toList ++ fl)) : free p s = .ok () (s.without p) := by
  cases p with
  | none =>
    show Out.ok () s = _
    congr 1
  | some p =>
    have hl : (s.heap p).isSome = true := (h.live p).2 (List.mem_append_right _ (List.mem_append_left _ (List.mem_singleton.2 rfl)))
    obtain ⟨t, ht⟩ := Option.isSome_iff_exists.1 hl
    simp only [free, ht, OSt.without, Option.some.injEq]

theorem Owned.without {s : OSt T} {fl : List Nat} {p : Option Nat} (h : Owned s (p.toList ++ fl)) : Owned (s.without p) fl := by
  cases p with
  | none => exact h.perm (by funext a; simp) rfl (List.Perm.refl _)
  | some p =>
    have hp : (ptrs s.objs ++ p :: fl).Perm (p :: (ptrs s.objs ++ fl)) := List.perm_middle
    have hn := hp.nodup_iff.1 h.nodup
    refine ⟨(List.nodup_cons.1 hn).2, fun a => ?_, fun a ha => ?_⟩
    · show (if some a = some p then none else s.heap a).isSome = true ↔ a ∈ ptrs s.objs ++ fl
      by_cases ha : a = p
      · subst ha
        simp only [if_true, Option.isSome_none]
        exact ⟨(fun h => nomatch h), fun h => absurd h (List.nodup_cons.1 hn).1⟩
      · rw [if_neg (by simpa using ha), h.live a]
        show a ∈ ptrs s.objs ++ p :: fl ↔ _
        rw [hp.mem_iff, List.mem_cons]; simp [ha]
    · refine h.fresh a ?_
      change (if some a = some p then none else s.heap a).isSome = true at ha
      split at ha
      · cases ha
      · exact ha

theorem Owned.contents_without {s : OSt T} {fl : List Nat} {p : Option Nat} (h : Owned s (p.toList ++ fl)) :
    (s.without p).contents = s.contents := by
  cases p with
  | none => exact contents_heap rfl fun a _ => by simp
  | some p =>
    have hp : (ptrs s.objs ++ p :: fl).Perm (p :: (ptrs s.objs ++ fl)) := List.perm_middle
    have hn := hp.nodup_iff.1 h.nodup
    refine contents_heap rfl fun a ha => ?_
    show (if some a = some p then none else s.heap a) = _
    rw [if_neg]
    intro e
    cases e
    exact (List.nodup_cons.1 hn).1 (List.mem_append_left _ ha)

/-- The heap with a cell overwritten. -/
abbrev OSt.stored (s : OSt T) (p : Nat) (t : T) : OSt T := { s with heap := fun a => if a = p then some t else s.heap a }

theorem Owned.stored {s : OSt T} {fl : List Nat} (h : Owned s fl) {p : Nat} (hp : (s.heap p).isSome = true) (t : T) :
    Owned (s.stored p t) fl := by
  refine ⟨h.nodup, fun a => ?_, fun a ha => ?_⟩
  · show (if a = p then some t else s.heap a).isSome = true ↔ _
    rw [← h.live a]
    by_cases ha : a = p
    · subst ha; simp [hp]
    · rw [if_neg ha]
  · refine h.fresh a ?_
    change (if a = p then some t else s.heap a).isSome = true at ha
    by_cases hap : a = p
    · subst hap; exact hp
    · rwa [if_neg hap] at ha

theorem Owned.contents_stored {s : OSt T} {fl : List Nat} (h : Owned s fl) {i p : Nat} (hi : s.objs[i]? = some (some (some p))) (t : T) :
    (s.stored p t).contents = s.contents.set i (some (some t)) := by
  have hn : (ptrs s.objs).Nodup := (List.nodup_append.1 h.nodup).1
  refine List.ext_getElem? fun j => ?_
  rw [List.getElem?_set]
  have hl : i < s.objs.length := (List.getElem?_eq_some_iff.1 hi).1
  by_cases hij : i = j
  · subst hij
    rw [if_pos rfl, if_pos (by simpa [OSt.contents] using hl)]
    simp only [OSt.contents, List.getElem?_map, hi, Option.map_some]
    show some (some (if p = p then some t else s.heap p)) = _
    rw [if_pos rfl]
  · rw [if_neg hij]
    simp only [OSt.contents, List.getElem?_map]
    rcases hj : s.objs[j]? with _ | _ | _ | a
    · rfl
    · rfl
    · rfl
    · simp only [Option.map_some, Option.bind_some]
      rw [if_neg]
      rintro rfl
      exact hij (ptrs_inj hn hi hj)
where
  ptrs_inj {l : List (Option (Option Nat))} (hn : (ptrs l).Nodup) {i j a : Nat} (hi : l[i]? = some (some (some a)))
      (hj : l[j]? = some (some (some a))) : i = j := by
    induction l generalizing i j with
    | nil => cases hi
    | cons x r ih =>
      cases i with
      | zero =>
        cases j with
        | zero => rfl
        | succ j =>
          simp only [List.getElem?_cons_zero, Option.some.injEq] at hi
          simp only [List.getElem?_cons_succ] at hj
          subst hi
          exact absurd (mem_ptrs hj) (List.nodup_cons.1 hn).1
      | succ i =>
        simp only [List.getElem?_cons_succ] at hi
        have hr : (ptrs r).Nodup := by
          unfold ptrs at hn ⊢
          rw [List.filterMap_cons] at hn
          split at hn
          · exact hn
          · exact (List.nodup_cons.1 hn).2
        cases j with
        | zero =>
          simp only [List.getElem?_cons_zero, Option.some.injEq] at hj
          subst hj
          exact absurd (mem_ptrs hi) (List.nodup_cons.1 hn).1
        | succ j =>
          simp only [List.getElem?_cons_succ] at hj
          rw [ih hr hi hj]

/-! ### The operations -/

theorem Owned.look {s : OSt T} {fl : List Nat} (h : Owned s fl) (i : Nat) :
    ((s.objs[i]?).join = none ∧ s.contents.get i = none) ∨
    (s.objs[i]? = some (some none) ∧ s.contents.get i = some none) ∨
    ∃ a t, s.objs[i]? = some (some (some a)) ∧ s.heap a = some t ∧ s.contents.get i = some (some t) := by
  unfold Contents.get OSt.contents
  rw [List.getElem?_map]
  rcases hs : s.objs[i]? with _ | _ | _ | a
  · exact .inl ⟨rfl, rfl⟩
  · exact .inl ⟨rfl, rfl⟩
  · exact .inr (.inl ⟨rfl, rfl⟩)
  · obtain ⟨t, ht⟩ := Option.isSome_iff_exists.1 ((h.live a).2 (List.mem_append_left _ (mem_ptrs hs)))
    refine .inr (.inr ⟨a, t, rfl, ht, ?_⟩)
    simp [ht]

/-- What a body does with the objects is what `v` says. `b`: it constructs a value; `term`: it is `noexcept`. -/
def Sound (fails : Nat → Bool) (s : OSt T) (v : Verdict T) (b term : Bool) (o : Out (OSt T) (ORes T)) : Prop :=
  match v with
  | .undefined => o = .ub
  | .noValue => o = .throw .user s
  | .done r c =>
    if b && fails s.steps then
      if term then o = .terminate
      else o = .throw .badAlloc { s with steps := s.steps + 1 }
    else ∃ s', o = .ok r s' ∧ s'.contents = c ∧ Owned s' []

theorem Sound.mk {s s' : OSt T} {r : ORes T} {c : Contents T} {b term : Bool} {o : Out (OSt T) (ORes T)}
    (hb : (b && fails s.steps) = false) (h1 : o = .ok r s') (h2 : s'.contents = c) (h3 : Owned s' []) :
    Sound fails s (.done r c) b term o := by
  simp only [Sound, hb]
  exact ⟨s', h1, h2, h3⟩

theorem give_ok {α : Type} {m : OM T α} {f : α → ORes T} {s s' : OSt T} {a : α} (h : m s = .ok a s') : give m f s = .ok (f a) s' :=
  bind_of_ok h

theorem give_ub {α : Type} {m : OM T α} {f : α → ORes T} {s : OSt T} (h : m s = .ub) : give m f s = .ub := bind_of_ub h

theorem load_ok {s : OSt T} {a : Nat} {t : T} (h : s.heap a = some t) : load (some a) s = .ok t s := by
  simp only [load, h]

theorem storeAt_ok {s : OSt T} {a : Nat} {t u : T} (h : s.heap a = some t) : storeAt (some a) u s = .ok () (s.stored a u) := by
  simp only [storeAt, h]

theorem copyNew_sound {s : OSt T} (h : Owned s []) (f : T → T) (i : Nat) :
    Sound fails s (using' s.contents i fun o => .done .unit (s.contents ++ [some (o.map f)])) ((s.contents.get i).join.isSome) false
      (give (copyNew fails f i) (fun _ => .unit) s) := by
  unfold using'
  rcases h.look i with ⟨h1, h2⟩ | ⟨h1, h2⟩ | ⟨a, t, h1, ht, h2⟩
  · rw [h2]
    exact give_ub (bind_of_ub (ptrOf_gone h1))
  · rw [h2]
    refine Sound.mk (s' := s.pushed none) (by simp) (give_ok (a := ()) ?_) (contents_pushed _ _) (Owned.pushed h)
    exact bind_of_ok (ptrOf_ok h1)
  · rw [h2]
    cases hf : fails s.steps with
    | true =>
      simp only [Sound, hf]
      refine bind_of_throw ((bind_of_ok (ptrOf_ok h1)).trans (bind_of_throw ?_))
      exact (bind_of_ok (load_ok ht)).trans (bind_of_throw (makeUnique_fails _ hf))
    | false =>
      refine Sound.mk (s' := (s.made (f t)).pushed (some s.next)) (by simp [hf]) (give_ok (a := ()) ?_) ?_ (Owned.pushed (h.made _))
      · refine (bind_of_ok (ptrOf_ok h1)).trans ((bind_of_ok (m := copyOf fails f (some a)) (a := some s.next) (s' := s.made (f t)) ?_))
        exact (bind_of_ok (load_ok ht)).trans (bind_of_ok (makeUnique_ok _ hf))
      · rw [contents_pushed, h.contents_made]
        simp

theorem moveNew_sound {s : OSt T} (h : Owned s []) (i : Nat) :
    Sound fails s (using' s.contents i fun o => .done .unit (s.contents.set i (some none) ++ [some o])) false false
      (give (moveNew i) (fun _ => .unit) s) := by
  unfold using'
  have key : ∀ p, s.objs[i]? = some (some p) →
      moveNew i s = .ok () ((s.put i (some none)).pushed p) ∧ Owned ((s.put i (some none)).pushed p) [] ∧
      ((s.put i (some none)).pushed p).contents = s.contents.set i (some none) ++ [some (p.bind s.heap)] := by
    intro p hp
    refine ⟨(bind_of_ok (ptrOf_ok hp)).trans rfl, Owned.pushed (Owned.put (q := some none) h hp), ?_⟩
    rw [contents_pushed, contents_put]; rfl
  rcases h.look i with ⟨h1, h2⟩ | ⟨h1, h2⟩ | ⟨a, t, h1, ht, h2⟩
  · rw [h2]
    exact give_ub (bind_of_ub (ptrOf_gone h1))
  · rw [h2]
    obtain ⟨k1, k2, k3⟩ := key _ h1
    exact Sound.mk rfl (give_ok k1) k3 k2
  · rw [h2]
    obtain ⟨k1, k2, k3⟩ := key _ h1
    exact Sound.mk rfl (give_ok k1) (by rw [k3]; simp [ht]) k2

theorem set_self {α : Type} {l : List α} {i : Nat} {x : α} (h : l[i]? = some x) : l.set i x = l := by
  refine List.ext_getElem? fun j => ?_
  rw [List.getElem?_set]
  by_cases hij : i = j
  · subst hij
    rw [if_pos rfl, if_pos (List.getElem?_eq_some_iff.1 h).1, h]
  · rw [if_neg hij]

theorem convertMoveNew_sound {s : OSt T} (h : Owned s []) (f : T → T) (i : Nat) :
    Sound fails s (using' s.contents i fun o => .done .unit (s.contents.set i (some (o.map left)) ++ [some (o.map f)]))
      ((s.contents.get i).join.isSome) true (give (convertMoveNew fails left f i) (fun _ => .unit) s) := by
  unfold using'
  rcases h.look i with ⟨h1, h2⟩ | ⟨h1, h2⟩ | ⟨a, t, h1, ht, h2⟩
  · rw [h2]
    exact give_ub (noexcept_of_ub (bind_of_ub (ptrOf_gone h1)))
  · rw [h2]
    refine Sound.mk (s' := s.pushed none) (by simp) (give_ok (a := ()) (noexcept_of_ok ?_)) ?_ (Owned.pushed h)
    · exact bind_of_ok (ptrOf_ok h1)
    · rw [contents_pushed]
      congr 1
      refine (set_self ?_).symm
      show s.contents[i]? = some (some none)
      simp [OSt.contents, h1]
  · rw [h2]
    cases hf : fails s.steps with
    | true =>
      simp only [Sound, hf]
      refine bind_of_terminate (noexcept_of_throw (e := .badAlloc) (s' := { s with steps := s.steps + 1 })
        ((bind_of_ok (ptrOf_ok h1)).trans (bind_of_throw ?_)))
      exact (bind_of_ok (load_ok ht)).trans (bind_of_throw (makeUnique_fails _ hf))
    | false =>
      have hm : (s.made (f t)).heap a = some t := by
        show (if a = s.next then _ else _) = _
        rw [if_neg, ht]
        rintro rfl
        exact h.next_free (List.mem_append_left _ (mem_ptrs h1))
      refine Sound.mk (s' := ((s.made (f t)).stored a (left t)).pushed (some s.next)) (by simp [hf])
        (give_ok (a := ()) (noexcept_of_ok ?_)) ?_ (Owned.pushed ((h.made _).stored (by rw [hm]; rfl) _))
      · refine (bind_of_ok (ptrOf_ok h1)).trans ((bind_of_ok (m := convertMove fails left f (some a)) (a := some s.next)
          (s' := (s.made (f t)).stored a (left t)) ?_))
        exact (bind_of_ok (load_ok ht)).trans ((bind_of_ok (makeUnique_ok _ hf)).trans (bind_of_ok (storeAt_ok hm)))
      · rw [contents_pushed, (h.made (f t)).contents_stored h1, h.contents_made]
        have hne : s.next ≠ a := by
          rintro rfl
          exact h.next_free (List.mem_append_left _ (mem_ptrs h1))
        simp [hne]

/-- Replacing what an object owns, and freeing what it owned. -/
theorem replace_sound {s : OSt T} {i : Nat} {p : Option Nat} {q : Option (Option Nat)} (h : Owned s q.join.toList)
    (hi : s.objs[i]? = some (some p)) :
    (putPtr i q >>= fun _ => free p) s = .ok () ((s.put i q).without p) ∧ Owned ((s.put i q).without p) [] ∧
    ((s.put i q).without p).contents = s.contents.set i (q.map fun x => x.bind s.heap) := by
  have h' : Owned (s.put i q) (p.toList ++ []) := Owned.put (fl := []) (by simpa using h) hi
  refine ⟨(bind_of_ok (m := putPtr i q) (s := s) rfl).trans (free_ok h'), h'.without, ?_⟩
  rw [h'.contents_without, contents_put]

theorem assignParam_ok {s : OSt T} {i : Nat} {p q : Option Nat} (h : Owned s q.toList) (hi : s.objs[i]? = some (some p)) :
    ∃ s', M.noexcept (assignParam i q) s = .ok () s' ∧ Owned s' [] ∧ s'.contents = s.contents.set i (some (q.bind s.heap)) := by
  obtain ⟨k1, k2, k3⟩ := replace_sound (q := some q) h hi
  exact ⟨_, noexcept_of_ok ((bind_of_ok (ptrOf_ok hi)).trans k1), k2, k3⟩

theorem live_of {s : OSt T} {i : Nat} (h : (s.objs[i]?).join ≠ none) : ∃ p, s.objs[i]? = some (some p) := by
  rcases hs : s.objs[i]? with _ | _ | p
  · exact absurd (by rw [hs]; rfl) h
  · exact absurd (by rw [hs]; rfl) h
  · exact ⟨p, rfl⟩

theorem Owned.look' {s : OSt T} {fl : List Nat} (h : Owned s fl) (i : Nat) :
    ((s.objs[i]?).join = none ∧ s.contents.get i = none) ∨
    ∃ p, s.objs[i]? = some (some p) ∧ s.contents.get i = some (p.bind s.heap) := by
  rcases h.look i with h1 | ⟨h1, h2⟩ | ⟨a, t, h1, ht, h2⟩
  · exact .inl h1
  · exact .inr ⟨none, h1, h2⟩
  · exact .inr ⟨some a, h1, by rw [h2]; simp [ht]⟩

theorem assign_sound {s : OSt T} (h : Owned s []) (i j : Nat) :
    Sound fails s (using' s.contents i fun _ => using' s.contents j fun o => .done .unit (s.contents.set i (some o)))
      ((s.contents.get j).join.isSome) false (give (assign fails i j) (fun _ => .unit) s) := by
  unfold using'
  rcases h.look' i with ⟨h1, h2⟩ | ⟨p, h1, h2⟩
  · rw [h2]
    exact give_ub (bind_of_ub (ptrOf_gone h1))
  rw [h2]
  rcases h.look j with ⟨h3, h4⟩ | ⟨h3, h4⟩ | ⟨a, t, h3, ht, h4⟩
  · rw [h4]
    exact give_ub ((bind_of_ok (ptrOf_ok h1)).trans (bind_of_ub (ptrOf_gone h3)))
  · rw [h4]
    obtain ⟨s', k1, k2, k3⟩ := assignParam_ok (q := none) h h1
    exact Sound.mk (by simp) (give_ok ((bind_of_ok (ptrOf_ok h1)).trans ((bind_of_ok (ptrOf_ok h3)).trans
      ((bind_of_ok (m := copyOf fails id none) (a := none) (s' := s) rfl).trans k1)))) k3 k2
  · rw [h4]
    cases hf : fails s.steps with
    | true =>
      simp only [Sound, hf]
      refine bind_of_throw ((bind_of_ok (ptrOf_ok h1)).trans ((bind_of_ok (ptrOf_ok h3)).trans (bind_of_throw ?_)))
      exact (bind_of_ok (load_ok ht)).trans (bind_of_throw (makeUnique_fails _ hf))
    | false =>
      obtain ⟨s', k1, k2, k3⟩ := assignParam_ok (q := some s.next) (i := i) (h.made t) h1
      refine Sound.mk (s' := s') (by simp [hf]) (give_ok (a := ()) ?_) ?_ k2
      · refine (bind_of_ok (ptrOf_ok h1)).trans ((bind_of_ok (ptrOf_ok h3)).trans
          ((bind_of_ok (m := copyOf fails id (some a)) (a := some s.next) (s' := s.made t) ?_).trans k1))
        exact (bind_of_ok (load_ok ht)).trans (bind_of_ok (makeUnique_ok _ hf))
      · rw [k3, h.contents_made]
        simp

theorem moveAssign_sound {s : OSt T} (h : Owned s []) (i j : Nat) :
    Sound fails s (using' s.contents i fun _ => using' s.contents j fun o =>
      .done .unit ((s.contents.set j (some none)).set i (some o))) false false (give (moveAssign i j) (fun _ => .unit) s) := by
  unfold using'
  rcases h.look' i with ⟨h1, h2⟩ | ⟨p, h1, h2⟩
  · rw [h2]
    exact give_ub (bind_of_ub (ptrOf_gone h1))
  rw [h2]
  rcases h.look' j with ⟨h3, h4⟩ | ⟨q, h3, h4⟩
  · rw [h4]
    exact give_ub ((bind_of_ok (ptrOf_ok h1)).trans (bind_of_ub (ptrOf_gone h3)))
  rw [h4]
  have ho : Owned (s.put j (some none)) (q.toList ++ []) := Owned.put (q := some none) h h3
  have hi' : ∃ p', (s.put j (some none)).objs[i]? = some (some p') := by
    show ∃ p', (s.objs.set j (some none))[i]? = some (some p')
    rw [List.getElem?_set]
    have hl : j < s.objs.length := (List.getElem?_eq_some_iff.1 h3).1
    by_cases hij : j = i
    · rw [if_pos hij, if_pos hl]; exact ⟨_, rfl⟩
    · rw [if_neg hij]; exact ⟨p, h1⟩
  obtain ⟨p', hp'⟩ := hi'
  obtain ⟨s', k1, k2, k3⟩ := assignParam_ok (q := q) (by simpa using ho) hp'
  refine Sound.mk (s' := s') rfl (give_ok (a := ()) ?_) ?_ k2
  · exact (bind_of_ok (ptrOf_ok h1)).trans ((bind_of_ok (ptrOf_ok h3)).trans ((bind_of_ok (m := putPtr j (some none)) rfl).trans k1))
  · rw [k3, contents_put]; rfl

theorem swap_sound {s : OSt T} (h : Owned s []) (i j : Nat) :
    Sound fails s (using' s.contents i fun a => using' s.contents j fun b =>
      .done .unit ((s.contents.set i (some b)).set j (some a))) false false (give (swap i j) (fun _ => .unit) s) := by
  unfold using'
  rcases h.look' i with ⟨h1, h2⟩ | ⟨p, h1, h2⟩
  · rw [h2]
    exact give_ub (bind_of_ub (ptrOf_gone h1))
  rw [h2]
  rcases h.look' j with ⟨h3, h4⟩ | ⟨q, h3, h4⟩
  · rw [h4]
    exact give_ub ((bind_of_ok (ptrOf_ok h1)).trans (bind_of_ub (ptrOf_gone h3)))
  rw [h4]
  refine Sound.mk (s' := (s.put i (some q)).put j (some p)) rfl (give_ok (a := ()) ?_) ?_ ?_
  · exact (bind_of_ok (ptrOf_ok h1)).trans ((bind_of_ok (ptrOf_ok h3)).trans rfl)
  · rw [contents_put, contents_put]; rfl
  · -- as sets of owned cells nothing changes
    refine h.perm rfl rfl ?_
    rw [List.append_nil, List.append_nil]
    have e1 := ptrs_set h1 (some q)
    have h3' : (s.objs.set i (some q))[j]? = some (some q) := by
      rw [List.getElem?_set]
      have hl : i < s.objs.length := (List.getElem?_eq_some_iff.1 h1).1
      by_cases hij : i = j
      · rw [if_pos hij, if_pos hl]
      · rw [if_neg hij]; exact h3
    have e2 := ptrs_set h3' (some p)
    exact (List.perm_append_right_iff q.toList).1 (e1.trans e2)

theorem hasValue_ok {s : OSt T} {i : Nat} {p : Option Nat} (h : s.objs[i]? = some (some p)) : hasValue i s = .ok p.isSome s :=
  noexcept_of_ok (bind_of_ok (ptrOf_ok h))

theorem hasValue_gone {s : OSt T} {i : Nat} (h : (s.objs[i]?).join = none) : hasValue i s = .ub :=
  noexcept_of_ub (bind_of_ub (ptrOf_gone h))

theorem deref_ok {s : OSt T} {i a : Nat} {t : T} (h : s.objs[i]? = some (some (some a))) (ht : s.heap a = some t) :
    deref i s = .ok t s := (bind_of_ok (ptrOf_ok h)).trans (load_ok ht)

theorem step_sound {s : OSt T} (h : Owned s []) (op : OOp T) :
    Sound fails s (meaning (fun _ => none) left s.contents op) (constructs s.contents op)
      (match op with | .convertMoveNew _ _ => true | _ => false) (ostep fails left op s) := by
  cases op with
  | create => exact Sound.mk rfl (give_ok (a := ()) rfl) (contents_pushed _ _) (Owned.pushed h)
  | copyNew i =>
    have := copyNew_sound (fails := fails) h id i
    simp only [Option.map_id_fun, id] at this
    exact this
  | moveNew i =>
    have := moveNew_sound (fails := fails) h i
    have e : ∀ o : Option T, (o.bind fun _ => none : Option T) = none := fun o => by cases o <;> rfl
    simp only [meaning, e]
    exact this
  | convertNew f i => exact copyNew_sound h f i
  | convertMoveNew f i => exact convertMoveNew_sound h f i
  | destroy i =>
    simp only [meaning, using']
    rcases h.look' i with ⟨h1, h2⟩ | ⟨p, h1, h2⟩
    · rw [h2]
      exact give_ub (bind_of_ub (ptrOf_gone h1))
    · rw [h2]
      obtain ⟨k1, k2, k3⟩ := replace_sound (q := none) h h1
      exact Sound.mk rfl (give_ok ((bind_of_ok (ptrOf_ok h1)).trans k1)) k3 k2
  | assign i j => exact assign_sound h i j
  | moveAssign i j =>
    have := moveAssign_sound (fails := fails) h i j
    have e : ∀ o : Option T, (o.bind fun _ => none : Option T) = none := fun o => by cases o <;> rfl
    simp only [meaning, e]
    exact this
  | swap i j => exact swap_sound h i j
  | hasValue i =>
    simp only [meaning, using']
    rcases h.look i with ⟨h1, h2⟩ | ⟨h1, h2⟩ | ⟨a, t, h1, ht, h2⟩
    · rw [h2]; exact give_ub (hasValue_gone h1)
    · rw [h2]; exact Sound.mk rfl (give_ok (hasValue_ok h1)) rfl h
    · rw [h2]; exact Sound.mk rfl (give_ok (hasValue_ok h1)) rfl h
  | deref i =>
    simp only [meaning, usingValue, using']
    rcases h.look i with ⟨h1, h2⟩ | ⟨h1, h2⟩ | ⟨a, t, h1, ht, h2⟩
    · rw [h2]; exact give_ub (bind_of_ub (ptrOf_gone h1))
    · rw [h2]; exact give_ub (bind_of_ok (ptrOf_ok h1))
    · rw [h2]; exact Sound.mk rfl (give_ok (deref_ok h1 ht)) rfl h
  | value i =>
    simp only [meaning, using']
    rcases h.look i with ⟨h1, h2⟩ | ⟨h1, h2⟩ | ⟨a, t, h1, ht, h2⟩
    · rw [h2]; exact give_ub (bind_of_ub (hasValue_gone h1))
    · rw [h2]; exact bind_of_throw ((bind_of_ok (hasValue_ok h1)).trans rfl)
    · rw [h2]; exact Sound.mk rfl (give_ok ((bind_of_ok (hasValue_ok h1)).trans (deref_ok h1 ht))) rfl h
  | valueOr i d =>
    simp only [meaning, using']
    rcases h.look i with ⟨h1, h2⟩ | ⟨h1, h2⟩ | ⟨a, t, h1, ht, h2⟩
    · rw [h2]; exact give_ub (bind_of_ub (hasValue_gone h1))
    · rw [h2]; exact Sound.mk rfl (give_ok (a := d) ((bind_of_ok (hasValue_ok h1)).trans rfl)) rfl h
    · rw [h2]; exact Sound.mk rfl (give_ok (a := t) ((bind_of_ok (hasValue_ok h1)).trans (deref_ok h1 ht))) rfl h
  | store i t =>
    simp only [meaning, usingValue, using']
    rcases h.look i with ⟨h1, h2⟩ | ⟨h1, h2⟩ | ⟨a, u, h1, ht, h2⟩
    · rw [h2]; exact give_ub (bind_of_ub (ptrOf_gone h1))
    · rw [h2]; exact give_ub (bind_of_ok (ptrOf_ok h1))
    · rw [h2]
      exact Sound.mk rfl (give_ok ((bind_of_ok (ptrOf_ok h1)).trans (storeAt_ok ht))) (h.contents_stored h1 t)
        (h.stored (by rw [ht]; rfl) t)
  | reset i =>
    simp only [meaning, using']
    rcases h.look' i with ⟨h1, h2⟩ | ⟨p, h1, h2⟩
    · rw [h2]; exact give_ub (noexcept_of_ub (bind_of_ub (ptrOf_gone h1)))
    · rw [h2]
      obtain ⟨k1, k2, k3⟩ := replace_sound (q := some none) h h1
      exact Sound.mk rfl (give_ok (noexcept_of_ok ((bind_of_ok (ptrOf_ok h1)).trans k1))) k3 k2
  | emplace i t =>
    simp only [meaning, using']
    rcases h.look' i with ⟨h1, h2⟩ | ⟨p, h1, h2⟩
    · rw [h2]; exact give_ub (bind_of_ub (ptrOf_gone h1))
    · rw [h2]
      exact emplace_done h t h1
  | emplaceFrom i j =>
    simp only [meaning, usingValue, using']
    rcases h.look j with ⟨h1, h2⟩ | ⟨h1, h2⟩ | ⟨a, t, h1, ht, h2⟩
    · rw [h2]; exact give_ub (bind_of_ub (bind_of_ub (ptrOf_gone h1)))
    · rw [h2]; exact give_ub (bind_of_ub (bind_of_ok (ptrOf_ok h1)))
    · rw [h2]
      have e : give (emplaceFrom fails i j) (fun _ => .unit) s = give (emplace fails i t) (fun _ => .unit) s := by
        show M.bind (emplaceFrom fails i j) _ s = M.bind (emplace fails i t) _ s
        unfold M.bind
        rw [show emplaceFrom fails i j s = emplace fails i t s from bind_of_ok (deref_ok h1 ht)]
      show Sound fails s _ _ _ (give (emplaceFrom fails i j) (fun _ => .unit) s)
      rw [e]
      rcases h.look' i with ⟨h3, h4⟩ | ⟨p, h3, h4⟩
      · simp only [h4]; exact give_ub (bind_of_ub (ptrOf_gone h3))
      · simp only [h4]; exact emplace_done h t h3
where
  emplace_done {s : OSt T} (h : Owned s []) {i : Nat} (t : T) {p : Option Nat} (h1 : s.objs[i]? = some (some p)) :
      Sound fails s (.done .unit (s.contents.set i (some (some t)))) true false (give (emplace fails i t) (fun _ => .unit) s) := by
    cases hf : fails s.steps with
    | true =>
      simp only [Sound, hf]
      exact bind_of_throw ((bind_of_ok (ptrOf_ok h1)).trans (bind_of_throw (makeUnique_fails _ hf)))
    | false =>
      obtain ⟨k1, k2, k3⟩ := replace_sound (q := some (some s.next)) (i := i) (h.made t) h1
      refine Sound.mk (by simp [hf]) (give_ok ((bind_of_ok (ptrOf_ok h1)).trans ((bind_of_ok (makeUnique_ok _ hf)).trans k1))) ?_ k2
      rw [k3, h.contents_made]
      simp

/-! ### Programs -/

theorem Sound.ok {s s' : OSt T} {v : Verdict T} {b term : Bool} {r : ORes T} (h : Sound fails s v b term (.ok r s')) :
    v = .done r s'.contents ∧ (b && fails s.steps) = false ∧ Owned s' [] := by
  cases v with
  | undefined => cases h
  | noValue => cases h
  | done r c =>
    unfold Sound at h
    cases hb : b && fails s.steps with
    | true =>
      simp only [hb, if_true] at h
      split at h <;> cases h
    | false =>
      simp only [hb] at h
      obtain ⟨s1, h1, h2, h3⟩ := h
      cases h1
      exact ⟨by rw [h2], rfl, h3⟩

theorem Sound.throw {s s' : OSt T} {v : Verdict T} {b term : Bool} {e : Err} (h : Sound fails s v b term (.throw e s')) :
    s'.objs = s.objs ∧ s'.heap = s.heap ∧ s'.next = s.next ∧
    ((e = .user ∧ v = .noValue) ∨ (e = .badAlloc ∧ (b && fails s.steps) = true)) := by
  cases v with
  | undefined => cases h
  | noValue => cases h; exact ⟨rfl, rfl, rfl, .inl ⟨rfl, rfl⟩⟩
  | done r c =>
    unfold Sound at h
    cases hb : b && fails s.steps with
    | true =>
      simp only [hb, if_true] at h
      split at h
      · cases h
      · cases h; exact ⟨rfl, rfl, rfl, .inr ⟨rfl, rfl⟩⟩
    | false =>
      simp only [hb] at h
      obtain ⟨s1, h1, h2, h3⟩ := h
      cases h1

theorem OReach.owned {s : OSt T} (h : OReach fails left s) : Owned s [] := by
  induction h with
  | init => exact ⟨List.nodup_nil, fun a => by simp [initial, ptrs], fun a ha => by simp [initial] at ha⟩
  | @ok s s' op r hs he ih =>
    have := step_sound (fails := fails) (left := left) ih op
    rw [he] at this
    exact this.ok.2.2
  | @throw s s' op e hs he ih =>
    have := step_sound (fails := fails) (left := left) ih op
    rw [he] at this
    obtain ⟨h1, h2, h3, _⟩ := this.throw
    exact ih.perm h2 h3 (by rw [h1])

/-! ### Programs that do not use what they moved from -/

/-- The objects that are not in `moved` hold the same; the same objects are alive. -/
def AgreeBut (moved : List Nat) (c d : Contents T) : Prop :=
  c.length = d.length ∧ ∀ i : Nat, ((c.get i).isSome = (d.get i).isSome) ∧ (i ∉ moved → c[i]? = d[i]?)

theorem get_set (c : Contents T) (i j : Nat) (x : Option (Option T)) :
    Contents.get (c.set i x) j = if i = j ∧ j < c.length then x else c.get j := by
  unfold Contents.get
  rw [List.getElem?_set]
  by_cases h : i = j
  · subst h
    by_cases hl : i < c.length
    · simp [hl]
    · simp [hl]
  · simp [h]

theorem AgreeBut.push {moved : List Nat} {c d : Contents T} (h : AgreeBut moved c d) (hm : ∀ i ∈ moved, i < c.length)
    (x : Option (Option T)) : AgreeBut moved (c ++ [x]) (d ++ [x]) := by
  refine ⟨by simp [h.1], fun i => ?_⟩
  by_cases hi : i < c.length
  · have hi' : i < d.length := h.1 ▸ hi
    simp only [Contents.get, List.getElem?_append, if_pos hi, if_pos hi']
    exact h.2 i
  · have hi' : ¬ i < d.length := h.1 ▸ hi
    simp [Contents.get, List.getElem?_append, hi', h.1]

/-- Giving a live object a new content. -/
theorem AgreeBut.write {moved : List Nat} {c d : Contents T} (h : AgreeBut moved c d) (i : Nat) (x : Option (Option T)) :
    AgreeBut (moved.filter (fun j => !([i] : List Nat).contains j)) (c.set i x) (d.set i x) := by
  refine ⟨by simp [h.1], fun j => ⟨?_, fun hj => ?_⟩⟩
  · rw [get_set, get_set, h.1]
    split
    · rfl
    · exact (h.2 j).1
  · rw [List.getElem?_set, List.getElem?_set, h.1]
    by_cases hij : i = j
    · simp [hij]
    · rw [if_neg hij, if_neg hij]
      refine (h.2 j).2 fun hm => hj (List.mem_filter.2 ⟨hm, ?_⟩)
      simp only [List.contains_cons, List.contains_nil, Bool.or_false, Bool.not_eq_true', beq_eq_false_iff_ne]
      exact fun e => hij e.symm

/-- Moving from a live object. -/
theorem AgreeBut.moveFrom {moved : List Nat} {c d : Contents T} (h : AgreeBut moved c d) (i : Nat) (x y : Option T) :
    AgreeBut (i :: moved) (c.set i (some x)) (d.set i (some y)) := by
  refine ⟨by simp [h.1], fun j => ⟨?_, fun hj => ?_⟩⟩
  · rw [get_set, get_set, h.1]
    split
    · rfl
    · exact (h.2 j).1
  · have hij : i ≠ j := fun e => hj (e ▸ List.mem_cons_self ..)
    rw [List.getElem?_set, List.getElem?_set, if_neg hij, if_neg hij]
    exact (h.2 j).2 fun hm => hj (List.mem_cons_of_mem _ hm)

theorem AgreeBut.weaken {moved moved' : List Nat} {c d : Contents T} (h : AgreeBut moved c d) (hs : ∀ i ∈ moved, i ∈ moved') :
    AgreeBut moved' c d := ⟨h.1, fun i => ⟨(h.2 i).1, fun hi => (h.2 i).2 fun hm => hi (hs i hm)⟩⟩

theorem AgreeBut.get {moved : List Nat} {c d : Contents T} (h : AgreeBut moved c d) {i : Nat} (hi : i ∉ moved) : c.get i = d.get i := by
  unfold Contents.get
  rw [(h.2 i).2 hi]

/-- The same verdict, and what it leaves agrees. -/
def Alike (moved : List Nat) : Verdict T → Verdict T → Prop
  | .undefined, .undefined => True
  | .noValue, .noValue => True
  | .done r c, .done r' d => r = r' ∧ AgreeBut moved c d ∧ ∀ i ∈ moved, i < c.length
  | _, _ => False

theorem get_lt {c : Contents T} {i : Nat} {o : Option T} (h : c.get i = some o) : i < c.length := by
  unfold Contents.get at h
  cases hc : c[i]? with
  | none => rw [hc] at h; cases h
  | some x => exact (List.getElem?_eq_some_iff.1 hc).1

theorem alive_cases {moved : List Nat} {c d : Contents T} (h : AgreeBut moved c d) (i : Nat) :
    (c.get i = none ∧ d.get i = none) ∨ ∃ o o', c.get i = some o ∧ d.get i = some o' := by
  have := (h.2 i).1
  cases hc : c.get i <;> cases hd : d.get i <;> simp_all

theorem filter_lt {moved : List Nat} {n : Nat} (hm : ∀ i ∈ moved, i < n) (p : Nat → Bool) : ∀ i ∈ moved.filter p, i < n :=
  fun i hi => hm i (List.mem_filter.1 hi).1

theorem meaning_alike {moved : List Nat} {c d : Contents T} (h : AgreeBut moved c d) (hm : ∀ i ∈ moved, i < c.length)
    (f g : T → Option T) (op : OOp T) (h1 : op.ofItself = false) (h2 : ∀ i ∈ op.reads, i ∉ moved) :
    Alike (op.movesFrom ++ moved.filter (fun i => !op.writes.contains i)) (meaning f left c op) (meaning g left d op) := by
  have hid : moved.filter (fun i => !([] : List Nat).contains i) = moved := by simp
  have hlt : ∀ x : Option (Option T), ∀ i ∈ moved, i < (c ++ [x]).length := fun x i hi => by
    have := hm i hi; simp only [List.length_append, List.length_singleton]; omega
  cases op with
  | create =>
    simp only [meaning, Alike, OOp.movesFrom, OOp.writes, List.nil_append, hid]
    exact ⟨trivial, h.push hm _, hlt _⟩
  | copyNew i =>
    have e := h.get (h2 i (by simp [OOp.reads]))
    simp only [meaning, using', e, OOp.movesFrom, OOp.writes, List.nil_append, hid]
    cases d.get i with
    | none => trivial
    | some o => exact ⟨rfl, h.push hm _, hlt _⟩
  | moveNew i =>
    have e := h.get (h2 i (by simp [OOp.reads]))
    simp only [meaning, using', e, OOp.movesFrom, OOp.writes, hid]
    cases hd : d.get i with
    | none => trivial
    | some o =>
      have hi : i < c.length := get_lt (e.trans hd)
      have hm' : ∀ j ∈ i :: moved, j < c.length := fun j hj => by
        rcases List.mem_cons.1 hj with rfl | hj
        · exact hi
        · exact hm j hj
      refine ⟨rfl, (h.moveFrom i _ _).push (by simpa using hm') _, fun j hj => ?_⟩
      have := hm' j hj
      simp only [List.length_append, List.length_set, List.length_singleton]; omega
  | convertNew k i =>
    have e := h.get (h2 i (by simp [OOp.reads]))
    simp only [meaning, using', e, OOp.movesFrom, OOp.writes, List.nil_append, hid]
    cases d.get i with
    | none => trivial
    | some o => exact ⟨rfl, h.push hm _, hlt _⟩
  | convertMoveNew k i =>
    have e := h.get (h2 i (by simp [OOp.reads]))
    simp only [meaning, using', e, OOp.movesFrom, OOp.writes, List.nil_append, hid]
    cases d.get i with
    | none => trivial
    | some o =>
      refine ⟨rfl, ((h.write i _).weaken fun j hj => (List.mem_filter.1 hj).1).push (by simpa using hm) _, fun j hj => ?_⟩
      have := hm j hj
      simp only [List.length_append, List.length_set, List.length_singleton]; omega
  | destroy i =>
    simp only [meaning, using', OOp.movesFrom, OOp.writes, List.nil_append]
    rcases alive_cases h i with ⟨a, b⟩ | ⟨o, o', a, b⟩ <;> rw [a, b]
    · trivial
    · exact ⟨rfl, h.write i _, by simpa only [List.length_set] using filter_lt hm _⟩
  | assign i j =>
    have e := h.get (h2 j (by simp [OOp.reads]))
    simp only [meaning, using', OOp.movesFrom, OOp.writes, List.nil_append, e]
    rcases alive_cases h i with ⟨a, b⟩ | ⟨o, o', a, b⟩ <;> simp only [a, b]
    · trivial
    · cases d.get j with
      | none => trivial
      | some x => exact ⟨rfl, h.write i _, by simpa only [List.length_set] using filter_lt hm _⟩
  | moveAssign i j =>
    have e := h.get (h2 j (by simp [OOp.reads]))
    have hij : i ≠ j := by simpa [OOp.ofItself] using h1
    simp only [meaning, using', OOp.movesFrom, OOp.writes, e]
    rcases alive_cases h i with ⟨a, b⟩ | ⟨o, o', a, b⟩ <;> simp only [a, b]
    · trivial
    · cases hd : d.get j with
      | none => trivial
      | some x =>
        have hj : j < c.length := get_lt (e.trans hd)
        refine ⟨rfl, ((h.moveFrom j _ _).write i _).weaken fun k hk => ?_, fun k hk => ?_⟩
        · obtain ⟨hk1, hk2⟩ := List.mem_filter.1 hk
          rcases List.mem_cons.1 hk1 with rfl | hk1
          · exact List.mem_append_left _ (List.mem_singleton.2 rfl)
          · exact List.mem_append_right _ (List.mem_filter.2 ⟨hk1, hk2⟩)
        · simp only [List.length_set]
          rcases List.mem_append.1 hk with hk | hk
          · rw [List.mem_singleton.1 hk]; exact hj
          · exact filter_lt hm _ k hk
  | swap i j =>
    have e := h.get (h2 i (by simp [OOp.reads]))
    have e' := h.get (h2 j (by simp [OOp.reads]))
    simp only [meaning, using', e, e', OOp.movesFrom, OOp.writes, List.nil_append, hid]
    cases d.get i with
    | none => trivial
    | some a =>
      cases d.get j with
      | none => trivial
      | some b =>
        refine ⟨rfl, ((h.write i _).write j _).weaken fun k hk => ?_, by simpa only [List.length_set] using hm⟩
        exact (List.mem_filter.1 (List.mem_filter.1 hk).1).1
  | hasValue i =>
    have e := h.get (h2 i (by simp [OOp.reads]))
    simp only [meaning, using', e, OOp.movesFrom, OOp.writes, List.nil_append, hid]
    cases d.get i with
    | none => trivial
    | some o => exact ⟨rfl, h, hm⟩
  | deref i =>
    have e := h.get (h2 i (by simp [OOp.reads]))
    simp only [meaning, usingValue, using', e, OOp.movesFrom, OOp.writes, List.nil_append, hid]
    rcases d.get i with _ | _ | o
    · trivial
    · trivial
    · exact ⟨rfl, h, hm⟩
  | value i =>
    have e := h.get (h2 i (by simp [OOp.reads]))
    simp only [meaning, using', e, OOp.movesFrom, OOp.writes, List.nil_append, hid]
    rcases d.get i with _ | _ | o
    · trivial
    · trivial
    · exact ⟨rfl, h, hm⟩
  | valueOr i t =>
    have e := h.get (h2 i (by simp [OOp.reads]))
    simp only [meaning, using', e, OOp.movesFrom, OOp.writes, List.nil_append, hid]
    cases d.get i with
    | none => trivial
    | some o => exact ⟨rfl, h, hm⟩
  | store i t =>
    have e := h.get (h2 i (by simp [OOp.reads]))
    simp only [meaning, usingValue, using', e, OOp.movesFrom, OOp.writes, List.nil_append, hid]
    rcases d.get i with _ | _ | o
    · trivial
    · trivial
    · exact ⟨rfl, (h.write i _).weaken fun j hj => (List.mem_filter.1 hj).1, by simpa only [List.length_set] using hm⟩
  | reset i =>
    simp only [meaning, using', OOp.movesFrom, OOp.writes, List.nil_append]
    rcases alive_cases h i with ⟨a, b⟩ | ⟨o, o', a, b⟩ <;> simp only [a, b]
    · trivial
    · exact ⟨rfl, h.write i _, by simpa only [List.length_set] using filter_lt hm _⟩
  | emplace i t =>
    simp only [meaning, using', OOp.movesFrom, OOp.writes, List.nil_append]
    rcases alive_cases h i with ⟨a, b⟩ | ⟨o, o', a, b⟩ <;> simp only [a, b]
    · trivial
    · exact ⟨rfl, h.write i _, by simpa only [List.length_set] using filter_lt hm _⟩
  | emplaceFrom i j =>
    have e := h.get (h2 j (by simp [OOp.reads]))
    simp only [meaning, usingValue, using', OOp.movesFrom, OOp.writes, List.nil_append, e]
    rcases d.get j with _ | _ | t
    · trivial
    · trivial
    · rcases alive_cases h i with ⟨a, b⟩ | ⟨o, o', a, b⟩ <;> simp only [a, b]
      · trivial
      · exact ⟨rfl, h.write i _, by simpa only [List.length_set] using filter_lt hm _⟩

theorem noValue_reads {f : T → Option T} {c : Contents T} {op : OOp T} (h : meaning f left c op = .noValue) :
    op.movesFrom = [] ∧ op.writes = [] := by
  cases op with
  | value i => exact ⟨rfl, rfl⟩
  | _ =>
    simp only [meaning, usingValue, using'] at h
    repeat' (first | cases h | split at h)

theorem seen_alike (f g : T → Option T) (ops : List (OOp T)) : ∀ (moved : List Nat) (c d : Contents T), AgreeBut moved c d →
    (∀ i ∈ moved, i < c.length) → careful moved ops = true → seen (meaning f left) c ops = seen (meaning g left) d ops := by
  induction ops with
  | nil => intros; rfl
  | cons op ops ih =>
    intro moved c d h hm hc
    simp only [careful, Bool.and_eq_true, Bool.not_eq_true', List.all_eq_true] at hc
    obtain ⟨⟨h1, h2⟩, h3⟩ := hc
    have := meaning_alike (left := left) h hm f g op h1 (fun i hi => by simpa using h2 i hi)
    unfold seen
    cases ha : meaning f left c op <;> cases hb : meaning g left d op <;> rw [ha, hb] at this <;> first | exact this.elim | skip
    · obtain ⟨e1, e2⟩ := noValue_reads ha
      rw [e1, e2] at h3
      simp only [List.cons.injEq, true_and]
      have hid : moved.filter (fun i => !([] : List Nat).contains i) = moved := by simp
      rw [List.nil_append, hid] at h3
      exact ih moved c d h hm h3
    · obtain ⟨rfl, h4, h5⟩ := this
      simp only [List.cons.injEq, true_and]
      exact ih _ _ _ h4 h5 h3

end LRU.Opt
