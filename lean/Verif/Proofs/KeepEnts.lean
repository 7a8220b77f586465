import Verif.Proofs.HistoryInv
import Verif.Spec.Classes
/-!
# Calls that remove nothing, and calls that change nothing
-/

set_option linter.unusedSectionVars false
set_option autoImplicit false

namespace LRU

variable {K V : Type} [KeyEqual K] [DecidableEq K] [DecidableEq V] {O : Oracle K V}

/-- Queries leave the cache as it is. -/
theorem query_ro (op : Op K V) (h : op.query = true) : ReadOnly (Mid.step O op) := by
  cases op with
  | size => exact size_ro.ret
  | capacity => exact readCapacity_ro.ret
  | spaceLeft => exact spaceLeft_ro.ret
  | isEmpty => exact isEmpty_ro.ret
  | isFull => exact isFull_ro.ret
  | front => exact front_ro.ret
  | back => exact back_ro.ret
  | allExpired => exact allExpired_ro.ret
  | hasExpired k => exact hasExpired_ro.ret
  | hasExpiredU pos => exact hasExpiredU_ro.ret
  | hasExpiredO pos => exact hasExpiredO_ro.ret
  | isValidU pos => exact isValidU_ro.ret
  | isValidO pos => exact isValidO_ro.ret
  | uKey pos => exact uKey_ro.ret
  | uValue pos => exact uValue_ro.ret
  | oBegin => exact oBegin_ro.ret
  | oNext pos => exact oNext_ro.ret
  | oPrev pos => exact oPrev_ro.ret
  | oKey pos => exact oKey_ro.ret
  | oValue pos => exact oValue_ro.ret
  | toOrdered pos => exact toOrdered_ro.ret
  | eqOU o u => exact eqOU_ro.ret
  | isMonitoring => exact isMonitoring_ro.ret
  | stats => exact stats_ro.ret
  | sharedStats => exact sharedStats_ro.ret
  | read p => exact read_ro.ret
  | _ => cases h

/-- Everything about an entry but its value. -/
def Ent.frame (x : Ent K V) : Ptr × Ptr × K × Int := (x.id, x.slot, x.key, x.time)

/-- The same entries, up to order and values. -/
def SameEnts (t t' : St (MCache K V) K V) : Prop := (t'.c.ents.map Ent.frame).Perm (t.c.ents.map Ent.frame)

theorem SameEnts.of_eq {t t' : St (MCache K V) K V} (h : t'.c.ents = t.c.ents) : SameEnts t t' := by
  unfold SameEnts
  rw [h]

theorem ReadOnly.sameEnts {α : Type} {m : Mid.CM K V α} (h : ReadOnly m) (t : St (MCache K V) K V) :
    (m t).Post (SameEnts t) :=
  (h t).imp fun _ h => .of_eq (by rw [h.1])

theorem access_sameEnts {t : St (MCache K V) K V} (ht : Ok t) {op : Op K V} {k : K} (ha : op.Accesses k) :
    (Mid.step O op t).Post (SameEnts t) := by
  rcases mid_access (O := O) ht ha with ⟨r, t', h1, h2⟩ | ⟨e, t', h1, h2⟩
  · rw [h1]
    cases h2 with
    | hit x r j hf => exact (toEnd_perm ht (find_mem hf).1).map _
    | last => exact .of_eq rfl
    | absent => exact .of_eq rfl
    | expired => exact .of_eq rfl
    | lastExpired => exact .of_eq rfl
  · rw [h1]
    cases h2 with
    | lateExpired x _ _ hf => exact (toEnd_perm ht (find_mem hf).1).map _
    | hitUser => exact .of_eq rfl
    | missUser => exact .of_eq rfl
    | expiredUser => exact .of_eq rfl
    | notFound => exact .of_eq rfl
    | expired => exact .of_eq rfl
    | lastExpired => exact .of_eq rfl

theorem write_sameEnts (p : Ptr) (v : V) (t : St (MCache K V) K V) : (Mid.write p v t).Post (SameEnts t) := by
  unfold Mid.write
  have h := derefIt_ro (it := some p) (K := K) (V := V) t
  show Out.Post _ (M.bind _ _ t)
  unfold M.bind
  cases hm : Mid.derefIt (some p) t with
  | ok n t' =>
    rw [hm] at h
    obtain ⟨c', g'⟩ := t'
    have e : c' = t.c := h.1
    subst e
    show SameEnts t _
    unfold SameEnts
    rw [show ((Ent.frame : Ent K V → _)) = Ent.frame from rfl]
    show ((List.map _ t.c.ents).map Ent.frame).Perm _
    rw [List.map_map]
    refine List.Perm.of_eq (List.map_congr_left ?_)
    intro x _
    show Ent.frame (if _ then _ else _) = _
    split <;> rfl
  | throw e t' => rw [hm] at h; exact .of_eq (by rw [h.1])
  | ub => trivial
  | terminate => trivial
  | diverge => trivial

/-- Calls outside the class `mayRemove` keep the set of entries. -/
theorem step_sameEnts (op : Op K V) (h : op.mayRemove = false) {t : St (MCache K V) K V} (ht : Ok t) :
    (Mid.step O op t).Post (SameEnts t) := by
  by_cases hq : op.query = true
  · exact (query_ro op hq).sameEnts t
  cases op with
  | contains k => exact access_sameEnts ht (.inl rfl)
  | find k => exact access_sameEnts ht (.inr (.inl rfl))
  | lookup k => exact access_sameEnts ht (.inr (.inr rfl))
  | write p v => exact ret_post (write_sameEnts p v t)
  | monitor | monitorNew | stopMonitoring | addHitCallback | addMissCallback | addAccessCallback | clearHitCallbacks
  | clearMissCallbacks | clearAccessCallbacks | clearAllCallbacks => exact .of_eq rfl
  | _ => first | exact absurd rfl hq | cases h

end LRU
