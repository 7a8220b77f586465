import Verif.Spec.Shortcut
import Verif.Proofs.Mru
import Verif.Proofs.Outcomes
/-!
# The list machine does not depend on `_last_accessed`
-/

set_option autoImplicit false
set_option linter.unusedSectionVars false

namespace LRU

variable {K V : Type} [KeyEqual K] [DecidableEq K] {O : Oracle K V}

/-- Plain caches that are equal but for `_last_accessed`. -/
structure L (t u : St (MCache K V) K V) : Prop where
  ents : u.c.ents = t.c.ents
  cap : u.c.cap = t.c.cap
  kind : u.c.kind = t.c.kind
  obs : u.c.obs = t.c.obs
  g : u.g = t.g
  basic : t.c.kind = .basic

theorem L.refl {t : St (MCache K V) K V} (h : t.c.kind = .basic) : L t t := ⟨rfl, rfl, rfl, rfl, rfl, h⟩

theorem L.symm {t u : St (MCache K V) K V} (h : L t u) : L u t :=
  ⟨h.ents.symm, h.cap.symm, h.kind.symm, h.obs.symm, h.g.symm, h.kind.trans h.basic⟩

theorem L.trans {t u v : St (MCache K V) K V} (h : L t u) (h' : L u v) : L t v :=
  ⟨h'.ents.trans h.ents, h'.cap.trans h.cap, h'.kind.trans h.kind, h'.obs.trans h.obs, h'.g.trans h.g, h.basic⟩

theorem L.last {t : St (MCache K V) K V} (h : t.c.kind = .basic) (o : Option Ptr) :
    L t ⟨{ t.c with last := o }, t.g⟩ := ⟨rfl, rfl, rfl, rfl, rfl, h⟩

section outcomes

variable {σ α : Type} {R : σ → σ → Prop} {a b c : Out σ α}

theorem SameOutcome.symm (hR : ∀ s t, R s t → R t s) (h : SameOutcome R a b) : SameOutcome R b a := by
  cases a <;> cases b <;> first | exact h.elim | trivial | exact ⟨h.1.symm, hR _ _ h.2⟩

theorem SameOutcome.trans (hR : ∀ s t u, R s t → R t u → R s u) (h : SameOutcome R a b) (h' : SameOutcome R b c) :
    SameOutcome R a c := by
  cases a <;> cases b <;> first | exact h.elim | skip
  all_goals cases c <;> first | exact h'.elim | trivial | exact ⟨h'.1.trans h.1, hR _ _ _ h.2 h'.2⟩

end outcomes

/-- The program does not depend on `_last_accessed`. -/
def LS {α : Type} (m : Mid.CM K V α) : Prop := ∀ t u, L t u → SameOutcome L (m t) (m u)

section rules

variable {α β : Type}

theorem LS.bind {m : Mid.CM K V α} {f : α → Mid.CM K V β} (h : LS m) (h' : ∀ a, LS (f a)) : LS (m >>= f) := by
  intro t u hl
  have h1 := h t u hl
  show SameOutcome L (M.bind m f t) (M.bind m f u)
  unfold M.bind
  cases hm : m t <;> cases hm' : m u <;> rw [hm, hm'] at h1 <;> first | exact h1.elim | exact h1 | skip
  obtain ⟨rfl, h2⟩ := h1
  exact h' _ _ _ h2

theorem LS.pure {a : α} : LS (Pure.pure a : Mid.CM K V α) := fun _ _ h => ⟨rfl, h⟩
theorem LS.throw {e : Err} : LS (M.throw e : Mid.CM K V α) := fun _ _ h => ⟨rfl, h⟩
theorem LS.ub : LS (M.ub : Mid.CM K V α) := fun _ _ _ => trivial
theorem LS.diverge : LS (M.diverge : Mid.CM K V α) := fun _ _ _ => trivial

theorem LS.ite {c : Prop} [Decidable c] {m₁ m₂ : Mid.CM K V α} (h₁ : LS m₁) (h₂ : LS m₂) : LS (if c then m₁ else m₂) := by
  split <;> assumption

theorem LS.noexcept {m : Mid.CM K V α} (h : LS m) : LS (M.noexcept m) := by
  intro t u hl
  have h1 := h t u hl
  unfold M.noexcept
  cases hm : m t <;> cases hm' : m u <;> rw [hm, hm'] at h1 <;> first | exact h1.elim | exact h1 | trivial

theorem SameOutcome.ret {m m' : Mid.CM K V α} {f : α → Res K V} {t u : St (MCache K V) K V} (h : SameOutcome L (m t) (m' u)) :
    SameOutcome L (Impl.ret m f t) (Impl.ret m' f u) := by
  show SameOutcome L (M.bind m _ t) (M.bind m' _ u)
  unfold M.bind
  cases hm : m t <;> cases hm' : m' u <;> rw [hm, hm'] at h <;> first | exact h.elim | exact h | skip
  obtain ⟨rfl, h2⟩ := h
  exact ⟨rfl, h2⟩

theorem LS.ret {m : Mid.CM K V α} {f : α → Res K V} (h : LS m) : LS (Impl.ret m f) := fun t u hl => (h t u hl).ret

theorem LS.read {f : St (MCache K V) K V → α} (h : ∀ t u, L t u → f u = f t) : LS (fun s => .ok (f s) s) :=
  fun t u hl => ⟨h t u hl, hl⟩

theorem LS.setSelf {f : MCache K V → MCache K V} (h : ∀ t u : St (MCache K V) K V, L t u → L ⟨f t.c, t.g⟩ ⟨f u.c, u.g⟩) :
    LS (Mid.setSelf f) := fun t u hl => ⟨rfl, h t u hl⟩

/-- Effects on the shared state. -/
theorem L.setG {t u : St (MCache K V) K V} (h : L t u) (f : Shared K V → Shared K V) : L ⟨t.c, f t.g⟩ ⟨u.c, f u.g⟩ :=
  ⟨h.ents, h.cap, h.kind, h.obs, by rw [h.g], h.basic⟩

end rules

section prims

theorem attempt_l {site : Site} : LS (V := V) (attempt O site) := by
  intro t u h
  have h1 := h.setG (fun g => { g with steps := g.steps + 1 })
  unfold attempt
  simp only [h.g] at h1 ⊢
  cases O.fails site t.g.steps with
  | true => simp only [if_true]; exact ⟨rfl, h1⟩
  | false => simp only [Bool.false_eq_true, if_false]; exact ⟨rfl, h1⟩

theorem may_l {site : Site} : LS (V := V) (may O site) :=
  fun _ _ h => ⟨by rw [h.g], h.setG (fun g => { g with steps := g.steps + 1 })⟩

theorem now_l : LS (now O) := fun _ _ h => ⟨by rw [h.g], h.setG (fun g => { g with ticks := g.ticks + 1 })⟩

theorem alloc_l : LS (alloc : Mid.CM K V Ptr) := fun _ _ h => ⟨by rw [h.g], h.setG (fun g => { g with next := g.next + 1 })⟩

theorem emit_l {e : Event K V} : LS (emit e : Mid.CM K V Unit) := fun _ _ h => ⟨rfl, h.setG (fun g => { g with log := g.log ++ [e] })⟩

theorem modStats_l {i : Nat} {f : Statistics K → Statistics K} : LS (modStats i f : Mid.CM K V Unit) :=
  fun _ _ h => ⟨rfl, h.setG (fun g => { g with stats := fun j => if j = i then f (g.stats j) else g.stats j })⟩

theorem callEach_l {ev : Nat → Event K V} {l : List Nat} : LS (callEach O ev l) := by
  induction l with
  | nil => exact .pure
  | cons a r ih => exact emit_l.bind fun _ => attempt_l.bind fun _ => ih

theorem registerHit_l {o : Obs} {k : K} {v : V} : LS (registerHit O o k v) := by
  refine LS.bind ?_ fun _ => callEach_l.bind fun _ => callEach_l
  unfold countHit
  cases o.stats with
  | none => exact .pure
  | some i => exact modStats_l

theorem registerMiss_l {o : Obs} {k : K} : LS (registerMiss O o k) := by
  refine LS.bind ?_ fun _ => callEach_l.bind fun _ => callEach_l
  unfold countMiss
  cases o.stats with
  | none => exact .pure
  | some i => exact modStats_l

theorem getKind_l : LS (Mid.getKind (K := K) (V := V)) := .read fun _ _ h => h.kind
theorem getObs_l : LS (Mid.getObs (K := K) (V := V)) := .read fun _ _ h => h.obs
theorem orderFirst_l : LS (Mid.orderFirst (K := K) (V := V)) := .read fun _ _ h => by rw [h.ents]
theorem orderLast_l : LS (Mid.orderLast (K := K) (V := V)) := .read fun _ _ h => by rw [h.ents]
theorem orderAddrs_l : LS (Mid.orderAddrs (K := K) (V := V)) := .read fun _ _ h => by rw [h.ents]
theorem size_l : LS (Mid.size (K := K) (V := V)) := .read fun _ _ h => by rw [h.ents]
theorem mapFind_l {k : K} : LS (V := V) (Mid.mapFind k) := .read fun _ _ h => by rw [h.ents]

theorem deref_l {p : Ptr} : LS (K := K) (V := V) (Mid.deref p) := by
  intro t u h
  unfold Mid.deref
  rw [h.ents, h.g]
  cases t.c.ents.find? (fun e => e.id == p) with
  | some e => exact ⟨rfl, h⟩
  | none =>
    cases t.g.ext.find? (fun n => n.addr == p) with
    | some n => exact ⟨rfl, h⟩
    | none => trivial

theorem derefIt_l {it : Option Ptr} : LS (K := K) (V := V) (Mid.derefIt it) := by
  cases it with
  | none => exact .ub
  | some p =>
    intro t u h
    unfold Mid.derefIt
    simp only
    rw [h.ents]
    cases t.c.ents.find? (fun e => e.id == p) with
    | some e => exact ⟨rfl, h⟩
    | none => trivial

theorem derefOrder_l {p : Ptr} : LS (K := K) (V := V) (Mid.derefOrder p) := by
  intro t u h
  unfold Mid.derefOrder
  rw [h.ents]
  cases t.c.ents.find? (fun e => e.slot == p) with
  | some e => exact ⟨rfl, h⟩
  | none => trivial

theorem readCapacity_l : LS (K := K) (V := V) Mid.readCapacity := by
  intro t u h
  unfold Mid.readCapacity
  rw [h.cap]
  cases t.c.cap with
  | some e => exact ⟨rfl, h⟩
  | none => trivial

theorem setEnts_l {f : List (Ent K V) → List (Ent K V)} : LS (Mid.setSelf fun c => { c with ents := f c.ents }) :=
  .setSelf fun _ _ h => ⟨by show f _ = f _; rw [h.ents], h.cap, h.kind, h.obs, h.g, h.basic⟩

theorem setObs_l {f : Obs → Obs} : LS (K := K) (V := V) (Mid.setSelf fun c => { c with obs := f c.obs }) :=
  .setSelf fun _ _ h => ⟨h.ents, h.cap, h.kind, by show f _ = f _; rw [h.obs], h.g, h.basic⟩

theorem assignCapacity_l {n : Nat} : LS (K := K) (V := V) (Mid.assignCapacity n) :=
  .setSelf fun _ _ h => ⟨h.ents, rfl, h.kind, h.obs, h.g, h.basic⟩

theorem setLast_l {p : Ptr} : LS (K := K) (V := V) (Mid.setLast p) :=
  .setSelf fun _ _ h => ⟨h.ents, h.cap, h.kind, h.obs, h.g, h.basic⟩

theorem clear_l : LS (K := K) (V := V) Mid.clear :=
  .setSelf fun _ _ h => ⟨rfl, h.cap, h.kind, h.obs, h.g, h.basic⟩

theorem assignValue_l {p : Ptr} {v : V} : LS (K := K) (Mid.assignValue p v) := setEnts_l

theorem tearValue_l {p : Ptr} {f : V → V} : LS (K := K) (Mid.tearValue p f) := setEnts_l

theorem spliceToEnd_l {it : Option Ptr} : LS (K := K) (V := V) (Mid.spliceToEnd it) := by
  cases it with
  | none => exact .ub
  | some q =>
    intro t u h
    unfold Mid.spliceToEnd
    simp only
    rw [h.ents]
    cases t.c.ents.find? (fun e => e.slot == q) with
    | some e => exact ⟨rfl, rfl, h.cap, h.kind, h.obs, h.g, h.basic⟩
    | none => trivial

theorem replaceFirst_l {k : K} {v : V} {n : Int} {p : Ptr} : LS (Mid.replaceFirst k v n p) := by
  intro t u h
  unfold Mid.replaceFirst
  rw [h.ents]
  cases t.c.ents with
  | nil => trivial
  | cons e r => exact ⟨rfl, rfl, h.cap, h.kind, h.obs, h.g, h.basic⟩

theorem monitorNew_l {ks : List K} : LS (V := V) (Mid.monitorNew ks) := by
  intro t u h
  refine ⟨by rw [h.g], h.ents, h.cap, h.kind, ?_, ?_, h.basic⟩
  · show ({ u.c.obs with stats := some u.g.nextStat } : Obs) = { t.c.obs with stats := some t.g.nextStat }
    rw [h.obs, h.g]
  · simp only [h.g]

end prims

/-- Decomposes a function body. -/
syntax "lasts" "[" term,* "]" : tactic

macro_rules
  | `(tactic| lasts [$ts,*]) => `(tactic|
    repeat' first
      | assumption
      | exact LS.pure
      | exact LS.throw
      | exact LS.ub
      | exact LS.diverge
      | exact getKind_l
      | exact getObs_l
      | exact orderFirst_l
      | exact orderLast_l
      | exact orderAddrs_l
      | exact size_l
      | exact mapFind_l
      | exact deref_l
      | exact derefIt_l
      | exact derefOrder_l
      | exact readCapacity_l
      | exact assignCapacity_l
      | exact setLast_l
      | exact assignValue_l
      | exact spliceToEnd_l
      | exact replaceFirst_l
      | exact clear_l
      | exact alloc_l
      | exact attempt_l
      | exact now_l
      | exact registerHit_l
      | exact registerMiss_l
      $[| exact $ts]*
      | refine LS.noexcept ?_
      | refine LS.bind ?_ (fun _ => ?_)
      | refine LS.ite ?_ ?_
      | split)

section members

theorem hasExpiredInfo_l {time : Int} : LS (Mid.hasExpiredInfo O time) := by
  unfold Mid.hasExpiredInfo; lasts []

theorem moveToFront_l {it : Option Ptr} : LS (K := K) (V := V) (Mid.moveToFront it) := by
  unfold Mid.moveToFront; lasts []

theorem moveToFrontAssign_l {n : MapNode K V} {v : V} : LS (Mid.moveToFrontAssign O n v) := by
  unfold Mid.moveToFrontAssign Mid.tryAssign; lasts [moveToFront_l, may_l, tearValue_l]

theorem keyOf_l {l : ListNode} : LS (K := K) (V := V) (Mid.keyOf l) := by
  unfold Mid.keyOf; lasts []

theorem orderFront_l : LS (K := K) (V := V) Mid.orderFront := by
  unfold Mid.orderFront; lasts []

theorem orderBack_l : LS (K := K) (V := V) Mid.orderBack := by
  unfold Mid.orderBack; lasts []

theorem insertionTime_l : LS (Mid.insertionTime O) := by
  unfold Mid.insertionTime; lasts []

theorem placeNode_l {k : K} {v : V} {t : Int} {p : Ptr} : LS (Mid.placeNode O k v t p) := by
  unfold Mid.placeNode
  refine size_l.bind fun n => readCapacity_l.bind fun c => LS.ite replaceFirst_l ?_
  exact attempt_l.bind fun _ => alloc_l.bind fun q => setEnts_l (f := fun l => l ++ [⟨p, q, k, v, t, some q⟩])

theorem insertNode_l {k : K} {v : V} {t : Int} : LS (Mid.insertNode O k v t) := by
  unfold Mid.insertNode; lasts [placeNode_l]

theorem find_l {k : K} : LS (Mid.find O k) := by
  unfold Mid.find; lasts [hasExpiredInfo_l, moveToFront_l]

theorem throwIfInvalidU_l {it : Option Ptr} : LS (Mid.throwIfInvalidU O it) := by
  unfold Mid.throwIfInvalidU; lasts [hasExpiredInfo_l]

theorem entryU_l {it : Option Ptr} : LS (Mid.entryU O it) := by
  unfold Mid.entryU; lasts [throwIfInvalidU_l]

theorem insert_l {k : K} {v : V} : LS (Mid.insert O k v) := by
  unfold Mid.insert; lasts [insertionTime_l, insertNode_l, moveToFrontAssign_l]

theorem emplace_l {k : K} {v : V} : LS (Mid.emplace O k v) := by
  unfold Mid.emplace; lasts [insertionTime_l, insertNode_l, moveToFrontAssign_l]

theorem insertRange_l {l : List (K × V)} : LS (Mid.insertRange O l) := by
  induction l with
  | nil => exact .pure
  | cons a r ih => exact insert_l.bind fun _ => ih.bind fun _ => .pure

theorem insertRangeMove_l {l : List (K × V)} : LS (Mid.insertRangeMove O l) := by
  induction l with
  | nil => exact .pure
  | cons a r ih => exact emplace_l.bind fun _ => ih.bind fun _ => .pure

theorem isEmpty_l : LS (K := K) (V := V) Mid.isEmpty := by unfold Mid.isEmpty; lasts []

theorem clearAndIncreaseCapacity_l {n : Nat} : LS (K := K) (V := V) (Mid.clearAndIncreaseCapacity n) := by
  unfold Mid.clearAndIncreaseCapacity; lasts []

theorem hasExpiredU_l {it : Option Ptr} : LS (Mid.hasExpiredU O it) := by
  unfold Mid.hasExpiredU; lasts [hasExpiredInfo_l]

theorem uEntry_l {it : Impl.UIt} : LS (Mid.uEntry O it) := by
  unfold Mid.uEntry Mid.uDeref; lasts [throwIfInvalidU_l]

theorem keyAt_l {it : Option Ptr} : LS (K := K) (V := V) (Mid.keyAt it) := by
  unfold Mid.keyAt; lasts [keyOf_l]

theorem oLookup_l {it : Option Ptr} : LS (K := K) (V := V) (Mid.oLookup it) := by
  unfold Mid.oLookup; lasts [keyAt_l]

theorem hasExpiredO_l {it : Option Ptr} : LS (Mid.hasExpiredO O it) := by
  unfold Mid.hasExpiredO; lasts [hasExpiredInfo_l, oLookup_l]

theorem throwIfInvalidO_l {it : Option Ptr} : LS (Mid.throwIfInvalidO O it) := by
  unfold Mid.throwIfInvalidO; lasts [hasExpiredO_l]

theorem oKey_l {it : Impl.OIt} : LS (Mid.oKey O it) := by
  unfold Mid.oKey; lasts [throwIfInvalidO_l, keyAt_l]

theorem toOrdered_l {it : Impl.UIt} : LS (K := K) (V := V) (Mid.toOrdered it) := by
  unfold Mid.toOrdered; lasts []

end members

section shortcut

variable {t : St (MCache K V) K V}

/-- `contains` without the shortcut. -/
def containsSlow (O : Oracle K V) (k : K) : Mid.CM K V Bool := do
  let it ← Mid.find O k
  pure it.isSome

/-- `lookup` without the shortcut. -/
def lookupSlow (O : Oracle K V) (k : K) : Mid.CM K V (Ptr × V) := do
  match ← Mid.find O k with
  | none => M.throw .keyNotFound
  | some p => do
    let n ← Mid.entryU O (some p)
    pure (n.addr, n.info.value)

theorem SameOutcome.same {α : Type} {o : Out (St (MCache K V) K V) α}
    (h : ∀ s, (∃ a, o = .ok a s) ∨ (∃ e, o = .throw e s) → s.c.kind = .basic) : SameOutcome L o o := by
  cases o with
  | ok a s => exact ⟨rfl, .refl (h s (.inl ⟨a, rfl⟩))⟩
  | throw e s => exact ⟨rfl, .refl (h s (.inr ⟨e, rfl⟩))⟩
  | ub => trivial
  | terminate => trivial
  | diverge => trivial

theorem LS.basic {α : Type} {m : Mid.CM K V α} (h : LS m) (hk : t.c.kind = .basic) : SameOutcome L (m t) (m t) :=
  h t t (.refl hk)

variable [DecidableEq V]

/-- What the slow path does when the shortcut would have been taken. -/
theorem find_last_eq (h : OkM t) (hk : t.c.kind = .basic) {k : K} {e : Ent K V} (he : t.c.lastEnt = some e)
    (hm : keq k e.key = true) :
    Mid.find O k t = (registerHit O t.c.obs k e.val >>= fun _ => (pure (some e.id) : Mid.CM K V _)) t := by
  have hmem := lastEnt_mem he
  obtain ⟨e', he', hf⟩ := h.ok.lastMatches_find (lastMatches_iff.2 ⟨e, he, hm⟩)
  obtain rfl : e = e' := Option.some.inj (he.symm.trans he')
  have hg : t.c.ents.getLast? = some e := by
    have := h.mru _ hmem.2
    obtain ⟨x, hx, hid⟩ := Option.map_eq_some_iff.1 this
    rw [hx, map_inj_of_nodup h.ok.awf.ids x (List.mem_of_getLast? hx) e hmem.1 hid]
  unfold Mid.find
  rw [bind_ok (m := Mid.getObs) (s := t) rfl, bind_ok (m := Mid.mapFind k) (s := t) rfl, hf]
  simp only [Option.map_some]
  rw [bind_ok (hasExpiredInfo_eq O _ t)]
  have hx : expiredAt O t.c.kind t.g e.node.info.time = false := by rw [hk]; rfl
  rw [hx, if_neg (by simp), hk]
  have e2 : e.node.info.value = e.val := rfl
  rw [e2]
  have ht : (⟨t.c, tickG .basic t.g⟩ : St (MCache K V) K V) = t := rfl
  rw [ht]
  rcases registerHit_cases (O := O) t.c.obs k e.val t with ⟨h1, h2⟩ | ⟨n, cb, h1, h2, h3⟩
  · rw [bind_ok h1, bind_ok h1]
    have h' : Ok ⟨t.c, hitG t.c.obs k e.val t.g⟩ := h.ok.mono' rfl (Nat.le_refl _)
    rw [show e.node.info.order = e.ord from rfl, bind_ok (moveToFront_eq h' hmem.1)]
    show Out.ok _ _ = Out.ok _ _
    simp only [toEnd_last h.ok.awf.slots hg]
    rw [show e.node.addr = e.id from rfl, ← hmem.2]
  · rw [bind_throw h3, bind_throw h3]

theorem contains_slow (h : OkM t) (hk : t.c.kind = .basic) (k : K) : Mid.contains O k t = containsSlow O k t := by
  unfold Mid.contains containsSlow
  rw [bind_ok (m := Mid.getObs) (s := t) rfl, bind_ok (lastIs_eq h.ok k)]
  cases hm : t.c.lastMatches k with
  | false => rfl
  | true =>
    rw [if_pos rfl]
    obtain ⟨e, he, hke⟩ := lastMatches_iff.1 hm
    rw [bind_ok (lastAccessedIsOk_eq h.ok he)]
    have hx : expiredAt O t.c.kind t.g e.time = false := by rw [hk]; rfl
    rw [hx, hk, if_pos (by rfl)]
    have ht : (⟨t.c, tickG .basic t.g⟩ : St (MCache K V) K V) = t := rfl
    rw [ht, bind_ok (lastNode_eq h.ok he), show e.node.info.value = e.val from rfl]
    have hf := find_last_eq (O := O) h hk he hke
    rcases registerHit_cases (O := O) t.c.obs k e.val t with ⟨h1, h2⟩ | ⟨n, cb, h1, h2, h3⟩
    · rw [bind_ok h1] at hf ⊢
      rw [bind_ok hf]
      rfl
    · rw [bind_throw h3] at hf ⊢
      rw [bind_throw hf]

theorem lookup_slow (h : OkM t) (hk : t.c.kind = .basic) (k : K) : Mid.lookup O k t = lookupSlow O k t := by
  unfold Mid.lookup lookupSlow
  rw [bind_ok (m := Mid.getObs) (s := t) rfl, bind_ok (lastIs_eq h.ok k)]
  cases hm : t.c.lastMatches k with
  | false => rfl
  | true =>
    rw [if_pos rfl]
    obtain ⟨e, he, hke⟩ := lastMatches_iff.1 hm
    have hx : ∀ g, expiredAt O t.c.kind g e.time = false := by intro g; rw [hk]; rfl
    have hv := valueForLastAccessed_eq (O := O) h.ok he
    have hf := find_last_eq (O := O) h hk he hke
    rw [hx, if_neg (by simp), hk] at hv
    have ht : (⟨t.c, tickG .basic t.g⟩ : St (MCache K V) K V) = t := rfl
    rw [ht] at hv
    rw [bind_ok hv, show e.node.info.value = e.val from rfl]
    rcases registerHit_cases (O := O) t.c.obs k e.val t with ⟨h1, h2⟩ | ⟨n, cb, h1, h2, h3⟩
    · rw [bind_ok h1] at hf ⊢
      rw [bind_ok hf]
      have h' : Ok ⟨t.c, hitG t.c.obs k e.val t.g⟩ := h.ok.mono' rfl (Nat.le_refl _)
      have hu := entryU_eq (O := O) h' (lastEnt_mem he).1
      rw [show expiredAt O t.c.kind _ e.time = false from hx _] at hu
      simp only [Bool.false_eq_true, if_false, hk] at hu
      show _ = (Mid.entryU O (some e.id) >>= _) _
      rw [bind_ok hu]
      rfl
    · rw [bind_throw h3] at hf ⊢
      rw [bind_throw hf]

end shortcut

section step

variable [DecidableEq V] {t u : St (MCache K V) K V}

theorem L.prune (h : L t u) (l : List (Ent K V)) : L ⟨t.c.prune l, t.g⟩ ⟨u.c.prune l, u.g⟩ :=
  ⟨rfl, h.cap, h.kind, h.obs, h.g, h.basic⟩

theorem contains_l (h : L t u) (ht : OkM t) (hu : OkM u) (k : K) :
    SameOutcome L (Mid.contains O k t) (Mid.contains O k u) := by
  rw [contains_slow ht h.basic, contains_slow hu h.symm.basic]
  exact (find_l.bind fun _ => LS.pure) t u h

theorem lookup_l (h : L t u) (ht : OkM t) (hu : OkM u) (k : K) :
    SameOutcome L (Mid.lookup O k t) (Mid.lookup O k u) := by
  rw [lookup_slow ht h.basic, lookup_slow hu h.symm.basic]
  have : LS (lookupSlow O k) := by unfold lookupSlow; lasts [find_l, entryU_l]
  exact this t u h

theorem erase_l (h : L t u) (ht : Ok t) (hu : Ok u) (k : K) : SameOutcome L (Mid.erase k t) (Mid.erase k u) := by
  rw [erase_eq ht, erase_eq hu, h.ents]
  cases t.c.ents.find? (fun x => keq x.key k) with
  | none => exact ⟨rfl, h⟩
  | some e => exact ⟨rfl, h.prune _⟩

theorem eraseU_l (h : L t u) (ht : Ok t) (hu : Ok u) (pos : Option Ptr) :
    SameOutcome L (Mid.eraseU pos t) (Mid.eraseU pos u) := by
  cases pos with
  | none => exact ⟨rfl, h⟩
  | some p =>
    by_cases hp : p ∈ t.c.ents.map (·.id)
    · obtain ⟨e, he, rfl⟩ := List.mem_map.1 hp
      rw [eraseU_own ht he, eraseU_own hu (h.ents ▸ he), h.ents]
      exact ⟨rfl, h.prune _⟩
    · rw [eraseU_not hp, eraseU_not (h.ents.symm ▸ hp)]
      trivial

theorem eraseO_l (h : L t u) (ht : Ok t) (hu : Ok u) (pos : Option Ptr) :
    SameOutcome L (Mid.eraseO O { pos := pos } t) (Mid.eraseO O { pos := pos } u) := by
  cases pos with
  | none => exact ⟨rfl, h⟩
  | some p =>
    by_cases hp : p ∈ t.c.ents.map (·.slot)
    · obtain ⟨e, he, rfl⟩ := List.mem_map.1 hp
      rw [eraseO_own ht he, eraseO_own hu (h.ents ▸ he), h.ents, h.kind, h.basic]
      exact ⟨rfl, h.prune _⟩
    · rw [eraseO_not hp, eraseO_not (h.ents.symm ▸ hp)]
      trivial

theorem shrink_l (h : L t u) (ht : Ok t) (hu : Ok u) (n : Nat) :
    SameOutcome L (Mid.shrink n t) (Mid.shrink n u) := by
  rw [shrink_eq ht, shrink_eq hu, h.ents]
  exact ⟨rfl, h.prune _⟩

theorem setCapacity_l (h : L t u) (ht : Ok t) (hu : Ok u) (n : Nat) :
    SameOutcome L (Mid.setCapacity n t) (Mid.setCapacity n u) := by
  rw [setCapacity_eq ht, setCapacity_eq hu, h.ents]
  exact ⟨rfl, rfl, rfl, h.kind, h.obs, h.g, h.basic⟩

theorem clearExpired_l (h : L t u) (ht : Ok t) (hu : Ok u) :
    SameOutcome L (Mid.clearExpired O t) (Mid.clearExpired O u) := by
  have key : ∀ {t : St (MCache K V) K V}, Ok t → t.c.kind = .basic → Mid.clearExpired O t = .ok 0 t := by
    intro t ht hk
    obtain ⟨m, hm, h1, -, h3⟩ := clearExpired_eq (O := O) ht
    have h0 : m = 0 := by
      rcases Nat.eq_zero_or_pos m with h | h
      · exact h
      · have := h1 0 (t.c.ents[0]'(by omega)) h (List.getElem?_eq_getElem _)
        rw [hk] at this
        exact absurd this (by simp [expiredAt, Kind.expired])
    subst h0
    rw [h3, hk, List.drop_zero, prune_self ht]
    congr 1
  rw [key ht h.basic, key hu h.symm.basic]
  exact ⟨rfl, h⟩

theorem step_l (h : L t u) (ht : OkM t) (hu : OkM u) (op : Op K V) :
    SameOutcome L (Mid.step O op t) (Mid.step O op u) := by
  cases op with
  | contains k => exact (contains_l h ht hu k).ret
  | lookup k => exact (lookup_l h ht hu k).ret
  | erase k => exact (erase_l h ht.ok hu.ok k).ret
  | eraseU pos => exact (eraseU_l h ht.ok hu.ok pos).ret
  | eraseO pos => exact (eraseO_l h ht.ok hu.ok pos).ret
  | shrink n => exact (shrink_l h ht.ok hu.ok n).ret
  | setCapacity n => exact (setCapacity_l h ht.ok hu.ok n).ret
  | clearExpired => exact (clearExpired_l h ht.ok hu.ok).ret
  | find k => exact find_l.ret t u h
  | insert k v => exact insert_l.ret t u h
  | emplace k v => exact emplace_l.ret t u h
  | insertRange l => exact insertRange_l.ret t u h
  | insertRangeMove l => exact insertRangeMove_l.ret t u h
  | assignRange l =>
    refine LS.ret ?_ t u h
    unfold Mid.assignRange; lasts [clearAndIncreaseCapacity_l, insertRange_l]
  | assignRangeMove l =>
    refine LS.ret ?_ t u h
    unfold Mid.assignRangeMove; lasts [clearAndIncreaseCapacity_l, insertRangeMove_l]
  | clear => exact clear_l.ret t u h
  | size => exact size_l.ret t u h
  | capacity => exact readCapacity_l.ret t u h
  | spaceLeft => refine LS.ret ?_ t u h; unfold Mid.spaceLeft; lasts []
  | isEmpty => exact isEmpty_l.ret t u h
  | isFull => refine LS.ret ?_ t u h; unfold Mid.isFull; lasts []
  | front => refine LS.ret ?_ t u h; unfold Mid.front; lasts [isEmpty_l, orderBack_l, keyOf_l]
  | back => refine LS.ret ?_ t u h; unfold Mid.back; lasts [isEmpty_l, orderFront_l, keyOf_l]
  | allExpired => refine LS.ret ?_ t u h; unfold Mid.allExpired; lasts [isEmpty_l, orderBack_l, keyOf_l, hasExpiredInfo_l]
  | hasExpired k => refine LS.ret ?_ t u h; unfold Mid.hasExpired; lasts [hasExpiredInfo_l]
  | hasExpiredU pos => exact hasExpiredU_l.ret t u h
  | hasExpiredO pos => exact hasExpiredO_l.ret t u h
  | isValidU pos => refine LS.ret ?_ t u h; unfold Mid.isValidU; lasts [hasExpiredU_l]
  | isValidO pos => refine LS.ret ?_ t u h; unfold Mid.isValidO; lasts [hasExpiredO_l]
  | uKey pos => refine LS.ret ?_ t u h; unfold Mid.uKey; lasts [uEntry_l]
  | uValue pos => refine LS.ret ?_ t u h; unfold Mid.uValue; lasts [uEntry_l]
  | oBegin => refine LS.ret ?_ t u h; unfold Mid.oBegin; lasts []
  | oNext pos => refine LS.ret ?_ t u h; unfold Mid.oNext; lasts []
  | oPrev pos => refine LS.ret ?_ t u h; unfold Mid.oPrev; lasts []
  | oKey pos => exact oKey_l.ret t u h
  | oValue pos => refine LS.ret ?_ t u h; unfold Mid.oValue Mid.oEntry Mid.oDeref; lasts [throwIfInvalidO_l, oLookup_l]
  | toOrdered pos => exact toOrdered_l.ret t u h
  | eqOU o x => refine LS.ret ?_ t u h; unfold Mid.eqOU; lasts [toOrdered_l]
  | monitor i => exact (setObs_l (f := fun o => { o with stats := i })).ret t u h
  | monitorNew ks => exact monitorNew_l.ret t u h
  | stopMonitoring => exact (setObs_l (f := fun o => { o with stats := none })).ret t u h
  | isMonitoring => refine LS.ret ?_ t u h; unfold Mid.isMonitoring; lasts []
  | stats => refine LS.ret ?_ t u h; unfold Mid.stats; lasts []
  | sharedStats => refine LS.ret ?_ t u h; unfold Mid.sharedStats; lasts []
  | addHitCallback cb => exact (setObs_l (f := fun o => { o with hitCbs := o.hitCbs ++ [cb] })).ret t u h
  | addMissCallback cb => exact (setObs_l (f := fun o => { o with missCbs := o.missCbs ++ [cb] })).ret t u h
  | addAccessCallback cb => exact (setObs_l (f := fun o => { o with accCbs := o.accCbs ++ [cb] })).ret t u h
  | clearHitCallbacks => exact (setObs_l (f := fun o => { o with hitCbs := [] })).ret t u h
  | clearMissCallbacks => exact (setObs_l (f := fun o => { o with missCbs := [] })).ret t u h
  | clearAccessCallbacks => exact (setObs_l (f := fun o => { o with accCbs := [] })).ret t u h
  | clearAllCallbacks => exact (setObs_l (f := fun o => { o with hitCbs := [], missCbs := [], accCbs := [] })).ret t u h
  | write p v => refine LS.ret ?_ t u h; unfold Mid.write; lasts []
  | read p => refine LS.ret ?_ t u h; unfold Mid.read; lasts []

end step

end LRU
