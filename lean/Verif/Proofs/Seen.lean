import Verif.Spec.WatchedTimed
import Verif.Proofs.Latest
import Verif.Proofs.ManyTimed
import Verif.Proofs.Count
import Verif.Proofs.Record
/-!
# What is registered by accesses to caches of both classes: lemmas for `Props.WatchedTimed`
-/

set_option linter.unusedSectionVars false
set_option autoImplicit false

namespace LRU

variable {K V : Type} [KeyEqual K] [DecidableEq K] [DecidableEq V] {O : Oracle K V} {s s' : St (Cache K V) K V}
  {t t' : St (MCache K V) K V} {op : Op K V} {k : K} {now : Int}

/-- The key of the element `_last_accessed` refers to. -/
def lastKey (c : Cache K V) : Option K := c.last.bind fun p => ((elements c).find? (·.addr == p)).map (·.key)

/-- A cache as a watched map. -/
def asExhibit (c : Cache K V) : Exhibit K V :=
  ⟨asBook c, lastKey c, c.obs.stats, c.obs.hitCbs, c.obs.missCbs, c.obs.accCbs⟩

theorem Rel.lastKey (h : Rel s t) : lastKey s.c = t.c.lastKey := by
  unfold LRU.lastKey MCache.lastKey MCache.lastEnt
  rw [h.rep.last, h.elements]
  cases t.c.last with
  | none => rfl
  | some p =>
    simp only [Option.bind_some, List.find?_map, Option.map_map]
    rfl

theorem asBook_storedKey (c : Cache K V) (k : K) : (asBook c).storedKey k = (entryFor c k).map (·.key) := by
  unfold asBook
  cases c.kind with
  | basic =>
    show ((asLru c).item k).map _ = _
    rw [asLru_item, Option.map_map]
    rfl
  | timed =>
    show (Lru.item (asTimed c) k).map _ = _
    rw [asTimed_item, Option.map_map]
    rfl

theorem Rel.storedKey (h : Rel s t) : (asBook s.c).storedKey = t.c.keyFor := by
  funext k
  rw [asBook_storedKey, h.entryFor, Option.map_map]
  rfl

theorem Rel.recalls {k? : Option K} (h : Rel s t) (h' : Rel s' t') (hr : Recalls k? t t') :
    LRU.lastKey s'.c = (k?.or (LRU.lastKey s.c)).bind (asBook s'.c).storedKey := by
  rw [h.lastKey, h'.lastKey, h'.storedKey]
  exact hr

/-- What an access finds, seen on the list machine. -/
theorem Rel.finds (h : Rel s t) (now : Int) (k : K) : (asBook s.c).finds now k =
    match t.c.ents.find? (fun x => keq x.key k) with
    | some e => if t.c.kind.expired e.time now then none else some (e.key, e.val)
    | none => none := by
  unfold asBook
  rw [← h.rep.kind]
  cases hk : s.c.kind with
  | basic =>
    show (asLru s.c).item k = _
    rw [asLru_item, h.entryFor]
    cases t.c.ents.find? _ <;> rfl
  | timed ttl res =>
    show TLru.fresh (asTimed s.c) _ _ _ = _
    unfold TLru.fresh
    rw [asTimed_item, h.entryFor]
    cases t.c.ents.find? _ <;> rfl

theorem expiredAt_now {kind : Kind} {g : Shared K V} (h : kind.reads = 1 → O.clock g.ticks = now) (time : Int) :
    expiredAt O kind g time = kind.expired time now := by
  cases kind with
  | basic => rfl
  | timed ttl res =>
    unfold expiredAt
    rw [h rfl]

/-- What is registered by an access and which key is the latest afterwards. -/
structure Seen (now : Int) (op : Op K V) (k : K) (s : St (Cache K V) K V) (res : Except Err (Res K V))
    (s' : St (Cache K V) K V) : Prop where
  latest : lastKey s'.c = (((asBook s.c).touches now op).or (lastKey s.c)).bind (asBook s'.c).storedKey
  quiet : (asExhibit s.c).overlooks now op = true → s'.g.log = s.g.log ∧ s'.g.stats = s.g.stats ∧
    (res = .error .keyExpired ∨ res = .ok (.bool false))
  loud : (asExhibit s.c).overlooks now op = false →
    Recorded s s' k ((asBook s.c).finds now k).isSome ((asExhibit s.c).announces now k) ∧ res ≠ .error .keyExpired

theorem touches_access (ha : op.Accesses k) (b : Book K V) :
    b.touches now op = if (b.finds now k).isSome then some k else none := by
  rcases ha with rfl | rfl | rfl <;> rfl

theorem overlooks_found (ha : op.Accesses k) {m : Exhibit K V} (h : (m.book.finds now k).isSome = true) :
    m.overlooks now op = false := by
  have : (m.book.finds now k).isNone = false := by
    cases hf : m.book.finds now k with
    | none => rw [hf] at h; cases h
    | some => rfl
  rcases ha with rfl | rfl | rfl <;> simp [Exhibit.overlooks, this]

theorem Rel.lastMatches (h : Rel s t) (k : K) : (asExhibit s.c).latest.any (keq k) = t.c.lastMatches k := by
  show (LRU.lastKey s.c).any _ = _
  rw [h.lastKey]
  unfold MCache.lastKey MCache.lastMatches
  cases t.c.lastEnt <;> rfl

theorem overlooks_other (ha : op.Accesses k) (h : Rel s t) (hm : t.c.lastMatches k = false ∨ op = .find k) :
    (asExhibit s.c).overlooks now op = false := by
  rcases ha with rfl | rfl | rfl
  · rcases hm with hm | hm
    · unfold Exhibit.overlooks; dsimp only; rw [h.lastMatches, hm]; rfl
    · cases hm
  · rfl
  · rcases hm with hm | hm
    · unfold Exhibit.overlooks; dsimp only; rw [h.lastMatches, hm]; rfl
    · cases hm

theorem overlooks_last (ha : op = .contains k ∨ op = .lookup k) (h : Rel s t) (hm : t.c.lastMatches k = true)
    (hf : (asBook s.c).finds now k = none) : (asExhibit s.c).overlooks now op = true := by
  have hf : (asExhibit s.c).book.finds now k = none := hf
  rcases ha with rfl | rfl <;> (unfold Exhibit.overlooks; dsimp only; rw [h.lastMatches, hm, hf]; rfl)

theorem Seen.hit {res : Except Err (Res K V)} (hr : Rel s t) (hr' : Rel s' t') (ht' : Ok t') (ha : op.Accesses k) {e : Ent K V}
    (hf : (asBook s.c).finds now k = some (e.key, e.val)) (hm : e ∈ t'.c.ents) (hl : t'.c.last = some e.id)
    (hk : keq e.key k = true) (h1 : t'.g.log = t.g.log ++ hitEvents t.c.obs k e.val)
    (h2 : t'.g.stats = hitStats t.c.obs k t.g) (h3 : res ≠ .error .keyExpired) : Seen now op k s res s' := by
  have hno : (asExhibit s.c).overlooks now op = false :=
    overlooks_found ha (by show ((asBook s.c).finds now k).isSome = true; rw [hf]; rfl)
  refine ⟨?_, fun h => absurd (hno.symm.trans h) (fun h => by cases h), fun _ => ⟨?_, h3⟩⟩
  · rw [touches_access ha, hf]
    exact hr.recalls hr' (.set ht' hm hl hk)
  · have hrec : HitRecorded s s' k e.val := hr.hit hr' h1 h2
    unfold Exhibit.announces
    rw [show (asExhibit s.c).book.finds now k = _ from hf, hf]
    exact hrec

theorem Seen.miss {res : Except Err (Res K V)} (hr : Rel s t) (hr' : Rel s' t') (ht : Ok t) (ha : op.Accesses k)
    (hf : (asBook s.c).finds now k = none) (hc : t'.c = t.c) (hno : (asExhibit s.c).overlooks now op = false)
    (h1 : t'.g.log = t.g.log ++ missEvents t.c.obs k)
    (h2 : t'.g.stats = missStats t.c.obs k t.g) (h3 : res ≠ .error .keyExpired) : Seen now op k s res s' := by
  refine ⟨?_, fun h => absurd (hno.symm.trans h) (fun h => by cases h), fun _ => ⟨?_, h3⟩⟩
  · rw [touches_access ha, hf]
    exact hr.recalls hr' (.same ht hc)
  · have hrec : MissRecorded s s' k := hr.miss hr' h1 h2
    unfold Exhibit.announces
    rw [show (asExhibit s.c).book.finds now k = _ from hf, hf]
    exact hrec

theorem Seen.unseen {res : Except Err (Res K V)} (hr : Rel s t) (hr' : Rel s' t') (ht : Ok t) (ha : op.Accesses k)
    (hf : (asBook s.c).finds now k = none) (hc : t'.c = t.c) (hno : (asExhibit s.c).overlooks now op = true)
    (h1 : t'.g.log = t.g.log) (h2 : t'.g.stats = t.g.stats) (h3 : res = .error .keyExpired ∨ res = .ok (.bool false)) :
    Seen now op k s res s' := by
  refine ⟨?_, fun _ => ⟨by rw [hr'.g, hr.g, h1], by rw [hr'.g, hr.g, h2], h3⟩,
    fun h => absurd (hno.symm.trans h) (fun h => by cases h)⟩
  rw [touches_access ha, hf]
  exact hr.recalls hr' (.same ht hc)

theorem access_seen {res : Except Err (Res K V)} (hC : Calm O) (h : Reachable O s) (ha : op.Accesses k)
    (hp : PacedCall O now op s) (hd : Performs O op s res s') : Seen now op k s res s' := by
  have hO := hC.noListFault
  have hcb := hC.noCallbackFault
  have stay : ∀ {t t' : St (MCache K V) K V}, Rel s' t' → Rel s t → t'.g.ticks ≥ t.g.ticks + t.c.kind.reads →
      SteadyBetween O now s s' → ∀ time, expiredAt O t.c.kind t.g time = t.c.kind.expired time now := by
    intro t t' hr' hr h1 h2 time
    refine expiredAt_now (fun h3 => h2 _ (Nat.le_of_eq (by rw [hr.g])) (by rw [hr'.g]; omega)) time
  have found : ∀ {t : St (MCache K V) K V} {e : Ent K V}, Rel s t → t.c.ents.find? (fun x => keq x.key k) = some e →
      t.c.kind.expired e.time now = false → (asBook s.c).finds now k = some (e.key, e.val) := by
    intro t e hr h1 h2
    rw [hr.finds, h1]
    simp only [h2]
    rfl
  have gone : ∀ {t : St (MCache K V) K V} {e : Ent K V}, Rel s t → t.c.ents.find? (fun x => keq x.key k) = some e →
      t.c.kind.expired e.time now = true → (asBook s.c).finds now k = none := by
    intro t e hr h1 h2
    rw [hr.finds, h1]
    simp only [h2]
    rfl
  have absent : ∀ {t : St (MCache K V) K V}, Rel s t → t.c.ents.find? (fun x => keq x.key k) = none →
      (asBook s.c).finds now k = none := by
    intro t hr h1
    rw [hr.finds, h1]
  have unmatched : ∀ {t : St (MCache K V) K V}, Ok t → t.c.ents.find? (fun x => keq x.key k) = none →
      t.c.lastMatches k = false := by
    intro t ht h1
    cases hm : t.c.lastMatches k with
    | false => rfl
    | true =>
      obtain ⟨e, -, h2⟩ := ht.lastMatches_find hm
      rw [h1] at h2
      cases h2
  cases res with
  | ok r =>
    have hd : Returns O op s r s' := hd
    have hst := hp.returns hd
    obtain ⟨t, t', hr, ht, hm, hr', -⟩ := h.returns hO hd
    have hkeep := step_keeps hO op t ht
    rw [hm] at hkeep
    have ht' : Ok t' := Step.ok hkeep
    have hne : (Except.ok r : Except Err (Res K V)) ≠ .error .keyExpired := fun h => by cases h
    rcases mid_access (O := O) ht ha with ⟨r', t'', h5, ho⟩ | ⟨e, t'', h5, -⟩
    · rw [hm] at h5
      injection h5 with h5 h7
      subst h5 h7
      cases ho with
      | last e r h1 h2 h3 h4 =>
        rw [stay hr' hr (Nat.le_refl _) hst] at h3
        obtain ⟨h6, h7⟩ := lastEnt_mem h1
        exact .hit hr hr' ht' ha (found hr h2 h3) h6 h7 (find_mem h2).2 rfl rfl hne
      | hit e r j h2 h3 h4 =>
        rw [stay hr' hr (Nat.le_add_right _ _) hst] at h3
        exact .hit hr hr' ht' ha (found hr h2 h3) (List.mem_append_right _ (List.mem_singleton.2 rfl)) rfl (find_mem h2).2
          rfl rfl hne
      | absent r h2 h4 =>
        exact .miss hr hr' ht ha (absent hr h2) rfl (overlooks_other ha hr (.inl (unmatched ht h2))) rfl rfl hne
      | expired e r h2 h3 h4 =>
        rw [stay hr' hr (Nat.le_refl _) hst] at h4
        exact .miss hr hr' ht ha (gone hr h2 h4) rfl (overlooks_other ha hr h3) rfl rfl hne
      | lastExpired e h1 h2 h3 h4 =>
        rw [stay hr' hr (Nat.le_refl _) hst] at h4
        have hf := gone hr h3 h4
        refine .unseen hr hr' ht ha hf rfl (overlooks_last (.inl h1) hr ?_ hf) rfl rfl (.inr rfl)
        exact lastMatches_iff.2 ⟨e, h2, by rw [keq_comm]; exact (find_mem h3).2⟩
    · rw [hm] at h5; cases h5
  | error e =>
    have hd : Throws O op s e s' := hd
    have hst := hp.throws hd
    obtain ⟨t, t', hr, ht, ho, hr'⟩ := h.access_throw hO ha hd
    cases ho with
    | hitUser x n cb _ _ _ h5 => rw [hcb] at h5; cases h5
    | missUser n cb _ _ h5 => rw [hcb] at h5; cases h5
    | expiredUser x n cb _ _ _ h5 => rw [hcb] at h5; cases h5
    | notFound h1 h2 =>
      exact .miss hr hr' ht ha (absent hr h2) rfl (overlooks_other ha hr (.inl (unmatched ht h2))) rfl rfl
        (fun h => by cases h)
    | expired x h1 h2 h3 h4 =>
      rw [stay hr' hr (Nat.le_refl _) hst] at h4
      exact .miss hr hr' ht ha (gone hr h3 h4) rfl (overlooks_other ha hr (.inl h2)) rfl rfl (fun h => by cases h)
    | lastExpired x h1 h2 h3 h4 =>
      rw [stay hr' hr (Nat.le_refl _) hst] at h4
      have hf := gone hr h3 h4
      refine .unseen hr hr' ht ha hf rfl (overlooks_last (.inr h1) hr ?_ hf) rfl rfl (.inl rfl)
      exact lastMatches_iff.2 ⟨x, h2, by rw [keq_comm]; exact (find_mem h3).2⟩
    | lateExpired x _ _ _ h6 h7 =>
      exfalso
      have e1 : t.g.ticks + t.c.kind.reads + t.c.kind.reads ≤ s'.g.ticks := by
        rw [hr'.g]
        exact Nat.le_refl _
      rw [expiredAt_now (now := now) (fun h3 => hst _ (Nat.le_of_eq (by rw [hr.g])) (by omega))] at h6
      rw [expiredAt_now (now := now) (fun h3 => hst _ (by show _ ≤ t.g.ticks + _; rw [hr.g]; omega)
        (by show t.g.ticks + _ < _; omega)), h6] at h7
      cases h7

/-- Which key is the latest after a call that is not an access. -/
theorem call_latest (hO : NoListFault O) (h : Reachable O s) (hop : op.byKey = true ∨ op.byKeyTimed = true)
    (ha : op.accessed = none) {r : Res K V} (hd : Returns O op s r s') :
    lastKey s'.c = (((asBook s.c).touches now op).or (lastKey s.c)).bind (asBook s'.c).storedKey := by
  obtain ⟨t, t', hr, ht, hm, hr', -⟩ := h.returns hO hd
  have h1 := hr.recalls hr' (step_recalls hO hop ha ht hm)
  have h2 : (asBook s.c).touches now op = op.storesLast := by
    cases op <;> first | rfl | cases ha
  rw [h2]
  exact h1

end LRU
