import Verif.Spec.TimedMachine
import Verif.Proofs.Machine
import Verif.Proofs.Overloads
import Verif.Proofs.HashFaultCalls
import Verif.Props.Timed
/-!
# Answers of timed caches: lemmas for `Props.TimedMachine`
-/

set_option linter.unusedSectionVars false
set_option autoImplicit false

namespace LRU

variable {K V : Type} [KeyEqual K] [DecidableEq K] [DecidableEq V] {O : Oracle K V} {s s' : St (Cache K V) K V}
  {op : Op K V} {r : Res K V} {k : K} {v : V} {ttl : Int} {res : Nat} {now : Int}

/-- The clock shows `now` whenever it is read between two states. -/
def SteadyBetween (O : Oracle K V) (now : Int) (s s' : St (Cache K V) K V) : Prop :=
  ∀ n, s.g.ticks ≤ n → n < s'.g.ticks → O.clock n = now

/-- The call answers like the textbook at the time `now`, and leaves the textbook's contents behind. -/
def AnswersAt (O : Oracle K V) (T : Terms) (now : Int) (op : Op K V) (s : St (Cache K V) K V) : Prop :=
  (Impl.step O op s).timedAns = some ((asTimed s.c).reply T now op).1 ∧
    match Impl.step O op s with
    | .ok _ s' | .throw _ s' => asTimed s'.c = ((asTimed s.c).reply T now op).2
    | .terminate | .ub | .diverge => False

theorem AnswersAt.returns {T : Terms} (h : Returns O op s r s') (h1 : r.ans s'.c = some ((asTimed s.c).reply T now op).1)
    (h2 : asTimed s'.c = ((asTimed s.c).reply T now op).2) : AnswersAt O T now op s := by
  unfold AnswersAt
  rw [show Impl.step O op s = _ from h]
  exact ⟨h1, h2⟩

theorem AnswersAt.throws {T : Terms} {e : Err} (h : Throws O op s e s') (he : e = .keyNotFound ∨ e = .keyExpired)
    (h1 : Ans.notFound = ((asTimed s.c).reply T now op).1)
    (h2 : asTimed s'.c = ((asTimed s.c).reply T now op).2) : AnswersAt O T now op s := by
  unfold AnswersAt
  rw [show Impl.step O op s = _ from h]
  rcases he with rfl | rfl <;> exact ⟨congrArg some h1, h2⟩

def Ent.timed (e : Ent K V) : K × V × Int := (e.key, e.val, e.time)

def MCache.tlru (a : MCache K V) : TLru K V := ⟨a.cap, a.ents.map Ent.timed⟩

theorem Rel.tlru {t : St (MCache K V) K V} (hr : Rel s t) : asTimed s.c = t.c.tlru := by
  unfold asTimed MCache.tlru
  rw [hr.rep.cap, hr.elements, List.map_map]
  rfl

theorem tlru_item (a : MCache K V) (k : K) :
    Lru.item a.tlru k = (a.ents.find? (fun x => keq x.key k)).map Ent.timed := by
  unfold Lru.item MCache.tlru
  rw [List.find?_map]
  rfl

theorem tlru_others (a : MCache K V) (k : K) :
    Lru.others a.tlru k = (a.ents.filter (fun x => !keq x.key k)).map Ent.timed := by
  unfold Lru.others MCache.tlru
  rw [List.filter_map]
  rfl

theorem asTimed_item (c : Cache K V) (k : K) :
    Lru.item (asTimed c) k = (entryFor c k).map (fun n => (n.key, n.info.value, n.info.time)) := by
  unfold Lru.item asTimed entryFor
  rw [List.find?_map]
  rfl

theorem asTimed_others (c : Cache K V) (k : K) :
    Lru.others (asTimed c) k = (others c k).map (fun n => (n.key, n.info.value, n.info.time)) := by
  unfold Lru.others asTimed others
  rw [List.filter_map]
  rfl

theorem asTimed_eq {c c' : Cache K V} (h : elements c' = elements c) (hc : c'.capacity = c.capacity) :
    asTimed c' = asTimed c := by
  unfold asTimed; rw [h, hc]

theorem asTimed_length (c : Cache K V) : (asTimed c).items.length = count c := by simp [asTimed, count]

theorem TLru.store_new {l : TLru K V} {n : Nat} (hc : l.capacity = some (n + 1)) (hx : l.item k = none) :
    l.store now k v = { l with items := (if l.items.length ≤ n then l.items else l.items.tail) ++ [(k, v, now)] } := by
  unfold TLru.store
  rw [Lru.put_new hc hx]
  simp [hx]

theorem TLru.store_old {l : TLru K V} {n : Nat} {x : K × V × Int} (hc : l.capacity = some (n + 1)) (hx : l.item k = some x) :
    l.store now k v = { l with items := l.others k ++ [(x.1, v, x.2.2)] } := by
  unfold TLru.store
  rw [Lru.put_old hc hx]
  simp [hx]

/-! ### Insertions -/

theorem insert_answers_at (hC : Calm O) (h : Reachable O s) (hk : s.c.kind = .timed ttl res) (hi : op.Inserts k v)
    (hd : Returns O op s r s') (hp : SteadyBetween O now s s') :
    (∃ p, r = .inserted (decide ((asTimed s.c).limit ≠ 0 ∧ (asTimed s.c).item k = none)) p) ∧
      r.ans s'.c = some ((asTimed s.c).storing k v) ∧ asTimed s'.c = (asTimed s.c).store now k v := by
  have hO := hC.noListFault
  have h' := h.after hO hd
  obtain ⟨t, t', b, p, hr, ht, ho, hr', rfl⟩ := h.inserts hO hi hd
  have hk' : t.c.kind = .timed ttl res := by rw [← hr.rep.kind, hk]
  have hit := tlru_item t.c k
  have hlim : Lru.limit t.c.tlru = t.c.cap.getD 0 := rfl
  have hat : ∀ e ∈ t'.c.ents, itemAt s'.c (some e.id) = some (e.key, e.val) := fun e he =>
    itemAt_mem hO h' (x := e.node) (by rw [hr'.elements]; exact List.mem_map_of_mem he)
  have hnow : s'.g.ticks = s.g.ticks + t.c.kind.reads → t.c.kind.stamp (O.clock t.g.ticks) = now := by
    intro h1
    rw [hk'] at h1 ⊢
    rw [← hr.g]
    exact hp _ (Nat.le_refl _) (by rw [h1]; exact Nat.lt_succ_self _)
  rw [hr.tlru, hr'.tlru]
  cases ho with
  | zero hc =>
    rw [hc] at hlim
    refine ⟨⟨none, ?_⟩, ?_, ?_⟩
    · rw [hlim]; rfl
    · unfold TLru.storing
      rw [if_pos (show _ = 0 from hlim)]
      rfl
    · exact (Lru.put_zero (l := t.c.tlru) hc).symm
  | full g' e r n hf hc he hn _ _ htk =>
    rw [hc] at hlim; rw [hf] at hit
    refine ⟨⟨some t.g.next, ?_⟩, ?_, ?_⟩
    · simp [hlim, hit]
    · unfold TLru.storing
      rw [if_neg (by rw [hlim]; simp), hit]
      have := hat ⟨t.g.next, e.slot, k, v, t.c.kind.stamp (O.clock t.g.ticks), some e.slot⟩ (by simp)
      exact congrArg (fun x => some (Ans.stored true x)) this
    · rw [TLru.store_new (l := t.c.tlru) hc (by rw [hit]; rfl), ← hnow (by rw [hr.g, hr'.g]; exact htk.2)]
      unfold MCache.tlru
      simp only [he]
      rw [if_neg (by simp [hn])]
      simp [Ent.timed]
  | room g' n q hf hc hn _ _ _ htk =>
    rw [hc] at hlim; rw [hf] at hit
    obtain ⟨n, rfl⟩ : ∃ m, n = m + 1 := ⟨n - 1, by omega⟩
    refine ⟨⟨some t.g.next, ?_⟩, ?_, ?_⟩
    · simp [hlim, hit]
    · unfold TLru.storing
      rw [if_neg (by rw [hlim]; simp), hit]
      have := hat ⟨t.g.next, q, k, v, t.c.kind.stamp (O.clock t.g.ticks), some q⟩ (by simp)
      exact congrArg (fun x => some (Ans.stored true x)) this
    · rw [TLru.store_new (l := t.c.tlru) hc (by rw [hit]; rfl), ← hnow (by rw [hr.g, hr'.g]; exact htk.2.2)]
      unfold MCache.tlru
      simp only
      rw [if_pos (by simp; omega)]
      simp [Ent.timed]
  | update g' e n hf hc =>
    rw [hc] at hlim; rw [hf] at hit
    refine ⟨⟨some e.id, ?_⟩, ?_, ?_⟩
    · simp [hit]
    · unfold TLru.storing
      rw [if_neg (by rw [hlim]; simp), hit]
      have := hat { e with val := v } (by simp)
      exact congrArg (fun x => some (Ans.stored false x)) this
    · rw [TLru.store_old (l := t.c.tlru) hc hit, tlru_others, ← ht.without_eq hf]
      unfold MCache.tlru
      simp [Ent.timed]

theorem Returns.ticks_le_of_inserts (hO : NoListFault O) (h : Reachable O s) (hi : op.Inserts k v)
    (hd : Returns O op s r s') : s.g.ticks ≤ s'.g.ticks := by
  obtain ⟨t, t', b, p, hr, ht, ho, hr', rfl⟩ := h.inserts hO hi hd
  rw [hr.g, hr'.g]
  cases ho with
  | zero => exact Nat.le_refl _
  | full _ _ _ _ _ _ _ _ q => exact q.ticks
  | room _ _ _ _ _ _ q => exact q.ticks
  | update _ _ _ _ _ q => exact q.ticks

theorem OneByOne.ticks_le {ins : K → V → Op K V} (hins : ∀ k v, (ins k v).Inserts k v) (hO : NoListFault O) {l : List (K × V)}
    {res : Except Err Nat} (h1 : OneByOne O ins l s res s') (h : Reachable O s) (n : Nat) (hn : res = .ok n) :
    s.g.ticks ≤ s'.g.ticks := by
  induction h1 generalizing n with
  | nil s => exact Nat.le_refl _
  | new hd _ ih => exact Nat.le_trans (hd.ticks_le_of_inserts hO h (hins _ _)) (ih (h.after hO hd) _ rfl)
  | old hd _ ih => exact Nat.le_trans (hd.ticks_le_of_inserts hO h (hins _ _)) (ih (h.after hO hd) _ rfl)
  | later => cases hn
  | now => cases hn

theorem OneByOne.answers_at {ins : K → V → Op K V} (hins : ∀ k v, (ins k v).Inserts k v) (hC : Calm O) {l : List (K × V)}
    {res' : Except Err Nat} (h1 : OneByOne O ins l s res' s') (h : Reachable O s) (hk : s.c.kind = .timed ttl res)
    (hp : SteadyBetween O now s s') (n : Nat) (hn : res' = .ok n) :
    n = (TLru.storeAll (asTimed s.c) now l).1 ∧ asTimed s'.c = (TLru.storeAll (asTimed s.c) now l).2 := by
  have hO := hC.noListFault
  induction h1 generalizing n with
  | nil s => cases hn; exact ⟨rfl, rfl⟩
  | new hd hrest ih =>
    have t1 := hd.ticks_le_of_inserts hO h (hins _ _)
    have t2 := hrest.ticks_le hins hO (h.after hO hd) _ rfl
    obtain ⟨⟨p, h2⟩, _, h3⟩ := insert_answers_at hC h hk (hins _ _) hd (fun n a b => hp n a (by omega))
    obtain ⟨h4, h5⟩ := ih (h.after hO hd) ((performs_kind (res := .ok _) hd).trans hk) (fun n a b => hp n (by omega) b) _ rfl
    cases hn
    injection h2 with h2
    have h2 := of_decide_eq_true h2.symm
    rw [h3] at h4 h5
    refine ⟨?_, h5⟩
    unfold TLru.storeAll
    simp only [if_pos h2, ← h4]
  | old hd hrest ih =>
    have t1 := hd.ticks_le_of_inserts hO h (hins _ _)
    have t2 := hrest.ticks_le hins hO (h.after hO hd) _ rfl
    obtain ⟨⟨p, h2⟩, _, h3⟩ := insert_answers_at hC h hk (hins _ _) hd (fun n a b => hp n a (by omega))
    obtain ⟨h4, h5⟩ := ih (h.after hO hd) ((performs_kind (res := .ok _) hd).trans hk) (fun n a b => hp n (by omega) b) _ rfl
    cases hn
    injection h2 with h2
    have h2 := of_decide_eq_false h2.symm
    rw [h3] at h4 h5
    refine ⟨?_, h5⟩
    unfold TLru.storeAll
    simp only [if_neg h2, ← h4, Nat.add_zero]
  | later => cases hn
  | now => cases hn

/-- What a call did is at the time `now`, if it came back. -/
def PacedCall (O : Oracle K V) (now : Int) (op : Op K V) (s : St (Cache K V) K V) : Prop :=
  match Impl.step O op s with
  | .ok _ s' | .throw _ s' => SteadyBetween O now s s'
  | _ => True

theorem PacedCall.returns (h : PacedCall O now op s) (hd : Returns O op s r s') : SteadyBetween O now s s' := by
  unfold PacedCall at h
  rw [show Impl.step O op s = _ from hd] at h
  exact h

theorem PacedCall.throws {e : Err} (h : PacedCall O now op s) (hd : Throws O op s e s') : SteadyBetween O now s s' := by
  unfold PacedCall at h
  rw [show Impl.step O op s = _ from hd] at h
  exact h

theorem range_answers_at {T : Terms} (hC : Calm O) (h : Reachable O s) (hk : s.c.kind = .timed ttl res)
    (hc : s.c.capacity ≠ none) (l : List (K × V)) :
    (PacedCall O now (.insertRange l) s → AnswersAt O T now (.insertRange l) s) ∧
    (PacedCall O now (.insertRangeMove l) s → AnswersAt O T now (.insertRangeMove l) s) := by
  have hO := hC.noListFault
  obtain ⟨t, hr, ht⟩ := h.rel hO
  rw [hr.rep.cap] at hc
  constructor
  · intro hp
    obtain ⟨n, t', h1⟩ := insertRange_calm hC l ht hc
    obtain ⟨s', h2, _⟩ := hr.back_ok (op := .insertRange l) hO (bind_ok h1)
    have h3 := (C30_range_insertion (e := .badAlloc)).1.1 h2
    obtain ⟨h4, h5⟩ := h3.answers_at (fun _ _ => .inl rfl) hC h hk (hp.returns h2) n rfl
    exact .returns h2 (by rw [h4]; rfl) h5
  · intro hp
    obtain ⟨n, t', h1⟩ := insertRangeMove_calm hC l ht hc
    obtain ⟨s', h2, _⟩ := hr.back_ok (op := .insertRangeMove l) hO (bind_ok h1)
    have h3 := (C30_moving_range_insertion (e := .badAlloc)).1.1 h2
    obtain ⟨h4, h5⟩ := h3.answers_at (fun _ _ => .inr rfl) hC h hk (hp.returns h2) n rfl
    exact .returns h2 (by rw [h4]; rfl) h5

/-! ### Accesses -/

theorem TLru.fresh_none {l : TLru K V} {T : Terms} (h : l.item k = none) : l.fresh T now k = none := by
  unfold TLru.fresh; rw [h]

theorem TLru.fresh_expired {l : TLru K V} {T : Terms} {x : K × V × Int} (h : l.item k = some x) (he : T.expired now x.2.2 = true) :
    l.fresh T now k = none := by
  obtain ⟨a, b, c⟩ := x
  unfold TLru.fresh
  simp only [h]
  exact if_pos he

theorem TLru.fresh_some {l : TLru K V} {T : Terms} {x : K × V × Int} (h : l.item k = some x) (he : T.expired now x.2.2 = false) :
    l.fresh T now k = some (x.1, x.2.1) := by
  obtain ⟨a, b, c⟩ := x
  unfold TLru.fresh
  simp only [h]
  exact if_neg (by rw [show T.expired now c = false from he]; simp)

theorem TLru.touch_none {l : TLru K V} {T : Terms} (h : l.fresh T now k = none) : l.touch T now k = l := by
  unfold TLru.touch; rw [h]; rfl

theorem TLru.touch_some {l : TLru K V} {T : Terms} {x : K × V} (h : l.fresh T now k = some x) :
    l.touch T now k = l.act (.use k) := by
  unfold TLru.touch; rw [h]; rfl

/-- Nothing found: the answer, and the contents stay. -/
theorem AnswersAt.miss {T : Terms} (hd : Returns O op s r s') (ha : op.Accesses k) (hm : Miss r)
    (hf : (asTimed s.c).fresh T now k = none) (he : asTimed s'.c = asTimed s.c) : AnswersAt O T now op s := by
  have ht := TLru.touch_none hf
  rcases ha with rfl | rfl | rfl
  · rcases hm with rfl | rfl
    · refine .returns hd ?_ (he.trans ht.symm)
      show _ = some (Ans.bool (TLru.fresh _ _ _ _).isSome)
      rw [hf]; rfl
    · obtain ⟨a, _, h3⟩ := ret_ok_inv hd; cases h3
  · rcases hm with rfl | rfl
    · obtain ⟨a, _, h3⟩ := ret_ok_inv hd; cases h3
    · refine .returns hd ?_ (he.trans ht.symm)
      show _ = some (Ans.item (TLru.fresh _ _ _ _))
      rw [hf]; rfl
  · rcases hm with rfl | rfl
    · obtain ⟨a, _, h3⟩ := ret_ok_inv hd; cases h3
    · obtain ⟨a, _, h3⟩ := ret_ok_inv hd; cases h3

theorem AnswersAt.hit {T : Terms} (hC : Calm O) (h : Reachable O s) (hd : Returns O op s r s') (ha : op.Accesses k) {x : MapNode K V}
    (hx : entryFor s.c k = some x) (hh : Hit op r x) (hf : T.expired now x.info.time = false) : AnswersAt O T now op s := by
  have hO := hC.noListFault
  have hm : ¬ Miss r := by
    rcases ha with rfl | rfl | rfl <;> (rw [show r = _ from hh]; rintro (h | h) <;> cases h)
  obtain ⟨y, hy, _, hel, hcap, _⟩ := C07_hit_moves_entry_to_most_recent hO hC.noAssignFault h ha hd hm
  rw [hx] at hy; cases hy
  have hit : Lru.item (asTimed s.c) k = some (x.key, x.info.value, x.info.time) := by rw [asTimed_item, hx]; rfl
  have hfr := TLru.fresh_some hit hf
  have ht := TLru.touch_some hfr
  have hc : asTimed s'.c = (asTimed s.c).touch T now k := by
    rw [ht, Lru.use_old hit, asTimed_others]
    unfold asTimed
    rw [hel, hcap]
    simp
  rcases ha with rfl | rfl | rfl
  · rw [show r = _ from hh] at hd
    refine .returns hd ?_ hc
    show _ = some (Ans.bool (TLru.fresh _ _ _ _).isSome)
    rw [hfr]; rfl
  · rw [show r = _ from hh] at hd
    refine .returns hd ?_ hc
    show some (Ans.item (itemAt s'.c (some x.addr))) = some (Ans.item (TLru.fresh _ _ _ _))
    rw [hfr, itemAt_mem hO (h.after hO hd) (by rw [hel]; simp)]
    rfl
  · rw [show r = _ from hh] at hd
    refine .returns hd ?_ hc
    show _ = some (match (asTimed s.c).fresh T now k with | some x => Ans.value x.2 | none => Ans.notFound)
    rw [hfr]; rfl

theorem AnswersAt.fails {T : Terms} {e : Err} (hd : Throws O (.lookup k) s e s') (he : e = .keyNotFound ∨ e = .keyExpired)
    (hf : (asTimed s.c).fresh T now k = none) (hs : asTimed s'.c = asTimed s.c) : AnswersAt O T now (.lookup k) s := by
  refine .throws hd he ?_ (hs.trans (TLru.touch_none hf).symm)
  show _ = (match (asTimed s.c).fresh T now k with | some x => Ans.value x.2 | none => Ans.notFound)
  rw [hf]

theorem access_answers_at (hC : Calm O) (h : Reachable O s) (hk : s.c.kind = .timed ttl res) (ha : op.Accesses k)
    (hp : PacedCall O now op s) : AnswersAt O ⟨ttl, res⟩ now op s := by
  have hO := hC.noListFault
  have hcb := hC.noCallbackFault
  obtain ⟨t, hr, ht⟩ := h.rel hO
  have hk' : t.c.kind = .timed ttl res := by rw [← hr.rep.kind, hk]
  have hit := tlru_item t.c k
  rw [← hr.tlru] at hit
  have hexp : ∀ g time, O.clock g.ticks = now → expiredAt O t.c.kind g time = Terms.expired ⟨ttl, res⟩ now time := by
    intro g time hg
    rw [hk']
    show decide _ = decide _
    rw [hg]
  have htick : ∀ g : Shared K V, (tickG t.c.kind g).ticks = g.ticks + 1 := fun g => by rw [hk']; rfl
  rcases mid_access (O := O) ht ha with ⟨r, t', h1, h2⟩ | ⟨e, t', h1, h2⟩
  · obtain ⟨s1, h3, h4⟩ := hr.back_ok hO h1
    have hst := hp.returns h3
    have hnow : t'.g.ticks ≥ t.g.ticks + 1 → O.clock t.g.ticks = now := fun h5 =>
      hst _ (Nat.le_of_eq (by rw [hr.g])) (by rw [h4.g]; omega)
    cases h2 with
    | last x r _ h5 h6 h7 =>
      rw [hexp t.g _ (hnow (Nat.le_of_eq (htick t.g).symm))] at h6
      exact .hit hC h h3 ha (x := x.node) (by rw [hr.entryFor, h5]; rfl) h7 h6
    | hit x r j h5 h6 h7 _ _ =>
      rw [hexp t.g _ (hnow (by show (tickG _ _).ticks + j ≥ _; rw [htick]; omega))] at h6
      exact .hit hC h h3 ha (x := x.node) (by rw [hr.entryFor, h5]; rfl) h7 h6
    | absent r h5 h6 =>
      rw [h5] at hit
      exact .miss h3 ha h6 (TLru.fresh_none hit) (by rw [hr.tlru, h4.tlru])
    | expired x r h5 _ h6 h7 =>
      rw [h5] at hit
      rw [hexp t.g _ (hnow (Nat.le_of_eq (htick t.g).symm))] at h6
      exact .miss h3 ha h7 (TLru.fresh_expired hit h6) (by rw [hr.tlru, h4.tlru])
    | lastExpired x _ _ h5 h6 =>
      rw [h5] at hit
      rw [hexp t.g _ (hnow (Nat.le_of_eq (htick t.g).symm))] at h6
      exact .miss h3 ha (.inl rfl) (TLru.fresh_expired hit h6) (by rw [hr.tlru, h4.tlru])
  · obtain ⟨s1, h3, h4⟩ := hr.back_throw hO h1
    have hst := hp.throws h3
    have hnow : t'.g.ticks ≥ t.g.ticks + 1 → O.clock t.g.ticks = now := fun h5 =>
      hst _ (Nat.le_of_eq (by rw [hr.g])) (by rw [h4.g]; omega)
    cases h2 with
    | hitUser x n cb _ _ _ h5 => rw [hcb] at h5; cases h5
    | missUser n cb _ _ h5 => rw [hcb] at h5; cases h5
    | expiredUser x n cb _ _ _ h5 => rw [hcb] at h5; cases h5
    | notFound h5 h6 =>
      subst h5
      rw [h6] at hit
      exact .fails h3 (.inl rfl) (TLru.fresh_none hit) (by rw [hr.tlru, h4.tlru])
    | expired x h5 _ h6 h7 =>
      subst h5
      rw [h6] at hit
      rw [hexp t.g _ (hnow (Nat.le_of_eq (htick t.g).symm))] at h7
      exact .fails h3 (.inl rfl) (TLru.fresh_expired hit h7) (by rw [hr.tlru, h4.tlru])
    | lastExpired x h5 _ h6 h7 =>
      subst h5
      rw [h6] at hit
      rw [hexp t.g _ (hnow (Nat.le_of_eq (htick t.g).symm))] at h7
      exact .fails h3 (.inr rfl) (TLru.fresh_expired hit h7) (by rw [hr.tlru, h4.tlru])
    | lateExpired x _ _ _ h6 h7 =>
      have e1 : t.g.ticks + 1 + 1 ≤ s1.g.ticks := by
        rw [h4.g]
        show _ ≤ (tickG _ (hitG _ _ _ (tickG _ _))).ticks
        rw [htick]
        show _ ≤ (tickG _ _).ticks + 1
        rw [htick]
        exact Nat.le_refl _
      rw [hexp t.g _ (hst _ (Nat.le_of_eq (by rw [hr.g])) (by omega))] at h6
      rw [hexp (tickG t.c.kind t.g) _ (hst _ (by rw [htick, hr.g]; omega) (by rw [htick]; omega)), h6] at h7
      cases h7

/-! ### All calls -/

theorem assign_answers_at {T : Terms} (hC : Calm O) (h : Reachable O s) (hk : s.c.kind = .timed ttl res)
    (hc : s.c.capacity ≠ none) (l : List (K × V)) :
    (PacedCall O now (.assignRange l) s → AnswersAt O T now (.assignRange l) s) ∧
    (PacedCall O now (.assignRangeMove l) s → AnswersAt O T now (.assignRangeMove l) s) := by
  have hO := hC.noListFault
  obtain ⟨t, hr, ht⟩ := h.rel hO
  obtain ⟨m, hm⟩ := Option.ne_none_iff_exists'.1 hc
  have key : ∀ {op : Op K V} {s' : St (Cache K V) K V} {ins : K → V → Op K V}, (∀ k v, (ins k v).Inserts k v) →
      PacedCall O now op s → Returns O op s .unit s' →
      (∀ s1, Impl.clearAndIncreaseCapacity l.length s = .ok () s1 → ∃ n, OneByOne O ins l s1 (.ok n) s') →
      asTimed s'.c = (TLru.storeAll (((asTimed s.c).act .empty).act (.raise l.length)) now l).2 := by
    intro op s' ins hins hp hd hone
    have e1 := clearAndIncreaseCapacity_impl s l.length
    rw [hm] at e1
    obtain ⟨n, h1⟩ := hone _ e1
    have h2 := h1.answers_at hins hC (clearAndIncrease_calls hO h e1).1 hk (hp.returns hd) n rfl
    rw [h2.2]
    congr 2
    simp [asTimed, elements, Lru.act, hm]
  constructor
  · intro hp
    obtain ⟨s', hd⟩ := assign_calm hC l hr ht (op := .assignRange l) (.inl rfl) (by rw [← hr.rep.cap]; exact hc)
    refine .returns hd rfl (key (ins := .insert) (fun _ _ => .inl rfl) hp hd fun s1 h1 => ?_)
    obtain ⟨_, h2, _⟩ := ret_ok_inv (show Impl.ret (Impl.assignRange O l) (fun _ => Res.unit) s = _ from hd)
    unfold Impl.assignRange at h2
    obtain ⟨_, s2, h3, h4⟩ := bind_ok_inv h2
    rw [h1] at h3; cases h3
    obtain ⟨n, s3, h5, h6⟩ := bind_ok_inv h4
    cases h6
    exact ⟨n, (C30_range_insertion (e := .badAlloc)).1.1 (ret_ok_iff.2 ⟨n, h5, rfl⟩)⟩
  · intro hp
    obtain ⟨s', hd⟩ := assign_calm hC l hr ht (op := .assignRangeMove l) (.inr rfl) (by rw [← hr.rep.cap]; exact hc)
    refine .returns hd rfl (key (ins := .emplace) (fun _ _ => .inr rfl) hp hd fun s1 h1 => ?_)
    obtain ⟨_, h2, _⟩ := ret_ok_inv (show Impl.ret (Impl.assignRangeMove O l) (fun _ => Res.unit) s = _ from hd)
    unfold Impl.assignRangeMove at h2
    obtain ⟨_, s2, h3, h4⟩ := bind_ok_inv h2
    rw [h1] at h3; cases h3
    obtain ⟨n, s3, h5, h6⟩ := bind_ok_inv h4
    cases h6
    exact ⟨n, (C30_moving_range_insertion (e := .badAlloc)).1.1 (ret_ok_iff.2 ⟨n, h5, rfl⟩)⟩

theorem expired_iff {T : Terms} {x : MapNode K V} {n : Nat} (h : O.clock n = now) :
    T.expired now x.info.time = true ↔ elapsed O T.res x n > T.ttl := by
  unfold Terms.expired elapsed
  rw [decide_eq_true_iff, h]

theorem takeWhile_of_prefix {α : Type} {p : α → Bool} {l : List α} {m : Nat} (h1 : ∀ i x, i < m → l[i]? = some x → p x = true)
    (h2 : ∀ x, l[m]? = some x → p x = false) (hm : m ≤ l.length) :
    (l.takeWhile p).length = m ∧ l.dropWhile p = l.drop m := by
  induction l generalizing m with
  | nil => simp at hm; subst hm; exact ⟨rfl, rfl⟩
  | cons a l ih =>
    cases m with
    | zero => simp [h2 a rfl]
    | succ m =>
      obtain ⟨e1, e2⟩ := ih (m := m) (fun i x hi hx => h1 (i + 1) x (by omega) hx) (fun x hx => h2 x hx) (by simpa using hm)
      simp [h1 0 a (by omega) rfl, e1, e2]

theorem call_answers_at (hC : Calm O) (h : Reachable O s) (hk : s.c.kind = .timed ttl res) (hc : s.c.capacity ≠ none)
    (hop : op.byKeyTimed = true) (hp : PacedCall O now op s) : AnswersAt O ⟨ttl, res⟩ now op s := by
  have hO := hC.noListFault
  obtain ⟨n, hn⟩ := Option.ne_none_iff_exists'.1 hc
  have hcount := asTimed_length s.c
  have hlim : Lru.limit (asTimed s.c) = n := by simp [asTimed, Lru.limit, hn]
  obtain ⟨free, hfree, hsize, hcap, hspace, hempty, hfull⟩ := C15_size_arithmetic hO h hn
  obtain ⟨t, hr, ht⟩ := h.rel hO
  have hk' : t.c.kind = .timed ttl res := by rw [← hr.rep.kind, hk]
  have hexp : ∀ g time, O.clock g.ticks = now → expiredAt O t.c.kind g time = Terms.expired ⟨ttl, res⟩ now time := by
    intro g time hg
    rw [hk']
    show decide _ = decide _
    rw [hg]
  cases op <;> first | cases hop | skip
  case contains k => exact access_answers_at hC h hk (.inl rfl) hp
  case find k => exact access_answers_at hC h hk (.inr (.inl rfl)) hp
  case lookup k => exact access_answers_at hC h hk (.inr (.inr rfl)) hp
  case insert k v =>
    obtain ⟨r, s', hd⟩ := h.completes_calmly hC (op := .insert k v) (.inl rfl) hc
    obtain ⟨_, h2, h3⟩ := insert_answers_at hC h hk (.inl rfl) hd (hp.returns hd)
    exact .returns hd h2 h3
  case emplace k v =>
    obtain ⟨r, s', hd⟩ := h.completes_calmly hC (op := .emplace k v) (.inr rfl) hc
    obtain ⟨_, h2, h3⟩ := insert_answers_at hC h hk (.inr rfl) hd (hp.returns hd)
    exact .returns hd h2 h3
  case insertRange l => exact (range_answers_at hC h hk hc l).1 hp
  case insertRangeMove l => exact (range_answers_at hC h hk hc l).2 hp
  case assignRange l => exact (assign_answers_at hC h hk hc l).1 hp
  case assignRangeMove l => exact (assign_answers_at hC h hk hc l).2 hp
  case erase k =>
    obtain ⟨b, s', hd, h1, h2, _, h3⟩ := C09_erase_key hO h k
    refine .returns hd ?_ ?_
    · show some (Ans.bool b) = some (Ans.bool (Lru.item (asTimed s.c) k).isSome)
      rw [asTimed_item]
      congr 2
      rw [Bool.eq_iff_iff, h1]
      unfold Stored entryFor
      rw [Option.isSome_map, List.find?_isSome]
    · show _ = ({ asTimed s.c with items := Lru.others (asTimed s.c) k } : TLru K V)
      rw [asTimed_others]
      unfold asTimed
      rw [h2, h3.capacity]
  case clear =>
    refine .returns (C10_clear_makes_fresh hn) rfl ?_
    simp [asTimed, elements, TLru.reply, Lru.act, Impl.emptyCache, hn]
  case shrink m =>
    obtain ⟨s', hd, h1, _, h2⟩ := C11_shrink_keeps_most_recent hO h m
    refine .returns hd rfl ?_
    show _ = ({ asTimed s.c with items := (asTimed s.c).items.drop ((asTimed s.c).items.length - m) } : TLru K V)
    rw [hcount]
    unfold asTimed
    rw [h1, h2.capacity, List.map_drop]
  case setCapacity m =>
    obtain ⟨s', hd, h1, h2, _⟩ := C12_capacity_keeps_most_recent hO h m
    refine .returns hd rfl ?_
    show _ = (⟨some m, (asTimed s.c).items.drop ((asTimed s.c).items.length - m)⟩ : TLru K V)
    rw [hcount]
    unfold asTimed
    rw [h1, h2, List.map_drop]
  case size => exact .returns hsize (by rw [← hcount]; rfl) rfl
  case capacity => exact .returns hcap (by rw [← hlim]; rfl) rfl
  case spaceLeft =>
    refine .returns hspace ?_ rfl
    show some (Ans.nat free) = some (Ans.nat (Lru.limit (asTimed s.c) - (asTimed s.c).items.length))
    rw [hlim, hcount]
    congr 2
    omega
  case isEmpty =>
    refine .returns hempty ?_ rfl
    show some (Ans.bool _) = some (Ans.bool (asTimed s.c).items.isEmpty)
    congr 2
    rw [Bool.eq_iff_iff, List.isEmpty_iff, decide_eq_true_iff]
    simp [asTimed]
  case isFull =>
    refine .returns hfull ?_ rfl
    show some (Ans.bool _) = some (Ans.bool ((asTimed s.c).items.length == Lru.limit (asTimed s.c)))
    congr 2
    rw [Bool.eq_iff_iff, decide_eq_true_iff, beq_iff_eq, hlim, hcount]
    omega
  case hasExpired k =>
    have he := hasExpired_eq (O := O) (t := t) k
    have hit := tlru_item t.c k
    rw [← hr.tlru] at hit
    cases hf : t.c.ents.find? (fun x => keq x.key k) with
    | none =>
      rw [hf] at he hit
      obtain ⟨s', hd, hr'⟩ := hr.back_ok (op := .hasExpired k) hO (bind_ok he)
      refine .returns hd ?_ (by rw [hr'.tlru, hr.tlru]; rfl)
      show some (Ans.bool false) = some (Ans.bool (match Lru.item (asTimed s.c) k with | some x => _ | none => false))
      rw [hit]; rfl
    | some e =>
      rw [hf] at he hit
      obtain ⟨s', hd, hr'⟩ := hr.back_ok (op := .hasExpired k) hO (bind_ok he)
      refine .returns hd ?_ (by rw [hr'.tlru, hr.tlru]; rfl)
      rw [hexp t.g _ (hp.returns hd _ (Nat.le_of_eq (by rw [hr.g])) (by rw [hr'.g, hk']; exact Nat.lt_succ_self _))]
      show some (Ans.bool _) = some (Ans.bool (match Lru.item (asTimed s.c) k with | some x => _ | none => false))
      rw [hit]; rfl
  case allExpired =>
    have he := allExpired_eq (O := O) ht
    have hit : (asTimed s.c).items.getLast? = (t.c.ents.getLast?).map Ent.timed := by
      rw [hr.tlru]; exact List.getLast?_map
    cases hf : t.c.ents.getLast? with
    | none =>
      rw [hf] at he hit
      obtain ⟨s', hd, hr'⟩ := hr.back_ok (op := .allExpired) hO (bind_ok he)
      refine .returns hd ?_ (by rw [hr'.tlru, hr.tlru]; rfl)
      show some (Ans.bool true) = some (Ans.bool (match (asTimed s.c).items.getLast? with | some x => _ | none => true))
      rw [hit]; rfl
    | some e =>
      rw [hf] at he hit
      obtain ⟨s', hd, hr'⟩ := hr.back_ok (op := .allExpired) hO (bind_ok he)
      refine .returns hd ?_ (by rw [hr'.tlru, hr.tlru]; rfl)
      rw [hexp t.g _ (hp.returns hd _ (Nat.le_of_eq (by rw [hr.g])) (by rw [hr'.g, hk']; exact Nat.lt_succ_self _))]
      show some (Ans.bool _) = some (Ans.bool (match (asTimed s.c).items.getLast? with | some x => _ | none => true))
      rw [hit]; rfl
  case clearExpired =>
    obtain ⟨m, s', hd, h1, h2, h3, h4, h5, h6, _⟩ := C43_clear_expired_removes_only_expired hO h hk
    have hst := hp.returns hd
    have hl : ∀ i : Nat, (asTimed s.c).items[i]? = ((elements s.c)[i]?).map (fun n => (n.key, n.info.value, n.info.time)) := by
      intro i; unfold asTimed; rw [List.getElem?_map]
    obtain ⟨e1, e2⟩ := takeWhile_of_prefix (p := fun x : K × V × Int => Terms.expired ⟨ttl, res⟩ now x.2.2)
      (l := (asTimed s.c).items) (m := m)
      (fun i x hi hx => by
        rw [hl] at hx
        obtain ⟨y, hy, rfl⟩ := Option.map_eq_some_iff.1 hx
        exact (expired_iff (T := ⟨ttl, res⟩) (hst _ (by omega) (by rw [h5]; split <;> omega))).2 (h3 i y hi hy))
      (fun x hx => by
        rw [hl] at hx
        obtain ⟨y, hy, rfl⟩ := Option.map_eq_some_iff.1 hx
        have hlt : m < count s.c := by
          have := (List.getElem?_eq_some_iff.1 hy).1
          exact this
        have h7 := h4 y hy
        rw [Bool.eq_false_iff]
        intro h8
        have := (expired_iff (T := ⟨ttl, res⟩) (hst (s.g.ticks + m) (by omega) (by rw [h5, if_pos hlt]; omega))).1 h8
        simp only at this
        omega)
      (by rw [hcount]; exact h1)
    refine .returns hd (congrArg (fun n => some (Ans.nat n)) e1.symm) ?_
    show _ = ({ asTimed s.c with items := List.dropWhile _ (asTimed s.c).items } : TLru K V)
    rw [e2]
    unfold asTimed
    rw [h2, h6, List.map_drop]

/-! ### Sequences of calls -/

theorem TLru.store_capacity (l : TLru K V) (k : K) (v : V) : (l.store now k v).capacity = l.capacity := Lru.put_capacity l _ _

theorem TLru.storeAll_capacity (l : TLru K V) (r : List (K × V)) : (l.storeAll now r).2.capacity = l.capacity := by
  induction r generalizing l with
  | nil => rfl
  | cons p r ih => exact (ih _).trans (l.store_capacity _ _)

theorem TLru.touch_capacity (l : TLru K V) (T : Terms) (k : K) : (l.touch T now k).capacity = l.capacity := by
  unfold TLru.touch
  split
  · unfold Lru.act
    simp only
    split <;> rfl
  · rfl

/-- Every call leaves a map with a capacity. -/
theorem TLru.reply_capacity {l : TLru K V} {T : Terms} (h : l.capacity ≠ none) (op : Op K V) :
    (l.reply T now op).2.capacity ≠ none := by
  cases op <;> first
    | exact h
    | exact fun h' => h ((l.touch_capacity _ _).symm.trans h')
    | exact fun h' => h ((l.store_capacity _ _).symm.trans h')
    | exact fun h' => h ((l.storeAll_capacity _).symm.trans h')
    | (intro h'; cases h'; done)
    | skip
  all_goals
    intro h'
    have h' := (TLru.storeAll_capacity _ _).symm.trans h'
    unfold Lru.act at h'
    simp only at h'
    split at h'
    · next h'' => exact h h''
    · cases h'

theorem timed_answers_eq (hC : Calm O) (ops : List (Op K V × Int)) (h : Reachable O s) (hk : s.c.kind = .timed ttl res)
    (hc : s.c.capacity ≠ none) (hops : ∀ x ∈ ops, x.1.byKeyTimed = true) (hp : Paced O s ops) :
    timedAnswers O s (ops.map Prod.fst) = (TLru.replies (asTimed s.c) ⟨ttl, res⟩ ops).map some := by
  have hO := hC.noListFault
  induction ops generalizing s with
  | nil => rfl
  | cons x ops ih =>
    obtain ⟨op, now⟩ := x
    have hops' := fun x (hx : x ∈ ops) => hops x (by simp [hx])
    have hp1 : PacedCall O now op s := by
      unfold Paced at hp
      unfold PacedCall
      cases hs : Impl.step O op s <;> rw [hs] at hp <;> first | exact hp.1 | trivial
    obtain ⟨h1, h2⟩ := call_answers_at hC h hk hc (hops (op, now) (by simp)) hp1
    show timedAnswers O s (op :: ops.map Prod.fst) = _
    rw [timedAnswers]
    cases hs : Impl.step O op s with
    | ok r s' =>
      unfold Paced at hp
      rw [hs] at h1 h2 hp
      have h5 := ih (h.after hO hs) ((performs_kind (res := .ok r) hs).trans hk)
        (by have := TLru.reply_capacity (l := asTimed s.c) (T := ⟨ttl, res⟩) (now := now) hc op
            rw [← show asTimed s'.c = _ from h2] at this
            exact this) hops' hp.2
      rw [h1, TLru.replies, List.map_cons, ← show asTimed s'.c = _ from h2]
      exact congrArg (List.cons _) h5
    | throw e s' =>
      unfold Paced at hp
      rw [hs] at h1 h2 hp
      have h5 := ih (h.afterThrow hO hs) ((performs_kind (res := .error e) hs).trans hk)
        (by have := TLru.reply_capacity (l := asTimed s.c) (T := ⟨ttl, res⟩) (now := now) hc op
            rw [← show asTimed s'.c = _ from h2] at this
            exact this) hops' hp.2
      rw [h1, TLru.replies, List.map_cons, ← show asTimed s'.c = _ from h2]
      exact congrArg (List.cons _) h5
    | terminate => rw [hs] at h2; exact h2.elim
    | ub => rw [hs] at h2; exact h2.elim
    | diverge => rw [hs] at h2; exact h2.elim

/-! ### While nothing expires -/

/-- Without the times. -/
def TLru.plain (l : TLru K V) : Lru K V := ⟨l.capacity, l.items.map fun x => (x.1, x.2.1)⟩

theorem asTimed_plain (c : Cache K V) : TLru.plain (asTimed c) = asLru c := by
  unfold TLru.plain asTimed asLru entries
  rw [List.map_map]
  rfl

theorem TLru.plain_item (l : TLru K V) (k : K) : l.plain.item k = (l.item k).map fun x => (x.1, x.2.1) := by
  unfold Lru.item TLru.plain
  rw [List.find?_map]
  rfl

theorem TLru.plain_others (l : TLru K V) (k : K) : l.plain.others k = (l.others k).map fun x => (x.1, x.2.1) := by
  unfold Lru.others TLru.plain
  rw [List.filter_map]
  rfl

theorem TLru.plain_limit (l : TLru K V) : l.plain.limit = Lru.limit l := rfl

theorem TLru.plain_length (l : TLru K V) : l.plain.items.length = l.items.length := List.length_map _

theorem TLru.plain_put (l : TLru K V) (k : K) (v : V) (time : Int) :
    TLru.plain (l.act (.put k (v, time))) = l.plain.act (.put k v) := by
  unfold Lru.act
  simp only
  have hc : l.plain.capacity = l.capacity := rfl
  rw [hc]
  cases l.capacity with
  | none => rfl
  | some n =>
    cases n with
    | zero => rfl
    | succ n =>
      simp only [TLru.plain_item]
      cases hx : l.item k with
      | some x =>
        simp only [Option.map_some, TLru.plain_others]
        simp [TLru.plain]
      | none =>
        simp only [Option.map_none, TLru.plain_length]
        simp only [TLru.plain, List.map_append, List.map_cons, List.map_nil]
        split
        · rfl
        · rw [List.map_tail]

theorem TLru.plain_use (l : TLru K V) (k : K) : TLru.plain (l.act (.use k)) = l.plain.act (.use k) := by
  unfold Lru.act
  simp only [TLru.plain_item]
  cases hx : l.item k with
  | some x =>
    simp only [Option.map_some, TLru.plain_others]
    simp [TLru.plain]
  | none => rfl

theorem TLru.plain_store (l : TLru K V) (k : K) (v : V) : TLru.plain (l.store now k v) = l.plain.act (.put k v) :=
  TLru.plain_put ..

theorem TLru.plain_storing (l : TLru K V) (k : K) (v : V) : l.plain.storing k v = l.storing k v := by
  unfold Lru.storing TLru.storing
  rw [TLru.plain_limit, TLru.plain_item]
  split
  · rfl
  · cases l.item k <;> rfl

theorem TLru.plain_storeAll (l : TLru K V) (r : List (K × V)) :
    l.plain.storeAll r = ((l.storeAll now r).1, TLru.plain (l.storeAll now r).2) := by
  induction r generalizing l with
  | nil => rfl
  | cons p r ih =>
    have h1 : ∀ P Q : Prop, ∀ [Decidable P] [Decidable Q], (P ↔ Q) → (if P then 1 else 0) = (if Q then 1 else 0) := by
      intro P Q _ _ h; simp only [h]
    unfold Lru.storeAll TLru.storeAll
    simp only [← TLru.plain_store (now := now), ih, TLru.plain_limit, TLru.plain_item, Option.map_eq_none_iff]

/-- Nothing has expired. -/
def TLru.AllFresh (l : TLru K V) (T : Terms) (now : Int) : Prop := ∀ x ∈ l.items, T.expired now x.2.2 = false

theorem TLru.plain_fresh {l : TLru K V} {T : Terms} (h : l.AllFresh T now) (k : K) : l.fresh T now k = l.plain.item k := by
  rw [TLru.plain_item]
  cases hx : l.item k with
  | none => exact TLru.fresh_none hx
  | some x => exact TLru.fresh_some hx (h x (List.mem_of_find?_eq_some hx))

theorem TLru.plain_touch {l : TLru K V} {T : Terms} (h : l.AllFresh T now) (k : K) :
    TLru.plain (l.touch T now k) = l.plain.act (.use k) := by
  have hf := TLru.plain_fresh h k
  cases hx : l.plain.item k with
  | none => rw [TLru.touch_none (hf.trans hx), Lru.use_new hx]
  | some x => rw [TLru.touch_some (hf.trans hx), TLru.plain_use]

theorem TLru.plain_reply {l : TLru K V} {T : Terms} (h : l.AllFresh T now) (hop : op.byKeyBoth = true) :
    l.plain.reply op = ((l.reply T now op).1, TLru.plain (l.reply T now op).2) := by
  have hf := TLru.plain_fresh h
  have ht := TLru.plain_touch h
  cases op <;> first | (cases hop; done) | skip
  case contains k => simp only [Lru.reply, TLru.reply, hf, ht]
  case find k => simp only [Lru.reply, TLru.reply, hf, ht]
  case lookup k =>
    simp only [Lru.reply, TLru.reply, hf, ht]
    cases l.plain.item k <;> rfl
  case insert k v => simp only [Lru.reply, TLru.reply, TLru.plain_store, TLru.plain_storing]
  case emplace k v => simp only [Lru.reply, TLru.reply, TLru.plain_store, TLru.plain_storing]
  case insertRange r => simp only [Lru.reply, TLru.reply, TLru.plain_storeAll (now := now)]
  case insertRangeMove r => simp only [Lru.reply, TLru.reply, TLru.plain_storeAll (now := now)]
  case assignRange r =>
    have : TLru.plain ((l.act .empty).act (.raise r.length)) = (l.plain.act .empty).act (.raise r.length) := by
      unfold Lru.act
      simp only
      have hc : l.plain.capacity = l.capacity := rfl
      rw [hc]
      cases l.capacity <;> rfl
    simp only [Lru.reply, TLru.reply, ← this, TLru.plain_storeAll (now := now)]
  case assignRangeMove r =>
    have : TLru.plain ((l.act .empty).act (.raise r.length)) = (l.plain.act .empty).act (.raise r.length) := by
      unfold Lru.act
      simp only
      have hc : l.plain.capacity = l.capacity := rfl
      rw [hc]
      cases l.capacity <;> rfl
    simp only [Lru.reply, TLru.reply, ← this, TLru.plain_storeAll (now := now)]
  case erase k =>
    simp only [Lru.reply, TLru.reply, Lru.act, TLru.plain_item, TLru.plain_others, Option.isSome_map]
    rfl
  case clear => rfl
  case shrink n => simp [Lru.reply, TLru.reply, Lru.act, TLru.plain, List.map_drop]
  case setCapacity n => simp [Lru.reply, TLru.reply, Lru.act, TLru.plain, List.map_drop]
  case size => simp [Lru.reply, TLru.reply, TLru.plain]
  case capacity => rfl
  case spaceLeft => simp [Lru.reply, TLru.reply, TLru.plain_length, TLru.plain_limit]
  case isEmpty => simp [Lru.reply, TLru.reply, TLru.plain]
  case isFull => simp [Lru.reply, TLru.reply, TLru.plain_length, TLru.plain_limit]

/-- All times are among the given ones. -/
def TLru.TimesIn (l : TLru K V) (P : Int → Prop) : Prop := ∀ x ∈ l.items, P x.2.2

theorem Lru.act_put_mem {l : Lru K V} {x : K × V} (h : x ∈ (l.act (.put k v)).items) : x ∈ l.items ∨ x.2 = v := by
  unfold Lru.act at h
  simp only at h
  split at h
  · exact .inl h
  · exact .inl h
  · split at h
    · rcases List.mem_append.1 h with h | h
      · exact .inl (List.mem_filter.1 h).1
      · rw [List.mem_singleton.1 h]; exact .inr rfl
    · rcases List.mem_append.1 h with h | h
      · split at h
        · exact .inl h
        · exact .inl (List.mem_of_mem_tail h)
      · rw [List.mem_singleton.1 h]; exact .inr rfl

theorem TLru.TimesIn.store {l : TLru K V} {P : Int → Prop} (h : l.TimesIn P) (hn : P now) (k : K) (v : V) :
    TLru.TimesIn (l.store now k v) P := by
  intro x hx
  rcases Lru.act_put_mem hx with hx | hx
  · exact h x hx
  · rw [hx]
    cases hi : l.item k with
    | none => exact hn
    | some y => exact h y (List.mem_of_find?_eq_some hi)

theorem TLru.TimesIn.storeAll {l : TLru K V} {P : Int → Prop} (h : l.TimesIn P) (hn : P now) (r : List (K × V)) :
    TLru.TimesIn (l.storeAll now r).2 P := by
  induction r generalizing l with
  | nil => exact h
  | cons p r ih => exact ih (h.store hn _ _)

theorem TLru.TimesIn.use {l : TLru K V} {P : Int → Prop} (h : l.TimesIn P) (k : K) : TLru.TimesIn (l.act (.use k)) P := by
  intro x hx
  unfold Lru.act at hx
  simp only at hx
  split at hx
  · next y hy =>
    rcases List.mem_append.1 hx with hx | hx
    · exact h x (List.mem_filter.1 hx).1
    · rw [List.mem_singleton.1 hx]; exact h y (List.mem_of_find?_eq_some hy)
  · exact h x hx

theorem TLru.TimesIn.touch {l : TLru K V} {P : Int → Prop} (h : l.TimesIn P) (T : Terms) (k : K) :
    TLru.TimesIn (l.touch T now k) P := by
  unfold TLru.touch
  split
  · exact h.use k
  · exact h

theorem TLru.TimesIn.reply {l : TLru K V} {P : Int → Prop} {T : Terms} (h : l.TimesIn P) (hn : P now) (op : Op K V) :
    TLru.TimesIn (l.reply T now op).2 P := by
  have he : ∀ n, TLru.TimesIn ((l.act .empty).act (.raise n)) P := by
    intro n x hx
    unfold Lru.act at hx
    simp only at hx
    split at hx <;> cases hx
  cases op <;> first
    | exact h
    | exact h.touch _ _
    | exact h.store hn _ _
    | exact h.storeAll hn _
    | exact (he _).storeAll hn _
    | exact fun x hx => h x (List.mem_filter.1 hx).1
    | exact fun x hx => h x (List.mem_of_mem_drop hx)
    | exact fun x hx => h x ((List.dropWhile_sublist _).subset hx)
    | (intro x hx; cases hx; done)

theorem TLru.plain_replies {l : TLru K V} {T : Terms} {P : Int → Prop} (ops : List (Op K V × Int)) (h : l.TimesIn P)
    (hops : ∀ x ∈ ops, x.1.byKeyBoth = true ∧ P x.2 ∧ ∀ time, P time → T.expired x.2 time = false) :
    l.plain.replies (ops.map Prod.fst) = l.replies T ops := by
  induction ops generalizing l with
  | nil => rfl
  | cons x ops ih =>
    obtain ⟨op, now⟩ := x
    obtain ⟨h1, h2, h3⟩ := hops (op, now) (by simp)
    have h4 := TLru.plain_reply (op := op) (fun x hx => h3 _ (h x hx)) h1
    have h5 : (l.plain.reply op).1 ≠ .terminated := by
      cases op <;> first
        | (cases h1; done)
        | (intro h6; cases h6; done)
        | skip
      all_goals
        unfold Lru.reply
        simp only
        try unfold Lru.storing
        repeat' split
        all_goals (intro h6; cases h6)
    show l.plain.replies (op :: ops.map Prod.fst) = _
    rw [Lru.replies_cons h5, h4, TLru.replies]
    simp only
    rw [ih (h.reply h2 op) fun x hx => hops x (by simp [hx])]

end LRU
