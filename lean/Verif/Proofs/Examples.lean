import Verif.Spec.Examples
import Verif.Proofs.Machine
import Verif.Proofs.StatInv
import Verif.Proofs.ReenterCalls
import Verif.Props.Timed
/-!
# The example programs: lemmas for `Props.Examples`
-/

set_option linter.unusedSectionVars false
set_option autoImplicit false

namespace LRU

section calls

variable {K V : Type} [KeyEqual K] [DecidableEq K] [DecidableEq V] {O : Oracle K V} {s s' : St (Cache K V) K V}
  {k : K} {v : V} {i c : Nat}

/-- A plain cache in use, with capacity `c`. -/
structure Plain (O : Oracle K V) (c : Nat) (s : St (Cache K V) K V) : Prop where
  reach : Reachable O s
  basic : s.c.kind = .basic
  cap : s.c.capacity = some c

/-- Between the states so many misses and hits were counted, if the cache reports to a statistics object. -/
def Tallies (s s' : St (Cache K V) K V) (m h : Nat) : Prop :=
  s'.c.obs.stats = s.c.obs.stats ∧ s.g.nextStat ≤ s'.g.nextStat ∧
  ∀ i, s.c.obs.stats = some i → i < s.g.nextStat →
    (s'.g.stats i).totalAccesses = (s.g.stats i).totalAccesses + m + h ∧
    (s'.g.stats i).totalHits = (s.g.stats i).totalHits + h

theorem Tallies.refl : Tallies s s 0 0 := ⟨rfl, Nat.le_refl _, fun _ _ _ => ⟨rfl, rfl⟩⟩

theorem Tallies.trans {s'' : St (Cache K V) K V} {m h m' h' : Nat} (h1 : Tallies s s' m h) (h2 : Tallies s' s'' m' h') :
    Tallies s s'' (m + m') (h + h') := by
  obtain ⟨a, b, c⟩ := h1
  obtain ⟨a', b', c'⟩ := h2
  refine ⟨a'.trans a, Nat.le_trans b b', fun i hi hn => ?_⟩
  obtain ⟨d, e⟩ := c i hi hn
  obtain ⟨d', e'⟩ := c' i (a.trans hi) (Nat.lt_of_lt_of_le hn b)
  constructor <;> omega

theorem Tallies.cast {m h m' h' : Nat} (h1 : Tallies s s' m h) (hm : m = m') (hh : h = h') : Tallies s s' m' h' := by
  subst hm hh; exact h1

theorem Tallies.tallied {i m h : Nat} (h1 : Tallies s s' m h) (hi : s.c.obs.stats = some i) (hn : i < s.g.nextStat)
    {m0 h0 : Nat} (h0' : Tallied (s.g.stats i) m0 h0) : Tallied (s'.g.stats i) (m0 + m) (h0 + h) := by
  obtain ⟨h2, h3⟩ := h0'
  obtain ⟨h4, h5⟩ := h1.2.2 i hi hn
  unfold Tallied Statistics.totalMisses at *
  unfold Statistics.totalAccesses Statistics.totalHits at *
  split at h2
  · injection h2 with h2
    rw [if_pos (by omega)]
    exact ⟨congrArg some (by omega), by omega⟩
  · cases h2

theorem Lru.use_capacity (l : Lru K V) (k : K) : (l.act (.use k)).capacity = l.capacity := by
  unfold Lru.act
  simp only
  split <;> rfl

theorem Plain.access (hC : Calm O) (h : Plain O c s) {op : Op K V} {r : Res K V} (ha : op.Accesses k) (hd : Returns O op s r s') :
    Plain O c s' ∧ asLru s'.c = (asLru s.c).act (.use k) ∧
      Tallies s s' (if ((asLru s.c).item k).isSome then 0 else 1) (if ((asLru s.c).item k).isSome then 1 else 0) := by
  have hO := hC.noListFault
  obtain ⟨_, h2, h3, h4⟩ := h.reach.registers hO h.basic ha (res := .ok r) hd
  obtain ⟨h5, h6⟩ := h2 (by intro h; cases h)
  have hl : asLru s'.c = (asLru s.c).act (.use k) := by
    have h7 := (access_faithful hC h.reach h.basic ha).2
    rw [show Impl.step O op s = _ from hd] at h7
    rcases ha with rfl | rfl | rfl <;> exact h7
  refine ⟨⟨h.reach.after hO hd, h4.trans h.basic, ?_⟩, hl, by rw [h3], performs_nextStat (res := .ok r) hd, fun i hi _ => ?_⟩
  · have := congrArg Lru.capacity hl
    rw [Lru.use_capacity] at this
    exact this.trans h.cap
  · have h8 := h5.counted i hi
    have h9 : ((asLru s.c).item k).isSome = (entryFor s.c k).isSome := by
      rw [asLru_item]; cases entryFor s.c k <;> rfl
    rw [h9]
    refine ⟨?_, ?_⟩
    · rw [h8.total]; split <;> omega
    · rw [h8.hits]

theorem Plain.contains (hC : Calm O) (h : Plain O c s) (k : K) :
    ∃ s', Impl.contains O k s = .ok ((asLru s.c).item k).isSome s' ∧ Plain O c s' ∧
      asLru s'.c = (asLru s.c).act (.use k) ∧
      Tallies s s' (if ((asLru s.c).item k).isSome then 0 else 1) (if ((asLru s.c).item k).isSome then 1 else 0) := by
  obtain ⟨h1, h2⟩ := C16_access_outcome hC.noListFault hC.noCallbackFault h.reach h.basic k
  have hit := asLru_item s.c k
  have key : ∃ s', Returns O (.contains k) s (.bool ((asLru s.c).item k).isSome) s' := by
    rw [hit]
    cases he : entryFor s.c k with
    | some x => exact (h1 x he).1
    | none => exact (h2 he).1
  obtain ⟨s', hd⟩ := key
  obtain ⟨a, ha, hb⟩ := ret_ok_iff.1 hd
  injection hb with hb
  subst hb
  exact ⟨s', ha, h.access hC (.inl rfl) hd⟩

theorem Plain.lookup (hC : Calm O) (h : Plain O c s) {x : K × V} (hx : (asLru s.c).item k = some x) :
    ∃ p s', Impl.lookup O k s = .ok (p, x.2) s' ∧ Plain O c s' ∧ asLru s'.c = (asLru s.c).act (.use k) ∧ Tallies s s' 0 1 := by
  obtain ⟨h1, h2⟩ := C16_access_outcome hC.noListFault hC.noCallbackFault h.reach h.basic k
  have hit := asLru_item s.c k
  cases he : entryFor s.c k with
  | none => rw [hx, he] at hit; cases hit
  | some y =>
    rw [hx, he] at hit
    injection hit with hit
    subst hit
    obtain ⟨_, _, s', hd⟩ := h1 y he
    obtain ⟨⟨p, w⟩, ha, hb⟩ := ret_ok_iff.1 hd
    injection hb with hb hb'
    simp only at hb hb'
    subst hb hb'
    have h3 := h.access hC (.inr (.inr rfl)) hd
    rw [hx] at h3
    exact ⟨_, s', ha, h3⟩

theorem Plain.inserts (hC : Calm O) (h : Plain O c s) {op : Op K V} (hi : op.Inserts k v) :
    ∃ r s', Returns O op s r s' ∧ Plain O c s' ∧ asLru s'.c = (asLru s.c).act (.put k v) ∧ Tallies s s' 0 0 := by
  have hO := hC.noListFault
  obtain ⟨r, s', hd⟩ := h.reach.completes_calmly hC hi (by rw [h.cap]; simp)
  have hacc : op.isAccess = false := by rcases hi with rfl | rfl <;> rfl
  have hset : op.setsMonitor = false := by rcases hi with rfl | rfl <;> rfl
  obtain ⟨_, h2, h3, h4, _, h6⟩ := performs_other (res := .ok r) hd hacc
  have hl := (insert_answers hC h.reach hi hd).2.2
  refine ⟨r, s', hd, ⟨h.reach.after hO hd, h4.trans h.basic, ?_⟩, hl, h6 hset, h2, fun i _ hn => ?_⟩
  · have := congrArg Lru.capacity hl
    rw [Lru.put_capacity] at this
    exact this.trans h.cap
  · rw [h3 i hn]; exact ⟨rfl, rfl⟩

theorem Plain.emplace (hC : Calm O) (h : Plain O c s) (k : K) (v : V) :
    ∃ r s', Impl.emplace O k v s = .ok r s' ∧ Plain O c s' ∧ asLru s'.c = (asLru s.c).act (.put k v) ∧ Tallies s s' 0 0 := by
  obtain ⟨r, s', hd, h1⟩ := h.inserts hC (.inr rfl : (Op.emplace k v).Inserts k v)
  obtain ⟨a, ha, _⟩ := ret_ok_iff.1 hd
  exact ⟨a, s', ha, h1⟩

theorem Plain.insert (hC : Calm O) (h : Plain O c s) (k : K) (v : V) :
    ∃ r s', Impl.insert O k v s = .ok r s' ∧ Plain O c s' ∧ asLru s'.c = (asLru s.c).act (.put k v) ∧ Tallies s s' 0 0 := by
  obtain ⟨r, s', hd, h1⟩ := h.inserts hC (.inl rfl : (Op.insert k v).Inserts k v)
  obtain ⟨a, ha, _⟩ := ret_ok_iff.1 hd
  exact ⟨a, s', ha, h1⟩

/-! ### What the cache holds -/

/-- The pairs of the textbook map belong to `f`. -/
def Lru.Holds (f : K → V) (l : Lru K V) : Prop := ∀ x ∈ l.items, ∀ k, keq x.1 k = true → x.2 = f k

theorem allRight_iff {f : K → V} {c : Cache K V} : AllRight f c ↔ (asLru c).Holds f := Iff.rfl

theorem Lru.item_keq {l : Lru K V} {x : K × V} (h : l.item k = some x) : x ∈ l.items ∧ keq x.1 k = true :=
  ⟨List.mem_of_find?_eq_some h, by simpa using List.find?_some h⟩

theorem Lru.Holds.item {f : K → V} {l : Lru K V} (h : l.Holds f) {x : K × V} (hx : l.item k = some x) : x.2 = f k :=
  h x (Lru.item_keq hx).1 k (Lru.item_keq hx).2

theorem Lru.Holds.use {f : K → V} {l : Lru K V} (h : l.Holds f) (k : K) : (l.act (.use k)).Holds f := by
  cases hx : l.item k with
  | none => rw [Lru.use_new hx]; exact h
  | some x =>
    rw [Lru.use_old hx]
    intro y hy
    rcases List.mem_append.1 hy with hy | hy
    · exact h y (List.mem_filter.1 hy).1
    · rw [List.mem_singleton.1 hy]; exact h x (Lru.item_keq hx).1

theorem Lru.Holds.put {f : K → V} (hf : ∀ a b, keq a b = true → f a = f b) {l : Lru K V} (h : l.Holds f) (k : K) :
    (l.act (.put k (f k))).Holds f := by
  have hnew : ∀ k', keq k k' = true → f k = f k' := fun k' => hf k k'
  cases hc : l.capacity with
  | none => simpa only [Lru.act, hc] using h
  | some n =>
    cases n with
    | zero => rw [Lru.put_zero hc]; exact h
    | succ n =>
      cases hx : l.item k with
      | none =>
        rw [Lru.put_new hc hx]
        intro y hy
        rcases List.mem_append.1 hy with hy | hy
        · refine h y ?_
          split at hy
          · exact hy
          · exact List.mem_of_mem_tail hy
        · rw [List.mem_singleton.1 hy]; exact hnew
      | some x =>
        rw [Lru.put_old hc hx]
        intro y hy
        rcases List.mem_append.1 hy with hy | hy
        · exact h y (List.mem_filter.1 hy).1
        · rw [List.mem_singleton.1 hy]
          intro k' hk'
          exact hf k k' (KeyEqual.trans _ _ _ (by rw [KeyEqual.symm]; exact (Lru.item_keq hx).2) hk')

/-! ### `contains`, then `lookup` -/

theorem RunsOut.earlier (hk : s'.c.kind = s.c.kind) (ht : s.g.ticks ≤ s'.g.ticks) (h : RunsOut O s') : RunsOut O s := by
  obtain ⟨ttl, res, i, j, h1, h2, h3, h4⟩ := h
  exact ⟨ttl, res, i, j, hk ▸ h1, h2, Nat.le_trans ht h3, h4⟩

/-- What is kept while nothing fails. -/
structure Onward (O : Oracle K V) (s s' : St (Cache K V) K V) : Prop where
  reach : Reachable O s'
  cap : s'.c.capacity ≠ none
  kind : s'.c.kind = s.c.kind
  ticks : s.g.ticks ≤ s'.g.ticks

theorem Onward.trans {s'' : St (Cache K V) K V} (h : Onward O s s') (h' : Onward O s' s'') : Onward O s s'' :=
  ⟨h'.reach, h'.cap, h'.kind.trans h.kind, Nat.le_trans h.ticks h'.ticks⟩

theorem Onward.of_returns (hO : NoListFault O) (h : Reachable O s) (hc : s.c.capacity ≠ none) {op : Op K V} {r : Res K V}
    (hd : Returns O op s r s') : Onward O s s' := by
  refine ⟨h.after hO hd, ?_, performs_kind (res := .ok r) hd, (grown_returns hO h hd).ticks⟩
  obtain ⟨t, t', hr, ht, _, hr', hst⟩ := h.returns hO hd
  rw [hr'.rep.cap]
  exact hst.cap (by rw [← hr.rep.cap]; exact hc)

theorem contains_calm (hC : Calm O) (h : Reachable O s) (hc : s.c.capacity ≠ none) (k : K) :
    ∃ b s', Impl.contains O k s = .ok b s' ∧ Onward O s s' := by
  have hO := hC.noListFault
  obtain ⟨t, hr, ht⟩ := h.rel hO
  rcases mid_access (O := O) ht (.inl rfl : (Op.contains k : Op K V).Accesses k) with ⟨r, t', h1, _⟩ | ⟨e, t', _, h2⟩
  · obtain ⟨s', h3, _⟩ := hr.back_ok hO h1
    obtain ⟨b, h4, _⟩ := ret_ok_iff.1 h3
    exact ⟨b, s', h4, .of_returns hO h hc h3⟩
  · cases h2 with
    | hitUser e n cb _ _ _ h5 => rw [hC.noCallbackFault] at h5; cases h5
    | missUser n cb _ _ h5 => rw [hC.noCallbackFault] at h5; cases h5
    | expiredUser e n cb _ _ _ h5 => rw [hC.noCallbackFault] at h5; cases h5
    | notFound h5 => cases h5
    | expired e h5 => cases h5
    | lastExpired e h5 => cases h5
    | lateExpired e h5 => cases h5

theorem pair_outcome (hC : Calm O) (h : Reachable O s) (hc : s.c.capacity ≠ none) (hd : Impl.contains O k s = .ok true s') :
    (∃ r s2, Impl.lookup O k s' = .ok r s2 ∧ Onward O s' s2) ∨ (∃ s2, Impl.lookup O k s' = .throw .keyExpired s2) ∧ RunsOut O s := by
  have hO := hC.noListFault
  have hd' : Returns O (.contains k) s (.bool true) s' := ret_ok_iff.2 ⟨_, hd, rfl⟩
  have hon := Onward.of_returns hO h hc hd'
  obtain ⟨t, t', hr, ht, hm, hr', hst⟩ := h.returns hO hd'
  -- the entry is there and is the one accessed last
  have key : ∃ e, t'.c.lastEnt = some e ∧ t'.c.ents.find? (fun x => keq x.key k) = some e ∧ e ∈ t.c.ents ∧
      expiredAt O t.c.kind t.g e.time = false ∧ t'.g.ticks = t.g.ticks + t.c.kind.reads := by
    rcases mid_access (O := O) ht (.inl rfl : (Op.contains k : Op K V).Accesses k) with ⟨r, t2, h1, h2⟩ | ⟨e, t2, h1, _⟩
    · rw [hm] at h1
      injection h1 with h1 h3
      subst h1 h3
      cases h2 with
      | last e _ h4 h5 h6 => exact ⟨e, h4, h5, List.mem_of_find?_eq_some h5, h6, rfl⟩
      | hit e _ j h5 h6 _ h8 =>
        have hj : j = 0 := h8.resolve_right (by intro h; cases h)
        subst hj
        have hmem : e ∈ (t.c.touch e).ents := by simp [MCache.touch, toEnd]
        have hok := hst.ok
        obtain ⟨e', he', hid, hl⟩ := hok.lastEnt (p := e.id) rfl
        obtain rfl : e' = e := by
          have h1 := hok.findId he'
          have h2 := hok.findId hmem
          rw [hid] at h1
          exact Option.some.inj (h1.symm.trans h2)
        exact ⟨e', hl, hok.findKey hmem (by simpa using List.find?_some h5), List.mem_of_find?_eq_some h5, h6, rfl⟩
      | absent _ _ h4 => rcases h4 with h4 | h4 <;> cases h4
      | expired e _ _ _ _ h4 => rcases h4 with h4 | h4 <;> cases h4
    · rw [hm] at h1; cases h1
  obtain ⟨e, h1, h2, h3, h4, h5⟩ := key
  have hlast : t'.c.lastMatches k = true :=
    lastMatches_iff.2 ⟨e, h1, by rw [KeyEqual.symm]; simpa using List.find?_some h2⟩
  rcases mid_access (O := O) hst.ok (.inr (.inr rfl) : (Op.lookup k : Op K V).Accesses k) with ⟨r, t2, h6, _⟩ | ⟨er, t2, h6, h7⟩
  · obtain ⟨s2, h8, _⟩ := hr'.back_ok hO h6
    obtain ⟨b, h9, _⟩ := ret_ok_iff.1 h8
    exact .inl ⟨b, s2, h9, .of_returns hO hon.reach hon.cap h8⟩
  · cases h7 with
    | hitUser e n cb _ _ _ h5 => rw [hC.noCallbackFault] at h5; cases h5
    | missUser n cb _ _ h5 => rw [hC.noCallbackFault] at h5; cases h5
    | expiredUser e n cb _ _ _ h5 => rw [hC.noCallbackFault] at h5; cases h5
    | notFound _ h8 => rw [h2] at h8; cases h8
    | expired e _ h8 => rw [hlast] at h8; cases h8
    | lateExpired e _ h8 => rw [hlast] at h8; cases h8
    | lastExpired e2 _ h8 h9 h10 =>
      rw [h2] at h9
      injection h9 with h9
      subst h9
      refine .inr ⟨?_, ?_⟩
      · obtain ⟨s2, h11, _⟩ := hr'.back_throw hO h6
        exact ⟨s2, ret_throw_iff.1 h11⟩
      · cases hk : t.c.kind with
        | basic =>
          rw [hst.kind, hk] at h10
          cases h10
        | timed ttl res =>
          have hks : s.c.kind = .timed ttl res := by rw [hr.rep.kind, hk]
          have hel : e.node ∈ elements s.c := by rw [hr.elements]; exact List.mem_map_of_mem h3
          obtain ⟨i, h12, h13⟩ := C39_time_stamp_is_past hO h hks hel
          rw [expiredAt_timed hk] at h4
          rw [expiredAt_timed (hst.kind.trans hk), h5, hk] at h10
          unfold elapsed at h4 h10
          rw [h13] at h4 h10
          refine ⟨ttl, res, i, t.g.ticks, hks, ?_, by rw [hr.g]; exact Nat.le_refl _, ?_, ?_⟩
          · rw [← hr.g]; exact h12
          · simpa using of_decide_eq_false h4
          · exact of_decide_eq_true h10

/-- It returns, or an entry ran out between the two calls. -/
theorem get_outcome (hC : Calm O) (h : Reachable O s) (hc : s.c.capacity ≠ none) (fetch : K → V) (k : K) :
    (∃ v s', Impl.get O fetch k s = .ok v s') ∨ (∃ s', Impl.get O fetch k s = .throw .keyExpired s') ∧ RunsOut O s := by
  obtain ⟨b, s1, h1, o1⟩ := contains_calm hC h hc k
  unfold Impl.get
  rw [bind_ok h1]
  cases b with
  | true =>
    simp only [if_true]
    rcases pair_outcome hC h hc h1 with ⟨r, s2, h2, _⟩ | ⟨⟨s2, h2⟩, h3⟩
    · exact .inl ⟨r.2, s2, bind_ok h2⟩
    · exact .inr ⟨⟨s2, bind_throw h2⟩, h3⟩
  | false =>
    simp only [Bool.false_eq_true, if_false]
    obtain ⟨r, s', h2⟩ := o1.reach.completes_calmly hC (.inl rfl : (Op.insert k (fetch k)).Inserts k (fetch k)) o1.cap
    obtain ⟨a, h3, _⟩ := ret_ok_iff.1 h2
    exact .inl ⟨fetch k, s', bind_ok h3⟩

/-! ### Either kind of cache, whatever fails -/

section any

variable (hO : NoListFault O) (hA : NoAssignFault O) (h : Reachable O s)
include hO hA h

theorem contains_returned {b : Bool} (hd : Impl.contains O k s = .ok b s') :
    Reachable O s' ∧ s'.c.kind = s.c.kind ∧ asLru s'.c = (asLru s.c).run (if b then [.use k] else []) := by
  have hd' : Returns O (.contains k) s (.bool b) s' := ret_ok_iff.2 ⟨b, hd, rfl⟩
  refine ⟨h.after hO hd', performs_kind (res := .ok _) hd', ?_⟩
  have := call_returns_refines hO hA h hd'
  cases b <;> exact this

theorem lookup_returned {r : Ptr × V} (hd : Impl.lookup O k s = .ok r s') :
    Reachable O s' ∧ s'.c.kind = s.c.kind ∧ asLru s'.c = (asLru s.c).act (.use k) ∧
      ∃ x, (asLru s.c).item k = some x ∧ x.2 = r.2 := by
  have hd' : Returns O (.lookup k) s (.ref r.1 r.2) s' := ret_ok_iff.2 ⟨r, hd, rfl⟩
  refine ⟨h.after hO hd', performs_kind (res := .ok _) hd', call_returns_refines hO hA h hd', ?_⟩
  obtain ⟨t, t', hr, ht, ho, _⟩ := h.access hO (.inr (.inr rfl)) hd'
  have key : ∀ {e : Ent K V}, t.c.ents.find? (fun x => keq x.key k) = some e → Hit (.lookup k) (.ref r.1 r.2) e.node →
      ∃ x, (asLru s.c).item k = some x ∧ x.2 = r.2 := by
    intro e he hh
    refine ⟨e.node.pair, by rw [asLru_item, hr.entryFor, he]; rfl, ?_⟩
    simp only [Hit] at hh
    injection hh with _ h2
    rw [h2]
    rfl
  cases ho with
  | last e _ _ h2 _ h4 => exact key h2 h4
  | hit e _ j h2 _ h4 => exact key h2 h4
  | absent _ _ h4 => rcases h4 with h4 | h4 <;> cases h4
  | expired e _ _ _ _ h4 => rcases h4 with h4 | h4 <;> cases h4

theorem insert_returned {r : Bool × Option Ptr} (hd : Impl.insert O k v s = .ok r s') :
    Reachable O s' ∧ s'.c.kind = s.c.kind ∧ asLru s'.c = (asLru s.c).act (.put k v) := by
  have hd' : Returns O (.insert k v) s (.inserted r.1 r.2) s' := ret_ok_iff.2 ⟨r, hd, rfl⟩
  exact ⟨h.after hO hd', performs_kind (res := .ok _) hd', call_returns_refines hO hA h hd'⟩

theorem emplace_returned {r : Bool × Option Ptr} (hd : Impl.emplace O k v s = .ok r s') :
    Reachable O s' ∧ s'.c.kind = s.c.kind ∧ asLru s'.c = (asLru s.c).act (.put k v) := by
  have hd' : Returns O (.emplace k v) s (.inserted r.1 r.2) s' := ret_ok_iff.2 ⟨r, hd, rfl⟩
  exact ⟨h.after hO hd', performs_kind (res := .ok _) hd', call_returns_refines hO hA h hd'⟩

theorem get_returned {fetch : K → V} (hf : ∀ a b, keq a b = true → fetch a = fetch b) (hh : AllRight fetch s.c)
    (hd : Impl.get O fetch k s = .ok v s') : v = fetch k ∧ Reachable O s' ∧ AllRight fetch s'.c := by
  unfold Impl.get at hd
  obtain ⟨b, s1, h1, h2⟩ := bind_ok_inv hd
  obtain ⟨r1, _, l1⟩ := contains_returned hO hA h h1
  cases b with
  | true =>
    simp only [if_true] at h2 l1
    obtain ⟨r, s2, h3, h4⟩ := bind_ok_inv h2
    obtain ⟨r2, _, l2, x, hx, hv⟩ := lookup_returned hO hA r1 h3
    injection h4 with h4 h5
    subst h4 h5
    have f1 : (asLru s1.c).Holds fetch := by rw [l1]; exact Lru.Holds.use (allRight_iff.1 hh) k
    refine ⟨?_, r2, ?_⟩
    · rw [← hv]; exact f1.item hx
    · show (asLru _).Holds fetch
      rw [l2]; exact f1.use k
  | false =>
    simp only [Bool.false_eq_true, if_false] at h2 l1
    obtain ⟨r, s2, h3, h4⟩ := bind_ok_inv h2
    obtain ⟨r2, _, l2⟩ := insert_returned hO hA r1 h3
    injection h4 with h4 h5
    subst h4 h5
    refine ⟨rfl, r2, ?_⟩
    show (asLru _).Holds fetch
    rw [l2]
    refine Lru.Holds.put hf ?_ k
    rw [l1]; exact hh

end any

end calls

/-! ### Fibonacci -/

section fibonacci

variable {O : Oracle Nat Nat} {left : St (Cache Nat Nat) Nat Nat → Nat → Bool} {s s' s1 s2 : St (Cache Nat Nat) Nat Nat}

theorem nat_keq {a b : Nat} : keq a b = true ↔ a = b := by
  show (a == b) = true ↔ _
  simp

/-- The sum in the middle of `fibonacci`. -/
def fibSum (O : Oracle Nat Nat) (left : St (Cache Nat Nat) Nat Nat → Nat → Bool) (n : Nat) : Impl.CM Nat Nat Nat := fun s =>
  if left s (n + 2) then (do
    let a ← Impl.fibonacci O left (n + 1)
    let b ← Impl.fibonacci O left n
    pure (a + b) : Impl.CM Nat Nat Nat) s
  else (do
    let b ← Impl.fibonacci O left n
    let a ← Impl.fibonacci O left (n + 1)
    pure (a + b) : Impl.CM Nat Nat Nat) s

theorem fibonacci_eq (n : Nat) : Impl.fibonacci O left (n + 2) = (do
    if ← Impl.contains O (n + 2) then do
      let r ← Impl.lookup O (n + 2)
      pure r.2
    else do
      let value ← fibSum O left n
      let _ ← Impl.emplace O (n + 2) value
      pure value) := rfl

/-- Whenever `fibonacci` returns, it returns the number. -/
theorem fibonacci_returned (hO : NoListFault O) (hA : NoAssignFault O) : ∀ n {s s' : St (Cache Nat Nat) Nat Nat} {v : Nat},
    Reachable O s → AllRight fibAt s.c → Impl.fibonacci O left n s = .ok v s' →
    v = fibAt n ∧ Reachable O s' ∧ AllRight fibAt s'.c
  | 0, s, s', v, h, hh, hd => by cases hd; exact ⟨rfl, h, hh⟩
  | 1, s, s', v, h, hh, hd => by cases hd; exact ⟨rfl, h, hh⟩
  | n + 2, s, s', v, h, hh, hd => by
    rw [fibonacci_eq] at hd
    obtain ⟨b, s1, h1, h2⟩ := bind_ok_inv hd
    obtain ⟨r1, _, l1⟩ := contains_returned hO hA h h1
    cases b with
    | true =>
      simp only [if_true] at h2 l1
      obtain ⟨r, s2, h3, h4⟩ := bind_ok_inv h2
      obtain ⟨r2, _, l2, x, hx, hv⟩ := lookup_returned hO hA r1 h3
      injection h4 with h4 h5
      subst h4 h5
      have f1 : (asLru s1.c).Holds fibAt := by rw [l1]; exact Lru.Holds.use (allRight_iff.1 hh) _
      refine ⟨?_, r2, ?_⟩
      · rw [← hv]; exact f1.item hx
      · show (asLru _).Holds fibAt
        rw [l2]; exact f1.use _
    | false =>
      simp only [Bool.false_eq_true, if_false] at h2 l1
      have f1 : AllRight fibAt s1.c := by
        show (asLru _).Holds fibAt
        rw [l1]; exact hh
      obtain ⟨w, s2, h3, h4⟩ := bind_ok_inv h2
      obtain ⟨r, s3, h5, h6⟩ := bind_ok_inv h4
      injection h6 with h6 h7
      subst h6 h7
      have key : w = fibAt (n + 2) ∧ Reachable O s2 ∧ AllRight fibAt s2.c := by
        unfold fibSum at h3
        split at h3
        · obtain ⟨a, t1, e1, h3⟩ := bind_ok_inv h3
          obtain ⟨b, t2, e2, h3⟩ := bind_ok_inv h3
          obtain ⟨v1, q1, g1⟩ := fibonacci_returned hO hA (n + 1) r1 f1 e1
          obtain ⟨v2, q2, g2⟩ := fibonacci_returned hO hA n q1 g1 e2
          injection h3 with h3 h8
          subst h3 h8 v1 v2
          exact ⟨rfl, q2, g2⟩
        · obtain ⟨b, t1, e1, h3⟩ := bind_ok_inv h3
          obtain ⟨a, t2, e2, h3⟩ := bind_ok_inv h3
          obtain ⟨v1, q1, g1⟩ := fibonacci_returned hO hA n r1 f1 e1
          obtain ⟨v2, q2, g2⟩ := fibonacci_returned hO hA (n + 1) q1 g1 e2
          injection h3 with h3 h8
          subst h3 h8 v1 v2
          exact ⟨rfl, q2, g2⟩
      obtain ⟨rfl, r2, f2⟩ := key
      obtain ⟨r3, _, l3⟩ := emplace_returned hO hA r2 h5
      refine ⟨rfl, r3, ?_⟩
      show (asLru _).Holds fibAt
      rw [l3]
      exact Lru.Holds.put (fun a b hab => by rw [nat_keq.1 hab]) (allRight_iff.1 f2) _

/-- It returns, or an entry ran out between two calls. -/
theorem fibonacci_outcome (hC : Calm O) : ∀ n {s : St (Cache Nat Nat) Nat Nat}, Reachable O s → s.c.capacity ≠ none →
    (∃ v s', Impl.fibonacci O left n s = .ok v s' ∧ Onward O s s') ∨
      (∃ s', Impl.fibonacci O left n s = .throw .keyExpired s') ∧ RunsOut O s
  | 0, s, h, hc => .inl ⟨1, s, rfl, h, hc, rfl, Nat.le_refl _⟩
  | 1, s, h, hc => .inl ⟨1, s, rfl, h, hc, rfl, Nat.le_refl _⟩
  | n + 2, s, h, hc => by
    obtain ⟨b, s1, h1, o1⟩ := contains_calm hC h hc (n + 2)
    rw [fibonacci_eq, bind_ok h1]
    cases b with
    | true =>
      simp only [if_true]
      rcases pair_outcome hC h hc h1 with ⟨r, s2, h2, o2⟩ | ⟨⟨s2, h2⟩, h3⟩
      · exact .inl ⟨r.2, s2, bind_ok h2, o1.trans o2⟩
      · exact .inr ⟨⟨s2, bind_throw h2⟩, h3⟩
    | false =>
      simp only [Bool.false_eq_true, if_false]
      have key : (∃ v s2, fibSum O left n s1 = .ok v s2 ∧ Onward O s1 s2) ∨
          (∃ s2, fibSum O left n s1 = .throw .keyExpired s2) ∧ RunsOut O s1 := by
        unfold fibSum
        split
        · rcases fibonacci_outcome hC (n + 1) o1.reach o1.cap with ⟨v, s2, h2, o2⟩ | ⟨⟨s2, h2⟩, h3⟩
          · rw [bind_ok h2]
            rcases fibonacci_outcome hC n o2.reach o2.cap with ⟨w, s3, h4, o3⟩ | ⟨⟨s3, h4⟩, h5⟩
            · exact .inl ⟨v + w, s3, bind_ok h4, o2.trans o3⟩
            · exact .inr ⟨⟨s3, bind_throw h4⟩, h5.earlier o2.kind o2.ticks⟩
          · exact .inr ⟨⟨s2, bind_throw h2⟩, h3⟩
        · rcases fibonacci_outcome hC n o1.reach o1.cap with ⟨v, s2, h2, o2⟩ | ⟨⟨s2, h2⟩, h3⟩
          · rw [bind_ok h2]
            rcases fibonacci_outcome hC (n + 1) o2.reach o2.cap with ⟨w, s3, h4, o3⟩ | ⟨⟨s3, h4⟩, h5⟩
            · exact .inl ⟨w + v, s3, bind_ok h4, o2.trans o3⟩
            · exact .inr ⟨⟨s3, bind_throw h4⟩, h5.earlier o2.kind o2.ticks⟩
          · exact .inr ⟨⟨s2, bind_throw h2⟩, h3⟩
      rcases key with ⟨v, s2, h2, o2⟩ | ⟨⟨s2, h2⟩, h3⟩
      · rw [bind_ok h2]
        obtain ⟨r, s3, h4⟩ := o2.reach.completes_calmly hC (.inr rfl : (Op.emplace (n + 2) v).Inserts (n + 2) v) o2.cap
        obtain ⟨a, h5, _⟩ := ret_ok_iff.1 h4
        exact .inl ⟨v, s3, bind_ok h5, (o1.trans o2).trans (.of_returns hC.noListFault o2.reach o2.cap h4)⟩
      · exact .inr ⟨⟨s2, bind_throw h2⟩, h3.earlier o1.kind o1.ticks⟩

/-! ### On a plain cache -/

/-- The keys of the cache, most recently used first. -/
def recents (c : Cache Nat Nat) : List Nat := ((entries c).map Prod.fst).reverse

/-- The keys of a textbook map, most recently used first. -/
def Lru.recents (l : Lru Nat Nat) : List Nat := (l.items.map Prod.fst).reverse

/-- The effect of using a key. -/
def touched (k : Nat) (R : List Nat) : List Nat := k :: R.filter (fun x => decide (x ≠ k))

/-- The effect of storing a new key. -/
def pushed (c k : Nat) (R : List Nat) : List Nat := k :: (if R.length < c then R else R.dropLast)

theorem item_recents {l : Lru Nat Nat} {k : Nat} : (l.item k).isSome = true ↔ k ∈ l.recents := by
  unfold Lru.item Lru.recents
  rw [List.find?_isSome, List.mem_reverse, List.mem_map]
  constructor
  · rintro ⟨x, hx, h⟩; exact ⟨x, hx, nat_keq.1 h⟩
  · rintro ⟨x, hx, rfl⟩; exact ⟨x, hx, nat_keq.2 rfl⟩

theorem item_none {l : Lru Nat Nat} {k : Nat} (h : k ∉ l.recents) : l.item k = none := by
  cases hx : l.item k with
  | none => rfl
  | some x => exact absurd (item_recents.1 (by rw [hx]; rfl)) h

theorem use_recents {l : Lru Nat Nat} {k : Nat} (h : k ∈ l.recents) : (l.act (.use k)).recents = touched k l.recents := by
  obtain ⟨x, hx⟩ := Option.isSome_iff_exists.1 (item_recents.2 h)
  rw [Lru.use_old hx]
  have hk : x.1 = k := nat_keq.1 (Lru.item_keq hx).2
  unfold Lru.recents touched Lru.others
  simp only [List.map_append, List.map_cons, List.map_nil, List.reverse_append, List.reverse_cons, List.reverse_nil,
    List.nil_append, List.singleton_append, hk, List.filter_reverse, List.filter_map]
  congr 3
  refine List.filter_congr fun y _ => ?_
  show (!keq y.1 k) = decide (y.1 ≠ k)
  by_cases hy : y.1 = k
  · rw [nat_keq.2 hy, decide_eq_false (by simpa using hy)]; rfl
  · have : keq y.1 k = false := by
      cases hq : keq y.1 k with
      | false => rfl
      | true => exact absurd (nat_keq.1 hq) hy
    rw [this, decide_eq_true hy]; rfl

theorem put_recents {l : Lru Nat Nat} {c k v : Nat} (hc : l.capacity = some c) (h1 : 1 ≤ c) (h : k ∉ l.recents) :
    (l.act (.put k v)).recents = pushed c k l.recents := by
  obtain ⟨n, rfl⟩ : ∃ n, c = n + 1 := ⟨c - 1, by omega⟩
  rw [Lru.put_new hc (item_none h)]
  unfold Lru.recents pushed
  simp only [List.map_append, List.map_cons, List.map_nil, List.reverse_append, List.reverse_cons, List.reverse_nil,
    List.nil_append, List.singleton_append, List.length_reverse, List.length_map]
  by_cases hl : l.items.length ≤ n
  · rw [if_pos hl, if_pos (by omega)]
  · rw [if_neg hl, if_neg (by omega), List.map_tail, List.dropLast_reverse]

/-- A plain cache whose values are Fibonacci numbers. -/
structure Fibs (O : Oracle Nat Nat) (c : Nat) (s : St (Cache Nat Nat) Nat Nat) : Prop extends Plain O c s where
  holds : (asLru s.c).Holds fibAt

/-- The keys of the cache, most recently used first. -/
abbrev R (s : St (Cache Nat Nat) Nat Nat) : List Nat := (asLru s.c).recents

variable {c n : Nat}

theorem Fibs.len (hC : Calm O) (h : Fibs O c s) : (R s).length ≤ c := by
  unfold R Lru.recents
  rw [List.length_reverse, List.length_map]
  obtain ⟨t, hr, ht⟩ := h.reach.rel hC.noListFault
  have h1 : (asLru s.c).items.length = count s.c := by simp [asLru, entries, count]
  rw [h1, hr.count]
  exact ht.awf.bound c (by rw [← hr.rep.cap]; exact h.cap)

/-- A stored number is read. -/
theorem fibonacci_hit (hC : Calm O) (h : Fibs O c s) (hn : n + 2 ∈ R s) :
    ∃ s', Impl.fibonacci O left (n + 2) s = .ok (fibAt (n + 2)) s' ∧ Fibs O c s' ∧ R s' = touched (n + 2) (R s) ∧ Tallies s s' 0 2 := by
  obtain ⟨s1, h1, f1, l1, t1⟩ := h.toPlain.contains hC (n + 2)
  have hs := item_recents.2 hn
  rw [hs] at h1 t1
  have hl : R s1 = touched (n + 2) (R s) := by unfold R; rw [l1]; exact use_recents hn
  have hm : n + 2 ∈ R s1 := by rw [hl]; exact List.mem_cons_self ..
  have g1 : (asLru s1.c).Holds fibAt := by rw [l1]; exact h.holds.use _
  obtain ⟨x, hx⟩ := Option.isSome_iff_exists.1 (item_recents.2 hm)
  obtain ⟨p, s2, h2, f2, l2, t2⟩ := f1.lookup hC hx
  have hv : x.2 = fibAt (n + 2) := g1.item hx
  refine ⟨s2, ?_, ⟨f2, by rw [l2]; exact g1.use _⟩, ?_, t1.trans t2⟩
  · rw [fibonacci_eq, bind_ok h1]
    simp only [if_true]
    rw [bind_ok h2, hv]
    rfl
  · unfold R
    rw [l2, use_recents hm, show (asLru s1.c).recents = _ from hl]
    unfold touched
    simp [List.filter_filter]

/-- A number that is not stored is computed and stored. -/
theorem fibonacci_miss (hC : Calm O) (h : Fibs O c s) (hn : n + 2 ∉ R s) :
    ∃ s1, Fibs O c s1 ∧ R s1 = R s ∧ Tallies s s1 1 0 ∧
      ∀ s2, fibSum O left n s1 = .ok (fibAt (n + 2)) s2 → Fibs O c s2 →
        ∃ s', Impl.fibonacci O left (n + 2) s = .ok (fibAt (n + 2)) s' ∧ Fibs O c s' ∧ Tallies s2 s' 0 0 ∧
          (1 ≤ c → n + 2 ∉ R s2 → R s' = pushed c (n + 2) (R s2)) := by
  obtain ⟨s1, h1, f1, l1, t1⟩ := h.toPlain.contains hC (n + 2)
  have hx := item_none hn
  rw [hx] at h1 t1
  rw [Lru.use_new hx] at l1
  refine ⟨s1, ⟨f1, by rw [l1]; exact h.holds⟩, by unfold R; rw [l1], t1, fun s2 h2 f2 => ?_⟩
  obtain ⟨r, s', h3, f3, l3, t3⟩ := f2.toPlain.emplace hC (n + 2) (fibAt (n + 2))
  refine ⟨s', ?_, ⟨f3, ?_⟩, t3, fun hc hm => ?_⟩
  · rw [fibonacci_eq, bind_ok h1]
    simp only [Option.isSome_none, Bool.false_eq_true, if_false]
    rw [bind_ok h2, bind_ok h3]
    rfl
  · rw [l3]; exact Lru.Holds.put (fun a b hab => by rw [nat_keq.1 hab]) f2.holds _
  · unfold R
    rw [l3]
    exact put_recents f2.cap hc hm

theorem fibSum_left {a b : Nat} (hl : left s (n + 2) = true) (h1 : Impl.fibonacci O left (n + 1) s = .ok a s1)
    (h2 : Impl.fibonacci O left n s1 = .ok b s2) : fibSum O left n s = .ok (a + b) s2 := by
  unfold fibSum
  rw [if_pos hl, bind_ok h1, bind_ok h2]
  rfl

theorem fibSum_right {a b : Nat} (hl : left s (n + 2) = false) (h1 : Impl.fibonacci O left n s = .ok b s1)
    (h2 : Impl.fibonacci O left (n + 1) s1 = .ok a s2) : fibSum O left n s = .ok (a + b) s2 := by
  unfold fibSum
  rw [if_neg (by rw [hl]; decide), bind_ok h1, bind_ok h2]
  rfl

/-- Whatever the capacity, `fibonacci` returns. -/
theorem fibonacci_total (hC : Calm O) : ∀ n {s : St (Cache Nat Nat) Nat Nat}, Fibs O c s →
    ∃ s', Impl.fibonacci O left n s = .ok (fibAt n) s' ∧ Fibs O c s'
  | 0, s, h => ⟨s, rfl, h⟩
  | 1, s, h => ⟨s, rfl, h⟩
  | n + 2, s, h => by
    by_cases hn : n + 2 ∈ R s
    · obtain ⟨s', h1, h2, _⟩ := fibonacci_hit (left := left) hC h hn
      exact ⟨s', h1, h2⟩
    · obtain ⟨s1, f1, _, _, h2⟩ := fibonacci_miss (left := left) hC h hn
      have key : ∃ s2, fibSum O left n s1 = .ok (fibAt (n + 2)) s2 ∧ Fibs O c s2 := by
        cases hl : left s1 (n + 2) with
        | true =>
          obtain ⟨t1, e1, g1⟩ := fibonacci_total hC (n + 1) f1
          obtain ⟨t2, e2, g2⟩ := fibonacci_total hC n g1
          exact ⟨t2, fibSum_left hl e1 e2, g2⟩
        | false =>
          obtain ⟨t1, e1, g1⟩ := fibonacci_total hC n f1
          obtain ⟨t2, e2, g2⟩ := fibonacci_total hC (n + 1) g1
          exact ⟨t2, fibSum_right hl e1 e2, g2⟩
      obtain ⟨s2, h3, f2⟩ := key
      obtain ⟨s', h4, f4, _⟩ := h2 s2 h3 f2
      exact ⟨s', h4, f4⟩

/-! ### Every number is computed once -/

/-- The number `m` was computed last, and the one before it is still there. -/
def Ready (m : Nat) (R : List Nat) : Prop := ∃ T, R = m :: T ∧ (3 ≤ m → m - 1 ∈ T) ∧ ∀ x ∈ T, x < m

theorem touched_mem {k x : Nat} {R : List Nat} (h : x ∈ R) : x ∈ touched k R := by
  unfold touched
  by_cases hx : x = k
  · rw [hx]; exact List.mem_cons_self ..
  · exact List.mem_cons_of_mem _ (List.mem_filter.2 ⟨h, decide_eq_true hx⟩)

theorem mem_touched {k x : Nat} {R : List Nat} (h : x ∈ touched k R) : x = k ∨ x ∈ R := by
  rcases List.mem_cons.1 h with h | h
  · exact .inl h
  · exact .inr (List.mem_filter.1 h).1

theorem Ready.not_mem {m k : Nat} {R : List Nat} (h : Ready m R) (hk : m < k) : k ∉ R := by
  obtain ⟨T, rfl, _, h3⟩ := h
  intro hm
  rcases List.mem_cons.1 hm with h | h
  · omega
  · exact absurd (h3 k h) (by omega)

theorem Ready.head {m : Nat} {R : List Nat} (h : Ready m R) : m ∈ R := by
  obtain ⟨T, rfl, _, _⟩ := h
  exact List.mem_cons_self ..

theorem Ready.next {m : Nat} {R : List Nat} (h : Ready m R) (hm : 3 ≤ m) : m - 1 ∈ R := by
  obtain ⟨T, rfl, h2, _⟩ := h
  exact List.mem_cons_of_mem _ (h2 hm)

/-- Using the newest number again changes nothing. -/
theorem Ready.touch_self {m : Nat} {R : List Nat} (h : Ready m R) : touched m R = R := by
  obtain ⟨T, rfl, _, h3⟩ := h
  unfold touched
  rw [List.filter_cons_of_neg (by simp)]
  congr 1
  exact List.filter_eq_self.2 fun x hx => decide_eq_true (by have := h3 x hx; omega)

/-- Using the two newest numbers, the newest one last. -/
theorem Ready.touch_both {n : Nat} {R : List Nat} (h : Ready (n + 1) R) : Ready (n + 1) (touched (n + 1) (touched n R)) := by
  obtain ⟨T, rfl, _, h3⟩ := h
  refine ⟨_, rfl, fun _ => ?_, fun x hx => ?_⟩
  · exact List.mem_filter.2 ⟨List.mem_cons_self .., decide_eq_true (by omega)⟩
  · obtain ⟨h4, h5⟩ := List.mem_filter.1 hx
    have h5 := of_decide_eq_true h5
    rcases mem_touched h4 with h6 | h6
    · omega
    · rcases List.mem_cons.1 h6 with h6 | h6
      · omega
      · exact h3 x h6

theorem mem_pushed {c x : Nat} {R : List Nat} (h : x ∈ (if R.length < c then R else R.dropLast)) : x ∈ R := by
  split at h
  · exact h
  · exact (List.dropLast_sublist _).subset h

/-- Storing the next number. -/
theorem Ready.push {c n : Nat} {R : List Nat} (h : Ready (n + 1) R) (hc : 2 ≤ c) : Ready (n + 2) (pushed c (n + 2) R) := by
  obtain ⟨T, rfl, h2, h3⟩ := h
  refine ⟨_, rfl, fun _ => ?_, fun x hx => ?_⟩
  · show n + 1 ∈ _
    split
    · exact List.mem_cons_self ..
    · next hl =>
      cases T with
      | nil => simp at hl; omega
      | cons b T => rw [List.dropLast_cons_cons]; exact List.mem_cons_self ..
  · rcases List.mem_cons.1 (mem_pushed hx) with h | h
    · omega
    · have := h3 x h; omega

/-- Storing the next number after the two newest were used, the older one last. -/
theorem Ready.touch_push {c n : Nat} {R : List Nat} (h : Ready (n + 1) R) (hc : 3 ≤ c) :
    Ready (n + 2) (pushed c (n + 2) (touched n R)) := by
  obtain ⟨T, rfl, h2, h3⟩ := h
  have e : touched n ((n + 1) :: T) = n :: (n + 1) :: T.filter (fun x => decide (x ≠ n)) := by
    unfold touched
    rw [List.filter_cons_of_pos (by simp)]
  rw [e]
  generalize hT : T.filter (fun x => decide (x ≠ n)) = T'
  have h3' : ∀ x ∈ T', x < n + 1 := by
    intro x hx
    rw [← hT] at hx
    exact h3 x (List.mem_filter.1 hx).1
  refine ⟨_, rfl, fun _ => ?_, fun x hx => ?_⟩
  · show n + 1 ∈ _
    split
    · exact List.mem_cons_of_mem _ (List.mem_cons_self ..)
    · next hl =>
      cases T' with
      | nil => simp at hl; omega
      | cons b T => simp
  · rcases List.mem_cons.1 (mem_pushed hx) with h | h
    · omega
    · rcases List.mem_cons.1 h with h | h
      · omega
      · have := h3' x h; omega

/-- The cache is large enough for the order in which the operands are evaluated. -/
def Suits (left : St (Cache Nat Nat) Nat Nat → Nat → Bool) (c : Nat) : Prop := 3 ≤ c ∨ 2 ≤ c ∧ ∀ s n, left s n = false

theorem Suits.two (h : Suits left c) : 2 ≤ c := by rcases h with h | h <;> omega

/-- A small number is returned at once. -/
theorem fibonacci_small (hn : n < 2) (s : St (Cache Nat Nat) Nat Nat) : Impl.fibonacci O left n s = .ok (fibAt n) s := by
  obtain rfl | rfl : n = 0 ∨ n = 1 := by omega
  · rfl
  · rfl

/-- The next number, the two before it being available. -/
theorem fibonacci_next (hC : Calm O) (hc : Suits left c) (h : Fibs O c s) (hr : Ready (n + 2) (R s)) :
    ∃ s', Impl.fibonacci O left (n + 3) s = .ok (fibAt (n + 3)) s' ∧ Fibs O c s' ∧ Ready (n + 3) (R s') ∧
      Tallies s s' 1 (if n = 0 then 2 else 4) := by
  obtain ⟨s1, f1, e1, t1, h1⟩ := fibonacci_miss (left := left) (n := n + 1) hC h (hr.not_mem (by omega))
  rw [← e1] at hr
  -- the two operands
  have key : ∃ s2, fibSum O left (n + 1) s1 = .ok (fibAt (n + 3)) s2 ∧ Fibs O c s2 ∧ n + 3 ∉ R s2 ∧
      Ready (n + 3) (pushed c (n + 3) (R s2)) ∧ Tallies s1 s2 0 (if n = 0 then 2 else 4) := by
    cases n with
    | zero =>
      obtain ⟨s2, h2, f2, e2, t2⟩ := fibonacci_hit (left := left) (n := 0) hC f1 hr.head
      rw [hr.touch_self] at e2
      refine ⟨s2, ?_, f2, by rw [e2]; exact hr.not_mem (by omega), by rw [e2]; exact hr.push hc.two, t2⟩
      cases hl : left s1 (1 + 2) with
      | true => exact fibSum_left hl h2 (fibonacci_small (by omega) _)
      | false => exact fibSum_right hl (fibonacci_small (by omega) _) h2
    | succ n =>
      cases hl : left s1 (n + 1 + 1 + 2) with
      | true =>
        have hc3 : 3 ≤ c := by
          rcases hc with hc | ⟨_, hc⟩
          · exact hc
          · rw [hc] at hl; cases hl
        obtain ⟨s2, h2, f2, e2, t2⟩ := fibonacci_hit (left := left) (n := n + 1) hC f1 hr.head
        rw [hr.touch_self] at e2
        have hr2 := hr
        rw [← e2] at hr2
        obtain ⟨s3, h3, f3, e3, t3⟩ := fibonacci_hit (left := left) (n := n) hC f2 (hr2.next (by omega))
        refine ⟨s3, fibSum_left hl h2 h3, f3, ?_, by rw [e3]; exact hr2.touch_push hc3, t2.trans t3⟩
        rw [e3]
        intro hm
        rcases mem_touched hm with hm | hm
        · omega
        · exact hr2.not_mem (by omega) hm
      | false =>
        obtain ⟨s2, h2, f2, e2, t2⟩ := fibonacci_hit (left := left) (n := n) hC f1 (hr.next (by omega))
        have hm : n + 3 ∈ R s2 := by rw [e2]; exact touched_mem hr.head
        obtain ⟨s3, h3, f3, e3, t3⟩ := fibonacci_hit (left := left) (n := n + 1) hC f2 hm
        have hr3 : Ready (n + 3) (R s3) := by rw [e3, e2]; exact hr.touch_both
        exact ⟨s3, fibSum_right hl h2 h3, f3, hr3.not_mem (by omega), hr3.push hc.two, t2.trans t3⟩
  obtain ⟨s2, h2, f2, hm, hp, t2⟩ := key
  obtain ⟨s', h3, f3, t3, e3⟩ := h1 s2 h2 f2
  refine ⟨s', h3, f3, by rw [e3 (by have := hc.two; omega) hm]; exact hp, ?_⟩
  exact ((t1.trans t2).trans t3).cast (by omega) (by omega)

/-- Beginning with an empty cache. -/
theorem fibonacci_linear (hC : Calm O) (hc : Suits left c) : ∀ n {s : St (Cache Nat Nat) Nat Nat}, Fibs O c s → R s = [] →
    ∃ s', Impl.fibonacci O left (n + 2) s = .ok (fibAt (n + 2)) s' ∧ Fibs O c s' ∧ Ready (n + 2) (R s') ∧
      Tallies s s' (n + 1) (2 * (n - 1))
  | 0, s, h, hr => by
    obtain ⟨s1, f1, e1, t1, h1⟩ := fibonacci_miss (left := left) (n := 0) hC h (by rw [hr]; simp)
    have h2 : fibSum O left 0 s1 = .ok (fibAt 2) s1 := by
      cases hl : left s1 (0 + 2) with
      | true => exact fibSum_left hl (fibonacci_small (by omega) _) (fibonacci_small (by omega) _)
      | false => exact fibSum_right hl (fibonacci_small (by omega) _) (fibonacci_small (by omega) _)
    obtain ⟨s', h3, f3, t3, e3⟩ := h1 s1 h2 f1
    refine ⟨s', h3, f3, ?_, (t1.trans t3).cast rfl rfl⟩
    rw [e3 (by have := hc.two; omega) (by rw [e1, hr]; simp), e1, hr]
    refine ⟨_, rfl, fun h => by omega, fun x hx => ?_⟩
    have := mem_pushed hx
    cases this
  | 1, s, h, hr => by
    obtain ⟨s1, f1, e1, t1, h1⟩ := fibonacci_miss (left := left) (n := 1) hC h (by rw [hr]; simp)
    obtain ⟨s2, h2, f2, r2, t2⟩ := fibonacci_linear hC hc 0 f1 (e1.trans hr)
    have h3 : fibSum O left 1 s1 = .ok (fibAt 3) s2 := by
      cases hl : left s1 (1 + 2) with
      | true => exact fibSum_left hl h2 (fibonacci_small (by omega) _)
      | false => exact fibSum_right hl (fibonacci_small (by omega) _) h2
    obtain ⟨s', h4, f4, t4, e4⟩ := h1 s2 h3 f2
    refine ⟨s', h4, f4, ?_, ((t1.trans t2).trans t4).cast rfl rfl⟩
    rw [e4 (by have := hc.two; omega) (r2.not_mem (by omega))]
    exact r2.push hc.two
  | n + 2, s, h, hr => by
    obtain ⟨s1, f1, e1, t1, h1⟩ := fibonacci_miss (left := left) (n := n + 2) hC h (by rw [hr]; simp)
    have key : ∃ s2, fibSum O left (n + 2) s1 = .ok (fibAt (n + 4)) s2 ∧ Fibs O c s2 ∧ n + 4 ∉ R s2 ∧
        Ready (n + 4) (pushed c (n + 4) (R s2)) ∧ Tallies s1 s2 (n + 2) (2 * (n + 1)) := by
      cases hl : left s1 (n + 2 + 2) with
      | true =>
        have hc3 : 3 ≤ c := by
          rcases hc with hc | ⟨_, hc⟩
          · exact hc
          · rw [hc] at hl; cases hl
        obtain ⟨s2, h2, f2, r2, t2⟩ := fibonacci_linear hC hc (n + 1) f1 (e1.trans hr)
        obtain ⟨s3, h3, f3, e3, t3⟩ := fibonacci_hit (left := left) (n := n) hC f2 (r2.next (by omega))
        refine ⟨s3, fibSum_left hl h2 h3, f3, ?_, by rw [e3]; exact r2.touch_push hc3, (t2.trans t3).cast (by omega) (by omega)⟩
        rw [e3]
        intro hm
        rcases mem_touched hm with hm | hm
        · omega
        · exact r2.not_mem (by omega) hm
      | false =>
        obtain ⟨s2, h2, f2, r2, t2⟩ := fibonacci_linear hC hc n f1 (e1.trans hr)
        obtain ⟨s3, h3, f3, r3, t3⟩ := fibonacci_next (left := left) hC hc f2 r2
        refine ⟨s3, fibSum_right hl h2 h3, f3, r3.not_mem (by omega), r3.push hc.two, (t2.trans t3).cast (by omega) ?_⟩
        split <;> omega
    obtain ⟨s2, h2, f2, hm, hp, t2⟩ := key
    obtain ⟨s', h3, f3, t3, e3⟩ := h1 s2 h2 f2
    refine ⟨s', h3, f3, by rw [e3 (by have := hc.two; omega) hm]; exact hp, ?_⟩
    exact ((t1.trans t2).trans t3).cast (by omega) (by omega)

/-! ### With two places, and the left operand first, it takes exponentially many computations -/

/-- How often `fibonacci` does not find a number. -/
def slow : Nat → Nat
  | 0 => 0
  | 1 => 0
  | 2 => 1
  | 3 => 2
  | 4 => 3
  | n + 5 => slow (n + 4) + slow (n + 1) + 2

theorem slow_mono : ∀ n, slow n ≤ slow (n + 1)
  | 0 => by decide
  | 1 => by decide
  | 2 => by decide
  | 3 => by decide
  | n + 4 => by rw [slow]; omega

theorem slow_double (n : Nat) : 2 * slow (n + 1) + 2 ≤ slow (n + 5) := by
  have h1 := slow_mono (n + 1)
  have h2 := slow_mono (n + 2)
  have h3 := slow_mono (n + 3)
  rw [slow]
  simp only [Nat.add_assoc, Nat.reduceAdd] at h1 h2 h3 ⊢
  omega

theorem slow_exponential : ∀ n, 2 ≤ n → 2 ^ (n / 4) ≤ slow n
  | 0, h => by omega
  | 1, h => by omega
  | 2, _ => by decide
  | 3, _ => by decide
  | 4, _ => by decide
  | 5, _ => by decide
  | n + 6, _ => by
    have h1 := slow_exponential (n + 2) (by omega)
    have h2 := slow_double (n + 1)
    rw [show (n + 6) / 4 = (n + 2) / 4 + 1 by omega, Nat.pow_succ]
    simp only [Nat.add_assoc, Nat.reduceAdd] at h1 h2 ⊢
    omega

theorem pushed_twice {a b : Nat} {R : List Nat} (h : R.length ≤ 2) : pushed 2 b (pushed 2 a R) = [b, a] := by
  match R, h with
  | [], _ => rfl
  | [_], _ => rfl
  | [_, _], _ => rfl

theorem pushed_len {a : Nat} {R : List Nat} (h : R.length ≤ 2) : (pushed 2 a R).length ≤ 2 := by
  match R, h with
  | [], _ => exact Nat.le_succ 1
  | [_], _ => exact Nat.le_refl 2
  | [_, _], _ => exact Nat.le_refl 2

/-- No stored number is of use. -/
theorem fibonacci_exponential (hC : Calm O) (hl : ∀ s n, left s n = true) : ∀ n {s : St (Cache Nat Nat) Nat Nat},
    Fibs O 2 s → (∀ x ∈ R s, n < x) →
    ∃ s', Impl.fibonacci O left n s = .ok (fibAt n) s' ∧ Fibs O 2 s' ∧ (∃ h, Tallies s s' (slow n) h) ∧
      (∀ x ∈ R s', x ≤ n ∨ x ∈ R s) ∧ (n = 3 → R s' = [3, 2]) ∧ (4 ≤ n → R s' = [n, n - 2])
  | 0, s, h, _ => ⟨s, rfl, h, ⟨0, .refl⟩, fun _ hx => .inr hx, by omega, by omega⟩
  | 1, s, h, _ => ⟨s, rfl, h, ⟨0, .refl⟩, fun _ hx => .inr hx, by omega, by omega⟩
  | 2, s, h, hr => by
    obtain ⟨s1, f1, e1, t1, h1⟩ := fibonacci_miss (left := left) (n := 0) hC h (fun hm => absurd (hr _ hm) (by omega))
    have h2 : fibSum O left 0 s1 = .ok (fibAt 2) s1 :=
      fibSum_left (hl _ _) (fibonacci_small (by omega) _) (fibonacci_small (by omega) _)
    obtain ⟨s', h3, f3, t3, e3⟩ := h1 s1 h2 f1
    refine ⟨s', h3, f3, ⟨_, (t1.trans t3).cast rfl rfl⟩, ?_, by omega, by omega⟩
    rw [e3 (by omega) (by rw [e1]; exact fun hm => absurd (hr _ hm) (by omega)), e1]
    intro x hx
    rcases List.mem_cons.1 hx with hx | hx
    · exact .inl (by omega)
    · exact .inr (mem_pushed hx)
  | 3, s, h, hr => by
    obtain ⟨s1, f1, e1, t1, h1⟩ := fibonacci_miss (left := left) (n := 1) hC h (fun hm => absurd (hr _ hm) (by omega))
    have hr1 : ∀ x ∈ R s1, 3 < x := by rw [e1]; exact hr
    -- the computation of the second number
    obtain ⟨s2, f2, e2, t2, h2⟩ := fibonacci_miss (left := left) (n := 0) hC f1 (fun hm => absurd (hr1 _ hm) (by omega))
    obtain ⟨s3, h3, f3, t3, e3⟩ := h2 s2
      (fibSum_left (hl _ _) (fibonacci_small (by omega) _) (fibonacci_small (by omega) _)) f2
    have e3 := e3 (by omega) (by rw [e2]; exact fun hm => absurd (hr1 _ hm) (by omega))
    obtain ⟨s', h4, f4, t4, e4⟩ := h1 s3 (fibSum_left (hl _ _) h3 (fibonacci_small (by omega) _)) f3
    have hm3 : 3 ∉ R s3 := by
      rw [e3]
      intro hm
      rcases List.mem_cons.1 hm with hm | hm
      · omega
      · have := mem_pushed hm
        rw [e2] at this
        exact absurd (hr1 _ this) (by omega)
    have e5 : R s' = [3, 2] := by
      rw [e4 (by omega) hm3, e3]
      exact pushed_twice (f2.len hC)
    refine ⟨s', h4, f4, ⟨_, (((t1.trans t2).trans t3).trans t4).cast rfl rfl⟩, ?_, fun _ => e5, by omega⟩
    rw [e5]
    intro x hx
    simp at hx
    omega
  | 4, s, h, hr => by
    obtain ⟨s1, f1, e1, t1, h1⟩ := fibonacci_miss (left := left) (n := 2) hC h (fun hm => absurd (hr _ hm) (by omega))
    have hr1 : ∀ x ∈ R s1, 3 < x := by rw [e1]; exact fun x hx => by have := hr x hx; omega
    obtain ⟨s2, h2, f2, ⟨k2, t2⟩, _, e2, _⟩ := fibonacci_exponential hC hl 3 f1 hr1
    have e2 := e2 rfl
    obtain ⟨s3, h3, f3, e3, t3⟩ := fibonacci_hit (left := left) (n := 0) hC f2 (by rw [e2]; simp)
    rw [e2] at e3
    have e3 : R s3 = [2, 3] := e3
    obtain ⟨s', h4, f4, t4, e4⟩ := h1 s3 (fibSum_left (hl _ _) h2 h3) f3
    have e5 : R s' = [4, 2] := by
      rw [e4 (by omega) (by rw [e3]; simp), e3]
      rfl
    refine ⟨s', h4, f4, ⟨_, (((t1.trans t2).trans t3).trans t4).cast rfl rfl⟩, ?_, by omega, fun _ => e5⟩
    rw [e5]
    intro x hx
    simp at hx
    omega
  | n + 5, s, h, hr => by
    obtain ⟨s1, f1, e1, t1, h1⟩ := fibonacci_miss (left := left) (n := n + 3) hC h (fun hm => absurd (hr _ hm) (by omega))
    have hr1 : ∀ x ∈ R s1, n + 4 < x := by rw [e1]; exact fun x hx => by have := hr x hx; omega
    -- the left operand
    obtain ⟨s2, h2, f2, ⟨k2, t2⟩, _, _, e2⟩ := fibonacci_exponential hC hl (n + 4) f1 hr1
    have e2 : R s2 = [n + 4, n + 2] := e2 (by omega)
    -- the right operand was lost
    obtain ⟨s3, f3, e3, t3, h3⟩ := fibonacci_miss (left := left) (n := n + 1) hC f2 (by rw [e2]; simp)
    obtain ⟨s4, h4, f4, e4, t4⟩ := fibonacci_hit (left := left) (n := n) hC f3 (by rw [e3, e2]; simp)
    have e4 : R s4 = [n + 2, n + 4] := by
      rw [e4, e3, e2]
      simp [touched]
    obtain ⟨s5, h5, f5, ⟨k5, t5⟩, e5, _⟩ := fibonacci_exponential hC hl (n + 1) f4 (by
      rw [e4]
      intro x hx
      simp at hx
      omega)
    obtain ⟨s6, h6, f6, t6, e6⟩ := h3 s5 (fibSum_left (hl _ _) h4 h5) f5
    have m5 : ∀ x ∈ R s5, x ≤ n + 2 ∨ x = n + 4 := by
      intro x hx
      rcases e5 x hx with h | h
      · omega
      · rw [e4] at h
        simp at h
        omega
    have e6 := e6 (by omega) (fun hm => by have := m5 _ hm; omega)
    obtain ⟨s', h7, f7, t7, e7⟩ := h1 s6 (fibSum_left (hl _ _) h2 h6) f6
    have e8 : R s' = [n + 5, n + 3] := by
      rw [e7 (by omega) ?_, e6]
      · exact pushed_twice (f5.len hC)
      · rw [e6]
        intro hm
        rcases List.mem_cons.1 hm with hm | hm
        · omega
        · have := m5 _ (mem_pushed hm)
          omega
    refine ⟨s', h7, f7, ⟨_, ((((((t1.trans t2).trans t3).trans t4).trans t5).trans t6).trans t7).cast ?_ rfl⟩, ?_, by omega, fun _ => e8⟩
    · rw [slow]; omega
    · rw [e8]
      intro x hx
      simp at hx
      omega

end fibonacci

end LRU
