import Verif.Spec.Machine
import Verif.Props.Ranges
import Verif.Props.Erase
import Verif.Props.Lookup
import Verif.Props.Insert
import Verif.Props.Exceptions
import Verif.Proofs.Minds
/-!
# Answers: lemmas for `Props.Machine`
-/

set_option linter.unusedSectionVars false
set_option autoImplicit false

namespace LRU

variable {K V : Type} [KeyEqual K] [DecidableEq K] [DecidableEq V] {O : Oracle K V} {s s' : St (Cache K V) K V}
  {op : Op K V} {r : Res K V} {k : K} {v : V}

/-- The call answers like the textbook, and leaves the textbook's contents behind. -/
def AnswersLike (O : Oracle K V) (op : Op K V) (s : St (Cache K V) K V) : Prop :=
  (Impl.step O op s).ans = some ((asLru s.c).reply op).1 ∧
    match Impl.step O op s with
    | .ok _ s' | .throw _ s' => asLru s'.c = ((asLru s.c).reply op).2
    | .terminate => True
    | .ub | .diverge => False

theorem AnswersLike.returns (h : Returns O op s r s') (h1 : r.ans s'.c = some ((asLru s.c).reply op).1)
    (h2 : asLru s'.c = ((asLru s.c).reply op).2) : AnswersLike O op s := by
  unfold AnswersLike
  rw [show Impl.step O op s = _ from h]
  exact ⟨h1, h2⟩

theorem itemAt_mem (hO : NoListFault O) (h : Reachable O s) {x : MapNode K V} (hx : x ∈ elements s.c) :
    itemAt s.c (some x.addr) = some x.pair := by
  obtain ⟨t, hr, ht⟩ := h.rel hO
  have : (elements s.c).find? (fun n => n.addr == x.addr) = some x := by
    refine find?_of_unique hx (by simp) ?_
    rw [hr.elements] at hx ⊢
    intro y hy hxy
    obtain ⟨e, he, rfl⟩ := List.mem_map.1 hx
    obtain ⟨f, hf, rfl⟩ := List.mem_map.1 hy
    rw [map_inj_of_nodup ht.awf.ids f hf e he (beq_iff_eq.1 hxy)]
  simp [itemAt, this]

theorem Lru.storeAll_run (l : Lru K V) (r : List (K × V)) :
    (l.storeAll r).2 = l.run (r.map fun p => .put p.1 p.2) := by
  induction r generalizing l with
  | nil => rfl
  | cons p r ih => exact ih _

theorem Lru.put_capacity (l : Lru K V) (k : K) (v : V) : (l.act (.put k v)).capacity = l.capacity := by
  unfold Lru.act
  simp only
  split
  · rfl
  · rfl
  · split <;> rfl

/-! ### Insertions -/

theorem insert_answers (hC : Calm O) (h : Reachable O s) (hi : op.Inserts k v) (hd : Returns O op s r s') :
    (∃ p, r = .inserted (decide ((asLru s.c).limit ≠ 0 ∧ (asLru s.c).item k = none)) p) ∧
      r.ans s'.c = some ((asLru s.c).storing k v) ∧ asLru s'.c = (asLru s.c).act (.put k v) := by
  have hO := hC.noListFault
  have h' := h.after hO hd
  have hl : asLru s'.c = (asLru s.c).act (.put k v) := by
    have := call_returns_refines hO hC.noAssignFault h hd
    rcases hi with rfl | rfl <;> exact this
  obtain ⟨t, t', b, p, hr, ht, ho, hr', rfl⟩ := h.inserts hO hi hd
  have hit := lru_item t.c k
  rw [← hr.lru] at hit
  have hlim : (asLru s.c).limit = t.c.cap.getD 0 := by rw [hr.lru]; rfl
  have hat : ∀ e ∈ t'.c.ents, itemAt s'.c (some e.id) = some (e.key, e.val) := fun e he =>
    itemAt_mem hO h' (x := e.node) (by rw [hr'.elements]; exact List.mem_map_of_mem he)
  cases ho with
  | zero hc =>
    rw [hc] at hlim
    refine ⟨⟨none, ?_⟩, ?_, hl⟩
    · rw [hlim]; rfl
    · unfold Lru.storing
      rw [if_pos (show _ = 0 from hlim)]
      rfl
  | full g' e r n hf hc he hn =>
    rw [hc] at hlim; rw [hf] at hit
    refine ⟨⟨some t.g.next, ?_⟩, ?_, hl⟩
    · simp [hlim, hit]
    · unfold Lru.storing
      rw [if_neg (by rw [hlim]; simp), hit]
      have := hat ⟨t.g.next, e.slot, k, v, t.c.kind.stamp (O.clock t.g.ticks), some e.slot⟩ (by simp)
      exact congrArg (fun x => some (Ans.stored true x)) this
  | room g' n q hf hc hn =>
    rw [hc] at hlim; rw [hf] at hit
    refine ⟨⟨some t.g.next, ?_⟩, ?_, hl⟩
    · simp only [hlim, hit]
      have : (some n).getD 0 ≠ 0 := by simp only [Option.getD_some]; omega
      simp only [this, Option.map_none, ne_eq, not_false_eq_true, true_and, decide_true]
    · unfold Lru.storing
      rw [if_neg (by rw [hlim]; simp only [Option.getD_some]; omega), hit]
      have := hat ⟨t.g.next, q, k, v, t.c.kind.stamp (O.clock t.g.ticks), some q⟩ (by simp)
      exact congrArg (fun x => some (Ans.stored true x)) this
  | update g' e n hf hc =>
    rw [hc] at hlim; rw [hf] at hit
    refine ⟨⟨some e.id, ?_⟩, ?_, hl⟩
    · simp [hit]
    · unfold Lru.storing
      rw [if_neg (by rw [hlim]; simp), hit]
      have := hat { e with val := v } (by simp)
      exact congrArg (fun x => some (Ans.stored false x)) this

theorem Reachable.completes_calmly (hC : Calm O) (h : Reachable O s) (hi : op.Inserts k v) (hc : s.c.capacity ≠ none) :
    ∃ r s', Returns O op s r s' := by
  have hO := hC.noListFault
  have h1 : Completes (Impl.step O op s) := by
    refine C33_calls_complete hO h ?_ ?_
    · rcases hi with rfl | rfl <;> exact hc
    · rcases hi with rfl | rfl <;> (rintro ⟨h | h, _⟩ <;> cases h)
  rcases h1 with ⟨r, s', h1⟩ | ⟨e, s', h1⟩
  · exact ⟨r, s', h1⟩
  · obtain ⟨t, t', hr, ht, ho, hr'⟩ := h.inserts_throw hO hi h1
    obtain ⟨_, _, h2, _⟩ := ho.calm hC (by rw [← hr.rep.cap]; exact hc)
    cases h2

theorem OneByOne.answers {ins : K → V → Op K V} (hins : ∀ k v, (ins k v).Inserts k v) (hC : Calm O) {l : List (K × V)}
    {res : Except Err Nat} (h1 : OneByOne O ins l s res s') (h : Reachable O s) (n : Nat) (hn : res = .ok n) :
    n = ((asLru s.c).storeAll l).1 ∧ asLru s'.c = ((asLru s.c).storeAll l).2 := by
  induction h1 generalizing n with
  | nil s => cases hn; exact ⟨rfl, rfl⟩
  | new hd _ ih =>
    obtain ⟨⟨p, h2⟩, _, h3⟩ := insert_answers hC h (hins _ _) hd
    obtain ⟨h4, h5⟩ := ih (h.after hC.noListFault hd) _ rfl
    cases hn
    injection h2 with h2
    have h2 := of_decide_eq_true h2.symm
    rw [h3] at h4 h5
    refine ⟨?_, h5⟩
    unfold Lru.storeAll
    simp only [if_pos h2, ← h4]
  | old hd _ ih =>
    obtain ⟨⟨p, h2⟩, _, h3⟩ := insert_answers hC h (hins _ _) hd
    obtain ⟨h4, h5⟩ := ih (h.after hC.noListFault hd) _ rfl
    cases hn
    injection h2 with h2
    have h2 := of_decide_eq_false h2.symm
    rw [h3] at h4 h5
    refine ⟨?_, h5⟩
    unfold Lru.storeAll
    simp only [if_neg h2, ← h4, Nat.add_zero]
  | later => cases hn
  | now => cases hn

theorem range_faithful (hC : Calm O) (h : Reachable O s) (hc : s.c.capacity ≠ none) (l : List (K × V)) :
    AnswersLike O (.insertRange l) s ∧ AnswersLike O (.insertRangeMove l) s := by
  have hO := hC.noListFault
  obtain ⟨t, hr, ht⟩ := h.rel hO
  rw [hr.rep.cap] at hc
  constructor
  · obtain ⟨n, t', h1⟩ := insertRange_calm hC l ht hc
    obtain ⟨s', h2, _⟩ := hr.back_ok (op := .insertRange l) hO (bind_ok h1)
    have h3 := (C30_range_insertion (e := .badAlloc)).1.1 h2
    obtain ⟨h4, h5⟩ := h3.answers (fun _ _ => .inl rfl) hC h n rfl
    exact .returns h2 (by rw [h4]; rfl) h5
  · obtain ⟨n, t', h1⟩ := insertRangeMove_calm hC l ht hc
    obtain ⟨s', h2, _⟩ := hr.back_ok (op := .insertRangeMove l) hO (bind_ok h1)
    have h3 := (C30_moving_range_insertion (e := .badAlloc)).1.1 h2
    obtain ⟨h4, h5⟩ := h3.answers (fun _ _ => .inr rfl) hC h n rfl
    exact .returns h2 (by rw [h4]; rfl) h5

/-! ### Accesses -/

theorem access_faithful (hC : Calm O) (h : Reachable O s) (hb : s.c.kind = .basic) (ha : op.Accesses k) :
    AnswersLike O op s := by
  have hO := hC.noListFault
  obtain ⟨h1, h2⟩ := C16_access_outcome hO hC.noCallbackFault h hb k
  have hit := asLru_item s.c k
  cases he : entryFor s.c k with
  | some x =>
    rw [he] at hit
    have hu : (asLru s.c).act (.use k) = (asLru s.c).run [.use k] := rfl
    obtain ⟨⟨s1, hd1⟩, ⟨s2, hd2⟩, ⟨s3, hd3⟩⟩ := h1 x he
    rcases ha with rfl | rfl | rfl
    · refine .returns hd1 ?_ ?_
      · show _ = some (Ans.bool ((asLru s.c).item k).isSome)
        rw [hit]; rfl
      · exact call_returns_refines hO hC.noAssignFault h hd1
    · refine .returns hd2 ?_ ?_
      · show some (Ans.item (itemAt s2.c (some x.addr))) = some (Ans.item ((asLru s.c).item k))
        rw [hit]
        obtain ⟨y, hy, _, hel, _⟩ := C07_hit_moves_entry_to_most_recent hO hC.noAssignFault h (.inr (.inl rfl)) hd2
          (by rintro (h | h) <;> cases h)
        rw [he] at hy; cases hy
        rw [itemAt_mem hO (h.after hO hd2) (by rw [hel]; simp)]
        rfl
      · exact call_returns_refines hO hC.noAssignFault h hd2
    · refine .returns hd3 ?_ ?_
      · show _ = some (match (asLru s.c).item k with | some x => Ans.value x.2 | none => Ans.notFound)
        rw [hit]; rfl
      · exact call_returns_refines hO hC.noAssignFault h hd3
  | none =>
    rw [he] at hit
    have hu : (asLru s.c).act (.use k) = asLru s.c := Lru.use_new hit
    obtain ⟨⟨s1, hd1⟩, ⟨s2, hd2⟩, ⟨s3, hd3⟩⟩ := h2 he
    rcases ha with rfl | rfl | rfl
    · refine .returns hd1 ?_ ?_
      · show _ = some (Ans.bool ((asLru s.c).item k).isSome)
        rw [hit]; rfl
      · exact (call_returns_refines hO hC.noAssignFault h hd1).trans hu.symm
    · refine .returns hd2 ?_ ?_
      · show _ = some (Ans.item ((asLru s.c).item k))
        rw [hit]; rfl
      · exact (call_returns_refines hO hC.noAssignFault h hd2).trans hu.symm
    · unfold AnswersLike
      rw [show Impl.step O (.lookup k) s = _ from hd3]
      refine ⟨?_, ?_⟩
      · show _ = some (match (asLru s.c).item k with | some x => Ans.value x.2 | none => Ans.notFound)
        rw [hit]; rfl
      · obtain ⟨m, hm⟩ := call_throws_refines hO hC.noAssignFault h hd3
        unfold Op.undone at hm
        simp only [hb, if_true, List.take_nil] at hm
        exact hm.trans hu.symm

/-! ### All calls -/

theorem call_faithful (hC : Calm O) (h : Reachable O s) (hb : s.c.kind = .basic) (hc : s.c.capacity ≠ none)
    (hop : op.byKey = true) : AnswersLike O op s := by
  have hO := hC.noListFault
  obtain ⟨n, hn⟩ := Option.ne_none_iff_exists'.1 hc
  have hcount : count s.c = (asLru s.c).items.length := by simp [count, asLru, entries]
  have hlim : (asLru s.c).limit = n := by simp [asLru, Lru.limit, hn]
  have refine' := fun {op r s'} (hd : Returns O op s r s') => call_returns_refines hO hC.noAssignFault h hd
  obtain ⟨free, hfree, hsize, hcap, hspace, hempty, hfull⟩ := C15_size_arithmetic hO h hn
  cases op <;> first | cases hop | skip
  case contains k => exact access_faithful hC h hb (.inl rfl)
  case find k => exact access_faithful hC h hb (.inr (.inl rfl))
  case lookup k => exact access_faithful hC h hb (.inr (.inr rfl))
  case insert k v =>
    obtain ⟨r, s', hd⟩ := h.completes_calmly hC (op := .insert k v) (.inl rfl) hc
    obtain ⟨_, h2, h3⟩ := insert_answers hC h (.inl rfl) hd
    exact .returns hd h2 h3
  case emplace k v =>
    obtain ⟨r, s', hd⟩ := h.completes_calmly hC (op := .emplace k v) (.inr rfl) hc
    obtain ⟨_, h2, h3⟩ := insert_answers hC h (.inr rfl) hd
    exact .returns hd h2 h3
  case insertRange l => exact (range_faithful hC h hc l).1
  case insertRangeMove l => exact (range_faithful hC h hc l).2
  case assignRange l =>
    obtain ⟨t, hr, ht⟩ := h.rel hO
    obtain ⟨s', hd⟩ := assign_calm hC l hr ht (op := .assignRange l) (.inl rfl) (by rw [← hr.rep.cap]; exact hc)
    refine .returns hd rfl ((refine' hd).trans (Lru.storeAll_run _ _).symm)
  case assignRangeMove l =>
    obtain ⟨t, hr, ht⟩ := h.rel hO
    obtain ⟨s', hd⟩ := assign_calm hC l hr ht (op := .assignRangeMove l) (.inr rfl) (by rw [← hr.rep.cap]; exact hc)
    refine .returns hd rfl ((refine' hd).trans (Lru.storeAll_run _ _).symm)
  case erase k =>
    obtain ⟨b, s', hd, h1, _⟩ := C09_erase_key hO h k
    refine .returns hd ?_ (refine' hd)
    show some (Ans.bool b) = some (Ans.bool ((asLru s.c).item k).isSome)
    rw [asLru_item]
    congr 2
    rw [Bool.eq_iff_iff, h1]
    unfold Stored entryFor
    rw [Option.isSome_map, List.find?_isSome]
  case clear => exact .returns (C10_clear_makes_fresh hn) rfl (refine' (C10_clear_makes_fresh hn))
  case shrink m =>
    obtain ⟨s', hd, _⟩ := C11_shrink_keeps_most_recent hO h m
    exact .returns hd rfl (refine' hd)
  case setCapacity m =>
    obtain ⟨s', hd, _⟩ := C12_capacity_keeps_most_recent hO h m
    exact .returns hd rfl (refine' hd)
  case size => exact .returns hsize (by rw [hcount]; rfl) rfl
  case capacity => exact .returns hcap (by rw [← hlim]; rfl) rfl
  case spaceLeft =>
    refine .returns hspace ?_ rfl
    show some (Ans.nat free) = some (Ans.nat ((asLru s.c).limit - (asLru s.c).items.length))
    rw [hlim, ← hcount]
    congr 2
    omega
  case isEmpty =>
    refine .returns hempty ?_ rfl
    show some (Ans.bool _) = some (Ans.bool (asLru s.c).items.isEmpty)
    congr 2
    rw [Bool.eq_iff_iff, List.isEmpty_iff, decide_eq_true_iff]
    simp [asLru, entries]
  case isFull =>
    refine .returns hfull ?_ rfl
    show some (Ans.bool _) = some (Ans.bool ((asLru s.c).items.length == (asLru s.c).limit))
    congr 2
    rw [Bool.eq_iff_iff, decide_eq_true_iff, beq_iff_eq, hlim, ← hcount]
    omega
  case front =>
    by_cases he : elements s.c = []
    · unfold AnswersLike
      rw [(C14_empty_cache_terminates hO h he).1]
      refine ⟨?_, trivial⟩
      simp [Out.ans, Lru.reply, asLru, entries, he]
    · obtain ⟨a, b, s1, s2, h1, h2, h3, h4, h5, _⟩ := C14_front_back_partial hO h he
      refine .returns h3 ?_ (asLru_eq h5.elements h5.capacity)
      simp [Res.ans, Lru.reply, asLru, entries, h1, MapNode.pair]
  case back =>
    by_cases he : elements s.c = []
    · unfold AnswersLike
      rw [(C14_empty_cache_terminates hO h he).2]
      refine ⟨?_, trivial⟩
      simp [Out.ans, Lru.reply, asLru, entries, he]
    · obtain ⟨a, b, s1, s2, h1, h2, h3, h4, h5, h6, _⟩ := C14_front_back_partial hO h he
      refine .returns h4 ?_ (asLru_eq h6.elements h6.capacity)
      simp [Res.ans, Lru.reply, asLru, entries, h2, MapNode.pair]

theorem Lru.storeAll_capacity (l : Lru K V) (r : List (K × V)) : (l.storeAll r).2.capacity = l.capacity := by
  induction r generalizing l with
  | nil => rfl
  | cons p r ih => exact (ih _).trans (l.put_capacity _ _)

/-- Every call leaves a map with a capacity. -/
theorem Lru.reply_capacity {l : Lru K V} (h : l.capacity ≠ none) (op : Op K V) : (l.reply op).2.capacity ≠ none := by
  have hu : ∀ k, (l.act (.use k)).capacity ≠ none := fun k => by
    unfold Lru.act
    simp only
    split <;> exact h
  cases op <;> first
    | exact h
    | exact hu _
    | exact fun h' => h ((l.put_capacity _ _).symm.trans h')
    | exact fun h' => h ((l.storeAll_capacity _).symm.trans h')
    | (intro h'; cases h')
    | skip
  all_goals
    intro h'
    have h' := (Lru.storeAll_capacity _ _).symm.trans h'
    unfold Lru.act at h'
    simp only at h'
    split at h'
    · next h'' => exact h h''
    · cases h'

theorem Res.ans_ne_terminated (c : Cache K V) (r : Res K V) : r.ans c ≠ some .terminated := by
  cases r <;> try (intro h; cases h)
  case optNat n => cases n <;> (intro h; cases h)

theorem Lru.replies_cons {l : Lru K V} {op : Op K V} (h : (l.reply op).1 ≠ .terminated) (ops : List (Op K V)) :
    l.replies (op :: ops) = (l.reply op).1 :: (l.reply op).2.replies ops := by
  rw [Lru.replies]
  split
  · next h' => exact absurd h' h
  · rfl

theorem Lru.replies_stop {l : Lru K V} {op : Op K V} (h : (l.reply op).1 = .terminated) (ops : List (Op K V)) :
    l.replies (op :: ops) = [.terminated] := by
  rw [Lru.replies, h]

theorem answers_eq (hC : Calm O) (ops : List (Op K V)) (h : Reachable O s) (hb : s.c.kind = .basic)
    (hc : s.c.capacity ≠ none) (hops : ∀ op ∈ ops, op.byKey = true) :
    answers O s ops = ((asLru s.c).replies ops).map some := by
  induction ops generalizing s with
  | nil => rfl
  | cons op ops ih =>
    obtain ⟨h1, h2⟩ := call_faithful hC h hb hc (hops op (by simp))
    have hops' := fun op' (ho : op' ∈ ops) => hops op' (by simp [ho])
    rw [answers]
    cases hs : Impl.step O op s with
    | ok r s' =>
      rw [hs] at h1 h2
      have h3 : ((asLru s.c).reply op).1 ≠ .terminated := fun h4 => by
        rw [h4] at h1; exact Res.ans_ne_terminated _ _ h1
      rw [Lru.replies_cons h3, List.map_cons, h1]
      have h5 := ih (h.after hC.noListFault hs) ((performs_kind (res := .ok r) hs).trans hb)
        (by have := Lru.reply_capacity (l := asLru s.c) hc op
            rw [← show asLru s'.c = _ from h2] at this
            exact this) hops'
      rw [show asLru s'.c = _ from h2] at h5
      exact congrArg (List.cons _) h5
    | throw e s' =>
      rw [hs] at h1 h2
      have h3 : ((asLru s.c).reply op).1 ≠ .terminated := fun h4 => by
        rw [h4] at h1; cases e <;> cases h1
      rw [Lru.replies_cons h3, List.map_cons, h1]
      have h5 := ih (h.afterThrow hC.noListFault hs) ((performs_kind (res := .error e) hs).trans hb)
        (by have := Lru.reply_capacity (l := asLru s.c) hc op
            rw [← show asLru s'.c = _ from h2] at this
            exact this) hops'
      rw [show asLru s'.c = _ from h2] at h5
      exact congrArg (List.cons _) h5
    | terminate =>
      rw [hs] at h1
      have h3 : ((asLru s.c).reply op).1 = .terminated := by injection h1 with h1; exact h1.symm
      rw [Lru.replies_stop h3]
      rfl
    | ub => rw [hs] at h2; exact h2.elim
    | diverge => rw [hs] at h2; exact h2.elim

/-! ### What the answers determine -/

theorem map_some_injective {α : Type} {a b : List α} (h : a.map some = b.map some) : a = b := by
  have h' := congrArg (List.filterMap id) h
  simpa [List.filterMap_map] using h'

theorem item_of_mem {l : Lru K V} (hd : l.items.Pairwise (fun a b => keq a.1 b.1 = false)) {x : K × V} (hx : x ∈ l.items) :
    l.item x.1 = some x := by
  unfold Lru.item
  generalize l.items = items at hd hx
  induction items with
  | nil => cases hx
  | cons a items ih =>
    rw [List.pairwise_cons] at hd
    rcases List.mem_cons.1 hx with rfl | hx
    · exact List.find?_cons_of_pos (p := fun y : K × V => keq y.1 x.1) (KeyEqual.refl _)
    · rw [List.find?_cons_of_neg (by rw [hd.1 x hx]; simp)]
      exact ih hd.2 hx

theorem Lru.replies_back (l : Lru K V) (i : Nat) :
    l.replies [.shrink (l.items.length - i), .back] = [.unit, match l.items[i]? with | some x => .key x.1 | none => .terminated] := by
  rw [Lru.replies_cons (by intro h; cases h)]
  have h1 : (l.reply (.shrink (l.items.length - i))).2.items.head? = l.items[i]? := by
    show (l.items.drop (l.items.length - (l.items.length - i))).head? = _
    rw [List.head?_drop]
    by_cases hi : i ≤ l.items.length
    · congr 1; omega
    · rw [List.getElem?_eq_none (by omega), List.getElem?_eq_none (by omega)]
  have h2 : ((l.reply (.shrink (l.items.length - i))).2.reply .back).1 =
      match l.items[i]? with | some x => .key x.1 | none => .terminated := by
    show (match (l.reply (.shrink (l.items.length - i))).2.items.head? with | some x => Ans.key x.1 | none => .terminated) = _
    rw [h1]
  congr 1
  cases hx : l.items[i]? with
  | none =>
    rw [hx] at h2
    exact Lru.replies_stop h2 []
  | some x =>
    rw [hx] at h2
    rw [Lru.replies_cons (by rw [h2]; intro h; cases h), h2]
    rfl

theorem Lru.eq_of_replies {l m : Lru K V} (hl : l.capacity ≠ none) (hm : m.capacity ≠ none)
    (dl : l.items.Pairwise (fun a b => keq a.1 b.1 = false)) (dm : m.items.Pairwise (fun a b => keq a.1 b.1 = false))
    (h : ∀ ops : List (Op K V), (∀ op ∈ ops, op.byKey = true) → l.replies ops = m.replies ops) : l = m := by
  have hcap : l.capacity = m.capacity := by
    have h1 := h [.capacity] (by simp [Op.byKey])
    rw [Lru.replies_cons (by intro h; cases h), Lru.replies_cons (by intro h; cases h)] at h1
    injection h1 with h1
    injection h1 with h1
    obtain ⟨a, ha⟩ := Option.ne_none_iff_exists'.1 hl
    obtain ⟨b, hb⟩ := Option.ne_none_iff_exists'.1 hm
    simp only [Lru.limit, ha, hb, Option.getD_some] at h1
    rw [ha, hb, h1]
  have hlen : l.items.length = m.items.length := by
    have h1 := h [.size] (by simp [Op.byKey])
    rw [Lru.replies_cons (by intro h; cases h), Lru.replies_cons (by intro h; cases h)] at h1
    injection h1 with h1
    injection h1 with h1
  have hitems : l.items = m.items := by
    apply List.ext_getElem? 
    intro i
    have h1 := h [.shrink (l.items.length - i), .back] (by simp [Op.byKey])
    rw [Lru.replies_back, hlen, Lru.replies_back] at h1
    injection h1 with _ h1
    injection h1 with h1
    cases hx : l.items[i]? with
    | none =>
      rw [hx] at h1
      cases hy : m.items[i]? with
      | none => rfl
      | some y => rw [hy] at h1; cases h1
    | some x =>
      rw [hx] at h1
      cases hy : m.items[i]? with
      | none => rw [hy] at h1; cases h1
      | some y =>
        rw [hy] at h1
        injection h1 with h1
        have h2 := h [.lookup x.1] (by simp [Op.byKey])
        have e1 : (l.reply (.lookup x.1)).1 = .value x.2 := by
          show (match l.item x.1 with | some x => Ans.value x.2 | none => .notFound) = _
          rw [item_of_mem dl (List.mem_of_getElem? hx)]
        have e2 : (m.reply (.lookup x.1)).1 = .value y.2 := by
          show (match m.item x.1 with | some x => Ans.value x.2 | none => .notFound) = _
          rw [h1, item_of_mem dm (List.mem_of_getElem? hy)]
        rw [Lru.replies_cons (by rw [e1]; intro h; cases h), Lru.replies_cons (by rw [e2]; intro h; cases h), e1, e2] at h2
        injection h2 with h2
        injection h2 with h2
        rw [Prod.ext h1 h2]
  cases l; cases m
  cases hcap; cases hitems
  rfl

end LRU
