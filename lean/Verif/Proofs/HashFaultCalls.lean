import Verif.Proofs.HashFault
import Verif.Proofs.CostStep
import Verif.Props.Erase
/-!
# Which states an interrupted call leaves behind
-/

set_option linter.unusedSectionVars false
set_option autoImplicit false

namespace LRU

variable {K V : Type} [KeyEqual K] [DecidableEq K] {O : Oracle K V} {F : Faults}
variable {N : Prop} {P Q : St (Cache K V) K V → Prop} {t : FSt K V}

theorem assignRangeF_tracks (l : List (K × V))
    (h : ∀ s u, Impl.clearAndIncreaseCapacity l.length t.s = .ok () s →
      Tracks F N P (Impl.insertRangeF O F l) (Impl.insertRange O l) ⟨s, u⟩) :
    Tracks F N P (Impl.assignRangeF O F l) (Impl.assignRange O l) t :=
  .bind (.on _) fun _ s u h1 => .bind (h s u h1) fun _ _ _ _ => .pure _

theorem assignRangeMoveF_tracks (l : List (K × V))
    (h : ∀ s u, Impl.clearAndIncreaseCapacity l.length t.s = .ok () s →
      Tracks F N P (Impl.insertRangeMoveF O F l) (Impl.insertRangeMove O l) ⟨s, u⟩) :
    Tracks F N P (Impl.assignRangeMoveF O F l) (Impl.assignRangeMove O l) t :=
  .bind (.on _) fun _ s u h1 => .bind (h s u h1) fun _ _ _ _ => .pure _

theorem fstep_on {op : Op K V} (h : Impl.fstep O F op = Impl.onF (Impl.step O op)) :
    Tracks F N P (Impl.fstep O F op) (Impl.step O op) t := by
  rw [h]
  exact .on _

/-- Every call does what it does in `Model.Cache`, or is terminated or interrupted. -/
theorem fstep_tracks (op : Op K V) : Tracks F (op.asksExpiry = true) (fun _ => True) (Impl.fstep O F op) (Impl.step O op) t := by
  cases op
  case contains k => exact (containsF_tracks k trivial).ret
  case find k => exact (findF_tracks k trivial).ret
  case lookup k => exact (lookupF_tracks k trivial).ret
  case insert k v => exact (insertF_tracks k v (fun _ _ => trivial) fun _ _ _ _ _ _ _ _ _ _ _ => trivial).ret
  case emplace k v => exact (emplaceF_tracks k v (fun _ _ => trivial) fun _ _ _ _ _ _ _ _ _ _ _ => trivial).ret
  case insertRange l =>
    exact (insertRangeF_tracks (Q := fun _ => True) l trivial (fun _ _ _ _ _ _ _ _ => trivial) (fun _ _ _ _ => trivial)
      fun _ _ _ _ _ _ _ _ _ _ _ _ _ _ _ _ => trivial).ret
  case insertRangeMove l =>
    exact (insertRangeMoveF_tracks (Q := fun _ => True) l trivial (fun _ _ _ _ _ _ _ _ => trivial) (fun _ _ _ _ => trivial)
      fun _ _ _ _ _ _ _ _ _ _ _ _ _ _ _ _ => trivial).ret
  case assignRange l =>
    exact (assignRangeF_tracks l fun _ _ _ => insertRangeF_tracks (Q := fun _ => True) l trivial (fun _ _ _ _ _ _ _ _ => trivial)
      (fun _ _ _ _ => trivial) fun _ _ _ _ _ _ _ _ _ _ _ _ _ _ _ _ => trivial).ret
  case assignRangeMove l =>
    exact (assignRangeMoveF_tracks l fun _ _ _ => insertRangeMoveF_tracks (Q := fun _ => True) l trivial
      (fun _ _ _ _ _ _ _ _ => trivial) (fun _ _ _ _ => trivial) fun _ _ _ _ _ _ _ _ _ _ _ _ _ _ _ _ => trivial).ret
  case erase k => exact (eraseF_tracks k trivial fun _ _ _ _ _ _ _ => trivial).ret
  case eraseU p => exact (eraseUF_tracks p).ret
  case eraseO p => exact (eraseOF_tracks p fun _ _ => trivial).ret.allow fun _ => rfl
  case shrink n => exact (shrinkF_tracks n trivial fun _ _ _ _ _ => trivial).ret
  case setCapacity n => exact (setCapacityF_tracks n trivial fun _ _ _ _ _ => trivial).ret
  case allExpired => exact (allExpiredF_tracks trivial).ret
  case clearExpired =>
    exact (clearExpiredF_tracks (Q := fun _ => True) trivial (fun _ _ => trivial) fun _ _ _ _ _ _ _ _ _ _ _ _ => trivial).ret
  case hasExpired k => exact (hasExpiredF_tracks k).ret.allow fun _ => rfl
  case hasExpiredO p => exact (hasExpiredOF_tracks p).ret.allow fun _ => rfl
  case isValidO p => exact (isValidOF_tracks p).ret.allow fun _ => rfl
  case oKey p => exact (oKeyF_tracks p).ret.allow fun _ => rfl
  case oValue p => exact (oValueF_tracks _ fun _ _ => trivial).ret.allow fun _ => rfl
  all_goals exact fstep_on rfl

/-! ### States between the steps -/

section reachable

variable [DecidableEq V] {s s1 s2 s' : St (Cache K V) K V} {k : K} {v : V}

theorem Trimmed.refl (s : St (Cache K V) K V) : Trimmed s s := ⟨⟨0, rfl⟩, rfl, rfl, rfl, _, _, rfl⟩

theorem Trimmed.trans {s1 s2 s3 : St (Cache K V) K V} (h1 : Trimmed s1 s2) (h2 : Trimmed s2 s3) : Trimmed s1 s3 := by
  obtain ⟨⟨i, e1⟩, a1, b1, c1, x1, y1, d1⟩ := h1
  obtain ⟨⟨j, e2⟩, a2, b2, c2, x2, y2, d2⟩ := h2
  exact ⟨⟨i + j, by rw [e2, e1, List.drop_drop]⟩, a2.trans a1, b2.trans b1, c2.trans c1, x2, y2, by rw [d2, d1]⟩

theorem Untouched.trimmed (h : Untouched s s') : Trimmed s s' := by
  obtain ⟨h1, i, j, h2⟩ := h
  exact ⟨⟨0, by rw [h1]; rfl⟩, by rw [h1], by rw [h1], by rw [h1], i, j, h2⟩

/-- The least recently used entry, as `_order.front()` and `_map.find` see it. -/
theorem Reachable.front (hO : NoListFault O) (h : Reachable O s) {l : ListNode} (hl : s.c.order.head? = some l)
    (hk : Impl.keyOf l s = .ok k s) {m : Option (MapNode K V)} (hm : Impl.mapFind k s = .ok m s) :
    ∃ n rest, m = some n ∧ elements s.c = n :: rest ∧ others s.c n.key = rest := by
  obtain ⟨t, hr, ht⟩ := h.rel hO
  rw [hr.rep.order] at hl
  cases he : t.c.ents with
  | nil => rw [he] at hl; cases hl
  | cons e es =>
    rw [he] at hl
    cases hl
    have hmem : e ∈ t.c.ents := by rw [he]; exact List.mem_cons_self
    have h1 : s.c.map.find? (fun x => x.addr == e.id) = some e.node := by
      rw [hr.rep.find_addr hr.awf, show (t.c.ents.find? fun y => y.id == e.id) = some e from
        find?_key (f := fun y : Ent K V => y.id) ht.awf.ids hmem]
      rfl
    have h2 : k = e.key := by
      unfold Impl.keyOf Impl.deref at hk
      obtain ⟨a, s3, h3, h4⟩ := bind_ok_inv hk
      dsimp only [Ent.lnode] at h3
      rw [h1] at h3
      cases h3
      cases h4
      rfl
    subst h2
    have h3 : s.c.map.find? (fun x => keq x.key e.key) = some e.node := by
      rw [hr.rep.find_key hr.awf e.key, he, List.find?_cons, KeyEqual.refl]
      rfl
    have h4 : m = some e.node := by
      unfold Impl.mapFind at hm
      rw [h3] at hm
      injection hm with hm
      exact hm.symm
    refine ⟨e.node, es.map Ent.node, h4, by rw [hr.elements, he]; rfl, ?_⟩
    have hf : t.c.ents.find? (fun y => keq y.key e.node.key) = some e := by
      rw [he, List.find?_cons]
      show (match keq e.key e.key with | true => _ | false => _) = _
      rw [KeyEqual.refl]
    rw [← hr.without ht hf, he]
    have hnd := ht.awf.slots
    rw [he, List.map_cons, List.nodup_cons] at hnd
    show ((e :: es).filter (fun y => y.slot != e.slot)).map Ent.node = _
    rw [List.filter_cons]
    simp only [bne_self_eq_false, Bool.false_eq_true, if_false]
    rw [List.filter_eq_self.2]
    intro y hy
    simp only [bne_iff_ne]
    intro h5
    exact hnd.1 (h5 ▸ List.mem_map_of_mem hy)

theorem Reachable.eraseFront (hO : NoListFault O) (h : Reachable O s) {n : MapNode K V} {rest : List (MapNode K V)}
    (he : elements s.c = n :: rest) (ho : others s.c n.key = rest) (hd : Impl.eraseIt (some n.addr) s = .ok () s') :
    Reachable O s' ∧ Trimmed s s' := by
  have h1 : Returns O (.eraseU (some n.addr)) s .unit s' := bind_ok hd
  obtain ⟨s2, h2, h3, h4⟩ := C09_erase_unordered_iterator hO h (x := n) (by rw [he]; exact List.mem_cons_self)
  have : s2 = s' := by
    unfold Returns at h1 h2
    rw [h1] at h2
    cases h2
    rfl
  subst this
  exact ⟨h.after hO h1, ⟨1, by rw [h3, ho, he]; rfl⟩, h4.capacity, h4.kind, h4.obs, _, _, h4.shared⟩

theorem Reachable.eraseLru (hO : NoListFault O) (h : Reachable O s) (hd : Impl.eraseLru s = .ok () s') :
    Reachable O s' ∧ Trimmed s s' := by
  unfold Impl.eraseLru at hd
  obtain ⟨l, s1, h1, hd⟩ := bind_ok_inv hd
  cases orderFront_looks _ _ _ h1
  obtain ⟨k, s2, h2, hd⟩ := bind_ok_inv hd
  cases keyOf_looks _ _ _ _ h2
  obtain ⟨m, s3, h3, hd⟩ := bind_ok_inv hd
  cases mapFind_looks _ _ _ _ h3
  have hl : s.c.order.head? = some l := by
    unfold Impl.orderFront at h1
    rw [bind_ok (m := Impl.orderFirst) (s := s) rfl] at h1
    cases hh : s.c.order.head? with
    | none => rw [hh] at h1; cases h1
    | some l' => rw [hh] at h1; cases h1; rfl
  obtain ⟨n, rest, rfl, h4, h5⟩ := h.front hO hl h2 h3
  exact h.eraseFront hO h4 h5 hd

theorem Reachable.readClock (hO : NoListFault O) (h : Reachable O s) {n : MapNode K V} (hn : n ∈ elements s.c) {b : Bool}
    (hd : Impl.hasExpiredInfo O n.info.time s = .ok b s') : Reachable O s' := by
  obtain ⟨t, hr, ht⟩ := h.rel hO
  obtain ⟨e, he, rfl, hf⟩ := hr.ent_of_mem ht hn
  have h1 : s.c.map.find? (fun x => x.addr == e.id) = some e.node := by
    rw [hr.rep.find_addr hr.awf, show (t.c.ents.find? fun y => y.id == e.id) = some e from
      find?_key (f := fun y : Ent K V => y.id) ht.awf.ids he]
    rfl
  have h2 : Impl.derefIt (some e.id) s = .ok e.node s := by
    unfold Impl.derefIt
    dsimp only
    rw [h1]
  have h3 : Impl.hasExpiredU O (some e.id) s = .ok b s' := by
    unfold Impl.hasExpiredU
    dsimp only
    rw [bind_ok h2]
    exact hd
  exact h.after hO (op := .hasExpiredU (some e.id)) (bind_ok h3)

theorem halfInserted (hO : NoListFault O) (h : Reachable O s) {i : Int} {p : Ptr} {c : Nat} (hu : Untouched s s1)
    (h0 : s.c.capacity ≠ some 0) (hf : s.c.map.find? (fun n => keq n.key k) = none)
    (hm : Impl.mapEmplace O k v i s1 = .ok p s2) (hc : s2.c.capacity = some c) (hl : s2.c.map.length > c) :
    HalfInserted k v s s2 := by
  obtain ⟨t, hr, ht⟩ := h.rel hO
  obtain ⟨u1, x, y, u2⟩ := hu
  unfold Impl.mapEmplace at hm
  obtain ⟨_, s3, h3, hm⟩ := bind_ok_inv hm
  obtain ⟨w1, x', y', w2⟩ := attempt_untouched h3
  obtain ⟨p', s4, h4, hm⟩ := bind_ok_inv hm
  cases h4
  obtain ⟨_, s5, h5, hm⟩ := bind_ok_inv hm
  cases h5
  cases hm
  have hs3 : s3.c = s.c := w1.trans u1
  have hg3 : s3.g.next = s.g.next := by rw [w2, u2]
  have hcap : s.c.capacity = some c := by rw [← hs3]; exact hc
  have hk : ¬ Stored s.c k := by
    rw [hr.not_stored]
    rw [hr.rep.find_key hr.awf k] at hf
    exact Option.map_eq_none_iff.1 hf
  have hlen : s.c.map.length + 1 > c := by
    have h6 : (O.shuffle s3.g.next (⟨s3.g.next, k, ⟨v, none, i⟩⟩ :: s3.c.map)).length > c := hl
    rw [(O.shuffle_perm _ _).length_eq, hs3] at h6
    exact h6
  have hle : s.c.map.length ≤ c := by
    rw [hr.map_length]
    exact ht.awf.bound c (by rw [← hr.rep.cap]; exact hcap)
  have hcount : count s.c = s.c.map.length := by rw [hr.count, hr.map_length]
  refine ⟨⟨s3.g.next, k, ⟨v, none, i⟩⟩, c, ⟨rfl, rfl, rfl, ?_, ?_, ?_, ?_, ?_, ?_⟩, hg3, hk, hcap, by omega, ?_⟩
  · rw [← hs3]; exact O.shuffle_perm _ _
  · rw [← hs3]
  · rw [← hs3]
  · rw [← hs3]
  · rw [← hs3]
  · rw [← hs3]
  · rcases Nat.eq_zero_or_pos c with rfl | h7
    · exact absurd hcap h0
    · exact h7

theorem halfErased (hO : NoListFault O) (h : Reachable O s) {n : MapNode K V} (h1 : Impl.lastIs k s = .ok true s)
    (h2 : Impl.lastNode s = .ok n s) (h3 : Impl.invalidateIf n.key s = .ok () s1)
    (h4 : Impl.orderErase n.info.order s1 = .ok () s2) : HalfErased k s s2 := by
  obtain ⟨t, hr, ht⟩ := h.rel hO
  cases hl : t.c.last with
  | none =>
    unfold Impl.lastNode at h2
    rw [bind_ok (m := Impl.getLast) (s := s) rfl, hr.rep.last, hl] at h2
    cases h2
  | some p =>
    obtain ⟨e, he, rfl⟩ := ht.clean.last p hl
    have hfa : s.c.map.find? (fun x => x.addr == e.id) = some e.node := by
      rw [hr.rep.find_addr hr.awf, show (t.c.ents.find? fun y => y.id == e.id) = some e from
        find?_key (f := fun y : Ent K V => y.id) ht.awf.ids he]
      rfl
    have hde : Impl.deref e.id s = .ok e.node s := by
      unfold Impl.deref
      rw [hfa]
    have hn : n = e.node := by
      unfold Impl.lastNode at h2
      rw [bind_ok (m := Impl.getLast) (s := s) rfl, hr.rep.last, hl] at h2
      dsimp only at h2
      rw [hde] at h2
      cases h2
      rfl
    subst hn
    have hk : keq k e.key = true := by
      unfold Impl.lastIs at h1
      rw [bind_ok (m := Impl.getLast) (s := s) rfl, hr.rep.last, hl] at h1
      dsimp only at h1
      rw [bind_ok hde] at h1
      injection h1
    have h5 : Impl.invalidateIf e.node.key s = .ok () ⟨{ s.c with last := none }, s.g⟩ := by
      unfold Impl.invalidateIf
      have h0 : Impl.lastIs e.node.key s = .ok true s := hr.lastIs he hl (KeyEqual.refl _)
      rw [bind_ok h0]
      rfl
    rw [h5] at h3
    cases h3
    have hord : e.node.info.order = some e.slot := ht.clean.linked e he
    have h6 : Impl.orderErase e.node.info.order ⟨{ s.c with last := none }, s.g⟩ =
        .ok () ⟨{ s.c with last := none, order := s.c.order.filter (fun l => l.addr != e.slot) }, s.g⟩ := by
      rw [hord] at h4 ⊢
      obtain ⟨d, s3, h7, h8⟩ := bind_ok_inv (m := Impl.derefOrder e.slot) h4
      have h9 : s3 = ⟨{ s.c with last := none }, s.g⟩ := by
        unfold Impl.derefOrder at h7
        split at h7
        · cases h7; rfl
        · cases h7
      subst h9
      exact bind_ok h7
    rw [h6] at h4
    cases h4
    refine ⟨e.node, ⟨?_, rfl, ⟨e.slot, hord, rfl⟩, rfl, rfl, rfl, rfl⟩, hk, by rw [hr.rep.last, hl]; rfl, rfl⟩
    rw [hr.elements]
    exact List.mem_map_of_mem he

theorem withLists_eq (hO : NoListFault O) : O.withLists = O := by
  have : O.withLists.fails = O.fails := by
    funext site n
    show (if site = .listNode then false else O.fails site n) = _
    split
    · rename_i h
      subst h
      exact (hO n).symm
    · rfl
  cases O
  unfold Oracle.withLists at this ⊢
  dsimp only at this ⊢
  rw [this]

theorem clearAndIncrease_calls (hO : NoListFault O) (h : Reachable O s) {n : Nat}
    (hd : Impl.clearAndIncreaseCapacity n s = .ok () s') :
    Reachable O s' ∧ ∃ s1, Returns O .clear s .unit s1 ∧ (s' = s1 ∨ Returns O (.setCapacity n) s1 .unit s') := by
  refine ⟨?_, ?_⟩
  · rw [← withLists_eq hO] at h ⊢
    exact clearAndIncrease_reachable h hd
  · unfold Impl.clearAndIncreaseCapacity at hd
    obtain ⟨_, s1, h1, h2⟩ := bind_ok_inv hd
    refine ⟨s1, bind_ok h1, ?_⟩
    obtain ⟨c, s2, h4, h5⟩ := bind_ok_inv h2
    cases readCapacity_idle_inv h4
    split at h5
    · cases h1
      cases h5
      exact .inr rfl
    · cases h5
      exact .inl rfl

theorem insertF_cut (hO : NoListFault O) (h : Reachable O t.s) (k : K) (v : V) :
    Tracks F N (fun s' => Untouched t.s s' ∨ HalfInserted k v t.s s') (Impl.insertF O F k v) (Impl.insert O k v) t :=
  insertF_tracks k v (fun _ hu => .inl hu) fun _ _ _ _ _ hu h0 hf hm hc hl => .inr (halfInserted hO h hu h0 hf hm hc hl)

theorem emplaceF_cut (hO : NoListFault O) (h : Reachable O t.s) (k : K) (v : V) :
    Tracks F N (fun s' => Untouched t.s s' ∨ HalfInserted k v t.s s') (Impl.emplaceF O F k v) (Impl.emplace O k v) t :=
  emplaceF_tracks k v (fun _ hu => .inl hu) fun _ _ _ _ _ hu h0 hf hm hc hl => .inr (halfInserted hO h hu h0 hf hm hc hl)

theorem insertRangeF_cut (hO : NoListFault O) (h : Reachable O t.s) (l : List (K × V)) :
    Tracks F N (RangeCut O .insertRange l t.s) (Impl.insertRangeF O F l) (Impl.insertRange O l) t := by
  induction l generalizing t with
  | nil => exact .pure _
  | cons x l ih =>
    obtain ⟨k, v⟩ := x
    refine .bind ((insertF_cut hO h k v).mono fun s' h1 => ⟨[], k, v, l, 0, t.s, rfl, rfl, h1⟩) fun a s u h1 =>
      .bind ((ih (t := ⟨s, u⟩) (h.after hO (op := .insert k v) (bind_ok h1))).mono ?_) fun _ _ _ _ => .pure _
    rintro s' ⟨l1, k2, v2, l2, m, s1, rfl, h2, h3⟩
    obtain ⟨m', h4, h5⟩ := ret_ok_inv h2
    refine ⟨(k, v) :: l1, k2, v2, l2, _, s1, rfl, bind_ok (a := (if a.1 then 1 else 0) + m') ?_, h3⟩
    show (Impl.insert O k v >>= fun r => _) t.s = _
    rw [bind_ok h1, bind_ok h4]
    rfl

theorem insertRangeMoveF_cut (hO : NoListFault O) (h : Reachable O t.s) (l : List (K × V)) :
    Tracks F N (RangeCut O .insertRangeMove l t.s) (Impl.insertRangeMoveF O F l) (Impl.insertRangeMove O l) t := by
  induction l generalizing t with
  | nil => exact .pure _
  | cons x l ih =>
    obtain ⟨k, v⟩ := x
    refine .bind ((emplaceF_cut hO h k v).mono fun s' h1 => ⟨[], k, v, l, 0, t.s, rfl, rfl, h1⟩) fun a s u h1 =>
      .bind ((ih (t := ⟨s, u⟩) (h.after hO (op := .emplace k v) (bind_ok h1))).mono ?_) fun _ _ _ _ => .pure _
    rintro s' ⟨l1, k2, v2, l2, m, s1, rfl, h2, h3⟩
    obtain ⟨m', h4, h5⟩ := ret_ok_inv h2
    refine ⟨(k, v) :: l1, k2, v2, l2, _, s1, rfl, bind_ok (a := (if a.1 then 1 else 0) + m') ?_, h3⟩
    show (Impl.emplace O k v >>= fun r => _) t.s = _
    rw [bind_ok h1, bind_ok h4]
    rfl

/-! ### After an interrupted removal -/

variable {O' : Oracle K V} {n : MapNode K V}

/-- What the entry `e` of a proper cache looks like after its removal was interrupted. -/
theorem Unlisted.ent (hO : NoListFault O') (h : Reachable O' s) (hu : Unlisted n s.c s'.c) :
    ∃ t e, Rel s t ∧ Ok t ∧ e ∈ t.c.ents ∧ n = e.node ∧ s'.c.order = (without e t.c.ents).map Ent.lnode := by
  obtain ⟨t, hr, ht⟩ := h.rel hO
  obtain ⟨e, he, rfl, hf⟩ := hr.ent_of_mem ht hu.entry
  refine ⟨t, e, hr, ht, he, rfl, ?_⟩
  obtain ⟨q, h1, h2⟩ := hu.order
  have h3 : e.node.info.order = some e.slot := ht.clean.linked e he
  rw [h3] at h1
  cases h1
  rw [h2, hr.rep.order, without, List.filter_map]
  rfl

theorem Unlisted.find_key (hO : NoListFault O') (h : Reachable O' s) (hu : Unlisted n s.c s'.c) (hk : keq k n.key = true) :
    s'.c.map.find? (fun x => keq x.key k) = some n := by
  obtain ⟨t, e, hr, ht, he, rfl, _⟩ := hu.ent hO h
  rw [hu.map, hr.rep.find_key hr.awf k, ht.findKey he (flipped hk)]
  rfl

theorem Unlisted.find_addr (hO : NoListFault O') (h : Reachable O' s) (hu : Unlisted n s.c s'.c) :
    s'.c.map.find? (fun x => x.addr == n.addr) = some n := by
  obtain ⟨t, e, hr, ht, he, rfl, _⟩ := hu.ent hO h
  rw [hu.map, hr.rep.find_addr hr.awf]
  show (t.c.ents.find? fun y => y.id == e.id).map Ent.node = _
  rw [ht.findId he]
  rfl

theorem Unlisted.elements (hO : NoListFault O') (h : Reachable O' s) (hu : Unlisted n s.c s'.c) :
    elements s'.c = others s.c n.key := by
  obtain ⟨t, e, hr, ht, he, rfl, ho⟩ := hu.ent hO h
  show LRU.elements s'.c = others s.c e.key
  rw [← hr.without ht (ht.findKey he (KeyEqual.refl _))]
  unfold LRU.elements
  rw [ho, hu.map, List.filterMap_map, filterMap_congr_mem (g := fun e => some e.node)]
  · rw [← List.filterMap_eq_map]
    rfl
  · intro y hy
    show s.c.map.find? (fun x => x.addr == y.id) = _
    rw [hr.rep.find_addr hr.awf, ht.findId (List.mem_filter.1 hy).1]
    rfl

theorem Unlisted.gone (hO : NoListFault O') (h : Reachable O' s) (hu : Unlisted n s.c s'.c) :
    ∃ q, n.info.order = some q ∧ s'.c.order.find? (fun l => l.addr == q) = none := by
  obtain ⟨t, e, hr, ht, he, rfl, ho⟩ := hu.ent hO h
  refine ⟨e.slot, ht.clean.linked e he, ?_⟩
  rw [ho, List.find?_eq_none]
  intro l hl
  obtain ⟨y, hy, rfl⟩ := List.mem_map.1 hl
  have := (List.mem_filter.1 hy).2
  simpa [Ent.lnode] using this

theorem Unlisted.length (hO : NoListFault O') (h : Reachable O' s) (hu : Unlisted n s.c s'.c) :
    s'.c.map.length = count s.c := by
  rw [hu.map]
  exact (h.order_le hO).2

theorem filter_ne_length {α : Type} {l : List α} {f : α → Nat} {e : α} (hn : (l.map f).Nodup) (he : e ∈ l) :
    (l.filter (fun x => f x != f e)).length + 1 = l.length := by
  induction l with
  | nil => cases he
  | cons a l ih =>
    rw [List.map_cons, List.nodup_cons] at hn
    rw [List.filter_cons]
    rcases List.mem_cons.1 he with rfl | he'
    · simp only [bne_self_eq_false, Bool.false_eq_true, if_false]
      rw [List.filter_eq_self.2]
      · rfl
      · intro y hy
        simp only [bne_iff_ne]
        intro h5
        exact hn.1 (h5 ▸ List.mem_map_of_mem hy)
    · have : f a ≠ f e := fun h => hn.1 (h ▸ List.mem_map_of_mem he')
      rw [if_pos (by simpa using this), List.length_cons, List.length_cons, ih hn.2 he']

theorem Unlisted.count (hO : NoListFault O') (h : Reachable O' s) (hu : Unlisted n s.c s'.c) :
    LRU.count s'.c + 1 = LRU.count s.c := by
  obtain ⟨t, e, hr, ht, he, rfl, ho⟩ := hu.ent hO h
  have h1 : LRU.elements s'.c = others s.c e.key := hu.elements hO h
  unfold LRU.count
  rw [h1, ← hr.without ht (ht.findKey he (KeyEqual.refl _)), hr.elements, List.length_map, List.length_map]
  exact filter_ne_length (f := fun x : Ent K V => x.slot) ht.awf.slots he

theorem Unlisted.moveToFront (hO : NoListFault O') (h : Reachable O' s) (hu : Unlisted n s.c s'.c) (hc : LRU.count s.c ≠ 1)
    {g : Shared K V} : Impl.moveToFront n.info.order ⟨s'.c, g⟩ = .ub := by
  obtain ⟨q, h1, h2⟩ := hu.gone hO h
  unfold Impl.moveToFront
  rw [bind_ok (m := Impl.size) (s := _) rfl, if_neg, h1]
  · refine bind_ub ?_
    unfold Impl.derefOrder
    rw [h2]
  · show ¬ s'.c.map.length = 1
    rw [hu.length hO h]
    exact hc

theorem Unlisted.lastIs (hu : Unlisted n s.c s'.c) (k : K) : Impl.lastIs k s' = .ok false s' := by
  unfold Impl.lastIs
  rw [bind_ok (m := Impl.getLast) (s := s') rfl, hu.last]
  rfl

end reachable

end LRU
