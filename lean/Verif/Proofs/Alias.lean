import Verif.Spec.Alias
import Verif.Proofs.IterObjects
/-!
# References into the cache: lemmas for `Props.Alias`
-/

set_option autoImplicit false
set_option linter.unusedSectionVars false

namespace LRU

variable {K V : Type} [KeyEqual K] [DecidableEq K] [DecidableEq V] {O : Oracle K V} {α β : Type}

/-! ### Bodies that leave the map alone -/

/-- The body leaves `_map` as it is when it returns. -/
def KeepsMap (m : Impl.CM K V α) : Prop := ∀ s a s', m s = .ok a s' → s'.c.map = s.c.map

theorem bind_same {m : Impl.CM K V α} {f g : α → Impl.CM K V β} {s : St (Cache K V) K V} (hm : KeepsMap m)
    (h : ∀ a s', s'.c.map = s.c.map → f a s' = g a s') : (m >>= f) s = (m >>= g) s := by
  show M.bind m f s = M.bind m g s
  unfold M.bind
  cases e : m s with
  | ok a s' => exact h a s' (hm s a s' e)
  | _ => rfl

theorem KeepsMap.bind {m : Impl.CM K V α} {f : α → Impl.CM K V β} (hm : KeepsMap m) (hf : ∀ a, KeepsMap (f a)) :
    KeepsMap (m >>= f) := by
  intro s b s' h
  obtain ⟨a, s1, h1, h2⟩ := bind_ok_inv h
  exact (hf a s1 b s' h2).trans (hm s a s1 h1)

theorem KeepsMap.pure (a : α) : KeepsMap (K := K) (V := V) (Pure.pure a) := by
  intro s b s' h
  cases h
  rfl

theorem KeepsMap.of_idle {m : Impl.CM K V α} (h : ∀ s a s', m s = .ok a s' → s' = s) : KeepsMap m :=
  fun s a s' e => by rw [h s a s' e]

theorem readCapacity_keeps : KeepsMap (K := K) (V := V) Impl.readCapacity := by
  intro s a s' h
  unfold Impl.readCapacity at h
  split at h <;> cases h
  rfl

theorem attempt_keeps (site : Site) : KeepsMap (attempt (C := Cache K V) O site) := by
  intro s a s' h
  unfold attempt at h
  dsimp only at h
  split at h <;> cases h
  rfl

theorem getKind_keeps : KeepsMap (K := K) (V := V) Impl.getKind := by intro s a s' h; cases h; rfl
theorem getObs_keeps : KeepsMap (K := K) (V := V) Impl.getObs := by intro s a s' h; cases h; rfl
theorem getLast_keeps : KeepsMap (K := K) (V := V) Impl.getLast := by intro s a s' h; cases h; rfl
theorem size_keeps : KeepsMap (K := K) (V := V) Impl.size := by intro s a s' h; cases h; rfl
theorem now_keeps : KeepsMap (now (C := Cache K V) O) := by intro s a s' h; cases h; rfl
theorem mapFind_keeps (k : K) : KeepsMap (K := K) (V := V) (Impl.mapFind k) := by intro s a s' h; cases h; rfl

theorem hasExpiredInfo_keeps (time : Int) : KeepsMap (Impl.hasExpiredInfo O time) := by
  refine getKind_keeps.bind fun k => ?_
  cases k with
  | basic => exact .pure _
  | timed => exact now_keeps.bind fun _ => .pure _

theorem insertionTime_keeps : KeepsMap (Impl.insertionTime O) := by
  refine getKind_keeps.bind fun k => ?_
  cases k with
  | basic => exact .pure _
  | timed => exact now_keeps

theorem deref_keeps (p : Ptr) : KeepsMap (K := K) (V := V) (Impl.deref p) := by
  intro s a s' h
  unfold Impl.deref at h
  split at h
  · cases h; rfl
  · split at h <;> cases h
    rfl

theorem lastIs_keeps (k : K) : KeepsMap (V := V) (Impl.lastIs k) := by
  refine getLast_keeps.bind fun o => ?_
  cases o with
  | none => exact .pure _
  | some p => exact (deref_keeps p).bind fun _ => .pure _

theorem lastNode_keeps : KeepsMap (K := K) (V := V) Impl.lastNode := by
  refine getLast_keeps.bind fun o => ?_
  cases o with
  | none => intro s a s' h; cases h
  | some p => exact deref_keeps p

theorem lastAccessedIsOk_keeps : KeepsMap (Impl.lastAccessedIsOk O) := by
  refine getKind_keeps.bind fun k => ?_
  cases k with
  | basic => exact .pure _
  | timed => exact lastNode_keeps.bind fun n => (hasExpiredInfo_keeps _).bind fun _ => .pure _

theorem valueForLastAccessed_keeps : KeepsMap (Impl.valueForLastAccessed O) := by
  refine lastNode_keeps.bind fun n => getKind_keeps.bind fun k => ?_
  cases k with
  | basic => exact .pure _
  | timed =>
    refine (hasExpiredInfo_keeps _).bind fun b => ?_
    cases b with
    | true => intro s a s' h; cases h
    | false => exact .pure _

theorem derefOrder_keeps (p : Ptr) : KeepsMap (K := K) (V := V) (Impl.derefOrder p) := by
  intro s a s' h
  unfold Impl.derefOrder at h
  split at h <;> cases h
  rfl

theorem moveToFront_keeps (it : Option Ptr) : KeepsMap (K := K) (V := V) (Impl.moveToFront it) := by
  refine size_keeps.bind fun n => ?_
  split
  · exact .pure _
  · cases it with
    | none => intro s a s' h; cases h
    | some p => exact (derefOrder_keeps p).bind fun _ => by intro s a s' h; cases h; rfl

/-! ### Reading references -/

/-- What a key reference denotes in a map. -/
def KeyRef.In (m : List (MapNode K V)) : KeyRef K → K → Prop
  | .object k', k => k' = k
  | .stored p, k => ∃ n, m.find? (fun n => n.addr == p) = some n ∧ n.key = k

/-- What a value reference denotes in a map. -/
def ValueRef.In (m : List (MapNode K V)) : ValueRef V → V → Prop
  | .object v', v => v' = v
  | .stored p, v => ∃ n, m.find? (fun n => n.addr == p) = some n ∧ n.info.value = v

variable {s s' : St (Cache K V) K V} {a : KeyRef K} {b : ValueRef V} {k : K} {v : V}

theorem derefIt_find {p : Ptr} {n : MapNode K V} (h : s.c.map.find? (fun n => n.addr == p) = some n) :
    Impl.derefIt (some p) s = .ok n s := by
  unfold Impl.derefIt
  dsimp only
  rw [h]

theorem readKey_eq (h : a.In s.c.map k) : Impl.readKey a s = .ok k s := by
  cases a with
  | object k' => cases h; rfl
  | stored p =>
    obtain ⟨n, h1, rfl⟩ := h
    exact bind_ok (derefIt_find h1)

theorem readValue_eq (h : b.In s.c.map v) : Impl.readValue (K := K) b s = .ok v s := by
  cases b with
  | object v' => cases h; rfl
  | stored p =>
    obtain ⟨n, h1, rfl⟩ := h
    exact bind_ok (derefIt_find h1)

theorem read_key {f : K → Impl.CM K V α} (h : a.In s.c.map k) : (Impl.readKey a >>= f) s = f k s :=
  bind_ok (readKey_eq h)

theorem read_value {f : V → Impl.CM K V α} (h : b.In s.c.map v) : (Impl.readValue b >>= f) s = f v s :=
  bind_ok (readValue_eq h)

theorem findRef_eq (h : a.In s.c.map k) : Impl.findRef O a s = Impl.find O k s := by
  unfold Impl.findRef Impl.find
  refine bind_same getObs_keeps fun o s1 h1 => ?_
  rw [read_key (by rw [h1]; exact h)]
  refine bind_same (mapFind_keeps k) fun n s2 h2 => ?_
  cases n with
  | none => simp only; rw [read_key (by rw [h2, h1]; exact h)]
  | some n =>
    simp only
    refine bind_same (hasExpiredInfo_keeps _) fun e s3 h3 => ?_
    have h4 : a.In s3.c.map k := by rw [h3, h2, h1]; exact h
    cases e <;> simp only [if_true, Bool.false_eq_true, if_false] <;> rw [read_key h4]

theorem containsRef_eq (h : a.In s.c.map k) : Impl.containsRef O a s = Impl.contains O k s := by
  unfold Impl.containsRef Impl.contains
  refine bind_same getObs_keeps fun o s1 h1 => ?_
  rw [read_key (by rw [h1]; exact h)]
  refine bind_same (lastIs_keeps k) fun n s2 h2 => ?_
  have h3 : a.In s2.c.map k := by rw [h2, h1]; exact h
  cases n with
  | true =>
    simp only [if_true]
    refine bind_same lastAccessedIsOk_keeps fun e s3 h4 => ?_
    cases e with
    | false => rfl
    | true =>
      simp only [if_true]
      refine bind_same lastNode_keeps fun n s4 h5 => ?_
      rw [read_key (by rw [h5, h4]; exact h3)]
  | false =>
    simp only [Bool.false_eq_true, if_false]
    show M.bind _ _ s2 = M.bind _ _ s2
    unfold M.bind
    rw [findRef_eq h3]

theorem lookupRef_eq (h : a.In s.c.map k) : Impl.lookupRef O a s = Impl.lookup O k s := by
  unfold Impl.lookupRef Impl.lookup
  refine bind_same getObs_keeps fun o s1 h1 => ?_
  rw [read_key (by rw [h1]; exact h)]
  refine bind_same (lastIs_keeps k) fun n s2 h2 => ?_
  have h3 : a.In s2.c.map k := by rw [h2, h1]; exact h
  cases n with
  | true =>
    simp only [if_true]
    refine bind_same valueForLastAccessed_keeps fun n s4 h5 => ?_
    rw [read_key (by rw [h5]; exact h3)]
  | false =>
    simp only [Bool.false_eq_true, if_false]
    show M.bind _ _ s2 = M.bind _ _ s2
    unfold M.bind
    rw [findRef_eq h3]
    cases Impl.find O k s2 with
    | ok p s3 => cases p <;> rfl
    | _ => rfl

theorem eraseRef_eq (h : a.In s.c.map k) : Impl.eraseRef a s = Impl.erase k s := by
  unfold Impl.eraseRef Impl.erase
  rw [read_key h]
  refine bind_same (lastIs_keeps k) fun n s2 h2 => ?_
  cases n with
  | true => rfl
  | false =>
    simp only [Bool.false_eq_true, if_false]
    rw [read_key (by rw [h2]; exact h)]
    exact bind_same (mapFind_keeps k) fun n _ _ => by cases n <;> rfl

theorem hasExpiredRef_eq (h : a.In s.c.map k) : Impl.hasExpiredRef O a s = Impl.hasExpired O k s := by
  unfold Impl.hasExpiredRef Impl.hasExpired
  rw [read_key h]
  exact bind_same (mapFind_keeps k) fun n _ _ => by cases n <;> rfl

theorem insertRef_eq (h : a.In s.c.map k) (hv : b.In s.c.map v) : Impl.insertRef O a b s = Impl.insert O k v s := by
  unfold Impl.insertRef Impl.insert
  refine bind_same readCapacity_keeps fun n s1 h1 => ?_
  split
  · rfl
  · rw [read_key (by rw [h1]; exact h)]
    refine bind_same (mapFind_keeps k) fun n s2 h2 => ?_
    cases n with
    | none =>
      simp only
      refine bind_same insertionTime_keeps fun t s3 h3 => ?_
      refine bind_same (attempt_keeps _) fun _ s4 h4 => ?_
      have h5 : s4.c.map = s.c.map := by rw [h4, h3, h2, h1]
      rw [read_value (by rw [h5]; exact hv), read_key (by rw [h5]; exact h)]
    | some n =>
      simp only
      unfold Impl.moveToFrontAssign
      rw [bind_bind]
      refine bind_same (moveToFront_keeps _) fun _ s3 h3 => ?_
      rw [read_value (by rw [h3, h2, h1]; exact hv)]

theorem emplaceRef_eq (h : a.In s.c.map k) (hv : b.In s.c.map v) : Impl.emplaceRef O a b s = Impl.emplace O k v s := by
  unfold Impl.emplaceRef Impl.emplace
  refine bind_same readCapacity_keeps fun n s1 h1 => ?_
  split
  · rfl
  · refine bind_same (attempt_keeps _) fun _ s2 h2 => ?_
    rw [read_key (by rw [h2, h1]; exact h)]
    refine bind_same (mapFind_keeps k) fun n s3 h3 => ?_
    cases n with
    | none =>
      simp only
      refine bind_same (attempt_keeps _) fun _ s4 h4 => ?_
      rw [read_value (by rw [h4, h3, h2, h1]; exact hv)]
    | some n =>
      simp only
      refine bind_same (attempt_keeps _) fun _ s4 h4 => ?_
      rw [read_value (by rw [h4, h3, h2, h1]; exact hv)]

/-! ### What the states of programs guarantee -/

theorem Reachable.find_of_mem (hO : NoListFault O) (hs : Reachable O s) {x : MapNode K V} (hx : x ∈ elements s.c) :
    s.c.map.find? (fun n => n.addr == x.addr) = some x := by
  have h := hs.derefIt_of_mem hO hx
  unfold Impl.derefIt at h
  dsimp only at h
  split at h
  · rename_i n hn
    injection h with h
    rw [hn, h]
  · cases h

theorem Reachable.find_key_of_mem (hO : NoListFault O) (hs : Reachable O s) {x : MapNode K V} (hx : x ∈ elements s.c) :
    s.c.map.find? (fun n => keq n.key x.key) = some x := by
  obtain ⟨t, hr, ht⟩ := hs.rel hO
  obtain ⟨e, he, rfl, _⟩ := hr.ent_of_mem ht hx
  rw [hr.rep.find_key hr.awf]
  cases hf : t.c.ents.find? (fun y => keq y.key e.node.key) with
  | none =>
    have := List.find?_eq_none.1 hf e he
    exact absurd (KeyEqual.refl _) this
  | some y =>
    rw [key_inj_of_pairwise' ht.awf.keys y (List.mem_of_find?_eq_some hf) e he 
      (List.find?_some (p := fun y : Ent K V => keq y.key e.node.key) hf) (KeyEqual.refl _)]
    rfl

theorem KeyRef.Denotes.in (hO : NoListFault O) (hs : Reachable O s) (h : a.Denotes s.c k) : a.In s.c.map k := by
  cases a with
  | object k' => exact h
  | stored p =>
    obtain ⟨x, hx, rfl, rfl⟩ := h
    exact ⟨x, hs.find_of_mem hO hx, rfl⟩

theorem ValueRef.Denotes.in (hO : NoListFault O) (hs : Reachable O s) (h : b.Denotes s.c v) : b.In s.c.map v := by
  cases b with
  | object v' => exact h
  | stored p =>
    obtain ⟨x, hx, rfl, rfl⟩ := h
    exact ⟨x, hs.find_of_mem hO hx, rfl⟩

/-- Distinct addresses and distinct keys. -/
structure TidyMap (m : List (MapNode K V)) : Prop where
  addrs : (m.map (·.addr)).Nodup
  keys : ∀ n ∈ m, m.find? (fun x => keq x.key n.key) = some n

theorem TidyMap.inj {m : List (MapNode K V)} (h : TidyMap m) {x y : MapNode K V} (hx : x ∈ m) (hy : y ∈ m)
    (e : x.addr = y.addr) : x = y := map_inj_of_nodup h.addrs x hx y hy e

theorem TidyMap.find {m : List (MapNode K V)} (h : TidyMap m) {x : MapNode K V} (hx : x ∈ m) :
    m.find? (fun n => n.addr == x.addr) = some x := find?_key (f := fun n : MapNode K V => n.addr) h.addrs hx

theorem Rel.tidy {t : St (MCache K V) K V} (hr : Rel s t) : TidyMap s.c.map := by
  constructor
  · have h2 : (s.c.map.map (·.addr)).Perm ((t.c.ents.map Ent.node).map (·.addr)) := hr.rep.map.map _
    rw [List.map_map] at h2
    exact h2.nodup_iff.2 hr.awf.ids
  · intro n hn
    obtain ⟨e, he, rfl⟩ := List.mem_map.1 (hr.rep.map.mem_iff.1 hn)
    rw [hr.rep.find_key hr.awf]
    cases hf : t.c.ents.find? (fun y => keq y.key e.node.key) with
    | none =>
      have := List.find?_eq_none.1 hf e he
      exact absurd (KeyEqual.refl _) this
    | some y =>
      rw [key_inj_of_pairwise' hr.awf.keys y (List.mem_of_find?_eq_some hf) e he 
      (List.find?_some (p := fun y : Ent K V => keq y.key e.node.key) hf) (KeyEqual.refl _)]
      rfl

theorem Reachable.tidy (hO : NoListFault O) (hs : Reachable O s) : TidyMap s.c.map := by
  obtain ⟨t, hr, _⟩ := hs.rel hO
  exact hr.tidy

theorem assign_self {m : List (MapNode K V)} (h : TidyMap m) {n : MapNode K V} (hn : n ∈ m) :
    m.map (fun x => if x.addr = n.addr then { x with info := { x.info with value := n.info.value } } else x) = m := by
  conv => rhs; rw [← List.map_id m]
  refine List.map_congr_left fun x hx => ?_
  split
  · rw [h.inj hx hn ‹_›]; rfl
  · rfl

theorem tryAssign_map {p : Ptr} {v : V} {u : Unit} (h : Impl.tryAssign O p v s = .ok u s') :
    s'.c.map = s.c.map.map (fun x => if x.addr = p then { x with info := { x.info with value := v } } else x) := by
  obtain ⟨r, s1, h1, h2⟩ := bind_ok_inv h
  cases r with
  | none =>
    have h3 : s1.c = s.c := by injection h1 with _ h1; rw [← h1]
    cases h2
    rw [← h3]
  | some n => cases h2

/-- Inserting a stored pair changes nothing in the map and counts nothing. -/
theorem insert_own {n : MapNode K V} (ht : TidyMap s.c.map) (hn : n ∈ s.c.map) {r : Bool × Option Ptr}
    (h : Impl.insert O n.key n.info.value s = .ok r s') : s'.c.map = s.c.map ∧ r.1 = false := by
  unfold Impl.insert at h
  obtain ⟨c, s1, h1, h2⟩ := bind_ok_inv h
  have e1 := readCapacity_keeps _ _ _ h1
  split at h2
  · cases h2; exact ⟨e1, rfl⟩
  · obtain ⟨o, s2, h3, h4⟩ := bind_ok_inv h2
    have e2 : s2 = s1 ∧ o = s1.c.map.find? (fun x => keq x.key n.key) := by cases h3; exact ⟨rfl, rfl⟩
    obtain ⟨rfl, ho⟩ := e2
    rw [e1, ht.keys n hn] at ho
    subst ho
    simp only at h4
    obtain ⟨u, s3, h5, h6⟩ := bind_ok_inv h4
    unfold Impl.moveToFrontAssign at h5
    obtain ⟨u, s4, h7, h8⟩ := bind_ok_inv h5
    have e4 := moveToFront_keeps _ _ _ _ h7
    have e6 : s4.c.map = s.c.map := by rw [e4, e1]
    have e7 : s3.c.map = s.c.map := by
      rw [tryAssign_map h8, e6]
      exact assign_self ht hn
    cases h6
    exact ⟨e7, rfl⟩

/-! ### Own ranges of unordered iterators -/

theorem uNext_eq {pre rest : List (MapNode K V)} {n : MapNode K V} (hm : s.c.map = pre ++ n :: rest) (ht : TidyMap s.c.map)
    (e : Option Ptr) :
    Impl.uNext { pos := some n.addr, entry := e } s = .ok { pos := (rest.map (·.addr)).head? } s := by
  unfold Impl.uNext
  rw [bind_ok (m := Impl.mapAddrs) (s := s) rfl]
  have h1 : Impl.after n.addr (s.c.map.map (·.addr)) = some (s.c.map.map (·.addr))[pre.length + 1]? :=
    after_index ht.addrs (by rw [hm]; simp)
  simp only [h1]
  show Out.ok (_ : Impl.UIt) s = _
  congr 2
  rw [hm]
  simp [List.getElem?_append_right, List.head?_eq_getElem?]

theorem bind_eq_cases {m : Impl.CM K V α} {f g : α → Impl.CM K V β}
    (h : ∀ a s', m s = .ok a s' → f a s' = g a s') : (m >>= f) s = (m >>= g) s := by
  show M.bind m f s = M.bind m g s
  unfold M.bind
  cases e : m s with
  | ok a s' => exact h a s' e
  | _ => rfl

theorem uEq_not {pre mid post : List (MapNode K V)} {n : MapNode K V} {m : List (MapNode K V)}
    (hm : m = pre ++ (n :: mid) ++ post) (ht : TidyMap m) :
    Impl.uEq { pos := some n.addr } { pos := (post.map (·.addr)).head? } = false := by
  unfold Impl.uEq
  cases post with
  | nil => rfl
  | cons q post =>
    have h1 := ht.addrs
    rw [hm] at h1
    simp only [List.map_append, List.map_cons, List.append_assoc] at h1
    have h2 := (List.nodup_append.1 h1).2.1
    have h3 : n.addr ≠ q.addr := by
      intro e
      rw [List.cons_append, List.nodup_cons] at h2
      exact h2.1 (List.mem_append_right _ (by rw [e]; exact List.mem_cons_self ..))
    simp [h3]

theorem insertUnordered_eq (mid : List (MapNode K V)) {pre post : List (MapNode K V)}
    (hm : s.c.map = pre ++ mid ++ post) (ht : TidyMap s.c.map) (c : Nat) {fuel : Nat} (hf : mid.length < fuel) :
    Impl.insertUnordered O { pos := (post.map (·.addr)).head? } c fuel { pos := ((mid ++ post).map (·.addr)).head? } s =
      (Impl.insertRange O (mid.map MapNode.pair) >>= fun n => pure (c + n)) s := by
  induction mid generalizing s pre c fuel with
  | nil =>
    cases fuel with
    | zero => simp at hf
    | succ fuel =>
      unfold Impl.insertUnordered
      rw [if_pos (by simp [Impl.uEq])]
      rfl
  | cons n mid ih =>
    cases fuel with
    | zero => simp at hf
    | succ fuel =>
      have hn : n ∈ s.c.map := by rw [hm]; simp
      unfold Impl.insertUnordered
      rw [if_neg (by
        rw [show ((n :: mid ++ post).map (·.addr)).head? = some n.addr from rfl, uEq_not hm ht]; simp)]
      have h1 : Impl.uDeref { pos := some n.addr } s = .ok ⟨some n.addr, some n.addr⟩ s :=
        bind_ok (derefIt_find (ht.find hn))
      rw [show ((n :: mid ++ post).map (·.addr)).head? = some n.addr from rfl, bind_ok h1]
      simp only
      show (Impl.insertRef O (.stored n.addr) (.stored n.addr) >>= _) s = _
      rw [show Impl.insertRange O ((n :: mid).map MapNode.pair) = Impl.insert O n.key n.info.value >>= fun r =>
        Impl.insertRange O (mid.map MapNode.pair) >>= fun m => pure ((if r.1 then 1 else 0) + m) from rfl, bind_bind]
      have h2 : (Impl.insertRef O (.stored n.addr) (.stored n.addr)) s = Impl.insert O n.key n.info.value s :=
        insertRef_eq ⟨n, ht.find hn, rfl⟩ ⟨n, ht.find hn, rfl⟩
      have h3 : ∀ {β : Type} (f : Bool × Option Ptr → Impl.CM K V β),
          (Impl.insertRef O (.stored n.addr) (.stored n.addr) >>= f) s = (Impl.insert O n.key n.info.value >>= f) s := by
        intro β f
        show M.bind _ _ s = M.bind _ _ s
        unfold M.bind
        rw [h2]
      rw [h3]
      refine bind_eq_cases fun r s1 hr => ?_
      obtain ⟨h4, h5⟩ := insert_own ht hn hr
      have hm1 : s1.c.map = pre ++ n :: (mid ++ post) := by rw [h4, hm]; simp
      have ht1 : TidyMap s1.c.map := by rw [h4]; exact ht
      rw [bind_ok (uNext_eq hm1 ht1 _), bind_bind]
      rw [ih (pre := pre ++ [n]) (by rw [hm1]; simp) ht1 _ (by simpa using hf)]
      unfold Impl.newly
      rw [h5]
      refine bind_eq_cases fun m s2 _ => ?_
      simp
      rfl

/-! ### Own ranges of ordered iterators -/

/-- After an insertion of the stored pair `x`, its list node is the last one. -/
theorem insert_last (hO : NoListFault O) (hs : Reachable O s) {q : Ptr} {x : MapNode K V} (hx : At s.c q x)
    {r : Bool × Option Ptr} (h : Impl.insert O x.key x.info.value s = .ok r s') :
    Impl.after q (s'.c.order.map (·.addr)) = some none ∧ r.1 = false := by
  have hret : Returns O (.insert x.key x.info.value) s (.inserted r.1 r.2) s' := bind_ok h
  obtain ⟨t, t', b, p, hr, ht, ho, hr', h5⟩ := hs.inserts (k := x.key) (v := x.info.value) hO (.inl rfl) hret
  injection h5 with h5 h6
  obtain ⟨e, he, rfl, rfl⟩ := (hr.at_iff ht).1 hx
  have hfe : t.c.ents.find? (fun y => keq y.key e.node.key) = some e := by
    cases hf : t.c.ents.find? (fun y => keq y.key e.node.key) with
    | none =>
      have := List.find?_eq_none.1 hf e he
      exact absurd (KeyEqual.refl _) this
    | some y =>
      rw [key_inj_of_pairwise' ht.awf.keys y (List.mem_of_find?_eq_some hf) e he
        (List.find?_some (p := fun y : Ent K V => keq y.key e.node.key) hf) (KeyEqual.refl _)]
  have hn' := hr'.order_nodup
  rw [hr'.rep.order, List.map_map] at hn' ⊢
  cases ho with
  | zero hc =>
    have h1 := ht.awf.bound 0 hc
    have h2 := List.length_pos_of_mem he
    omega
  | full g' e l m hf hc hl hn _ _ => rw [hf] at hfe; cases hfe
  | room g' m q hf hc hl _ _ _ => rw [hf] at hfe; cases hfe
  | update g' e' m hf _ _ =>
    rw [hf] at hfe
    injection hfe with hfe
    subst hfe
    refine ⟨?_, h5⟩
    simp only [List.map_append, List.map_cons, List.map_nil] at hn' ⊢
    rw [after_index hn' (i := (LRU.without e' t.c.ents).length) ?_]
    · simp
    · simp [Ent.lnode]

theorem insertOrdered_step (hO : NoListFault O) (hs : Reachable O s) {q : Ptr} {x : MapNode K V} (hx : At s.c q x)
    {e : Option Ptr} (he : e ≠ some q) (c fuel : Nat) :
    Impl.insertOrdered O { pos := e } c (fuel + 1) { pos := some q } s =
      (Impl.insert O x.key x.info.value >>= fun _ => Impl.insertOrdered O { pos := e } c fuel { pos := none }) s := by
  conv => lhs; unfold Impl.insertOrdered
  rw [if_neg (by
    unfold Impl.oEq
    intro h
    exact he (eq_of_beq h).symm)]
  have h1 : Impl.oDeref { pos := some q } s = .ok ⟨some q, some x.addr⟩ s := bind_ok (hs.oLookup_of_at hO hx)
  rw [bind_ok h1]
  simp only
  show M.bind _ _ s = M.bind _ _ s
  have h2 := hs.find_of_mem hO hx.1
  unfold M.bind
  rw [insertRef_eq (a := .stored x.addr) (b := .stored x.addr) ⟨x, h2, rfl⟩ ⟨x, h2, rfl⟩]
  cases hr : Impl.insert O x.key x.info.value s with
  | ok r s1 =>
    obtain ⟨h3, h4⟩ := insert_last hO hs hx hr
    have h5 : Impl.oNext { pos := some q, entry := some x.addr } s1 = .ok { pos := none } s1 := by
      unfold Impl.oNext
      rw [bind_ok (m := Impl.orderAddrs) (s := s1) rfl]
      simp only [h3]
      rfl
    show (Impl.oNext _ >>= _) s1 = _
    rw [bind_ok h5]
    unfold Impl.newly
    rw [h4]
    rfl
  | _ => rfl

/-! ### Moving a stored value -/

/-- Carry an outcome over to changed states. -/
def Out.mapS {σ τ : Type} (f : σ → τ) : Out σ α → Out τ α
  | .ok a s => .ok a (f s)
  | .throw e s => .throw e (f s)
  | .ub => .ub
  | .terminate => .terminate
  | .diverge => .diverge

/-- `m` neither sees nor touches what `f` changes. -/
def Blind (f : St (Cache K V) K V → St (Cache K V) K V) (m : Impl.CM K V α) : Prop := ∀ s, m (f s) = (m s).mapS f

theorem Blind.bind {f : St (Cache K V) K V → St (Cache K V) K V} {m : Impl.CM K V α} {g : α → Impl.CM K V β}
    (hm : Blind f m) (hg : ∀ a, Blind f (g a)) : Blind f (m >>= g) := by
  intro s
  show M.bind m g (f s) = (M.bind m g s).mapS f
  unfold M.bind
  rw [hm s]
  cases m s with
  | ok a s1 => exact hg a s1
  | _ => rfl

/-- The value at `p` replaced. -/
def putValue (p : Ptr) (w : V) (s : St (Cache K V) K V) : St (Cache K V) K V :=
  { s with c := { s.c with
    map := s.c.map.map (fun m => if m.addr = p then { m with info := { m.info with value := w } } else m) } }

/-- The node with its value replaced, if it is the one at `p`. -/
def putNode (p : Ptr) (w : V) (m : MapNode K V) : MapNode K V :=
  if m.addr = p then { m with info := { m.info with value := w } } else m

theorem putNode_addr (p : Ptr) (w : V) (m : MapNode K V) : (putNode p w m).addr = m.addr := by
  unfold putNode; split <;> rfl
theorem putNode_key (p : Ptr) (w : V) (m : MapNode K V) : (putNode p w m).key = m.key := by
  unfold putNode; split <;> rfl
theorem putNode_order (p : Ptr) (w : V) (m : MapNode K V) : (putNode p w m).info.order = m.info.order := by
  unfold putNode; split <;> rfl

theorem putValue_find (p : Ptr) (w : V) (s : St (Cache K V) K V) (f : MapNode K V → Bool)
    (hf : ∀ m, f (putNode p w m) = f m) :
    (putValue p w s).c.map.find? f = (s.c.map.find? f).map (putNode p w) := by
  show (s.c.map.map (putNode p w)).find? f = _
  rw [List.find?_map]
  congr 2
  funext m
  exact hf m

theorem attempt_blind (site : Site) (p : Ptr) (w : V) : Blind (putValue p w) (attempt (C := Cache K V) O site) := by
  intro s
  unfold attempt
  dsimp only
  show (if O.fails site s.g.steps = true then _ else _) = _
  split <;> rfl

theorem spliceToEnd_blind (it : Option Ptr) (p : Ptr) (w : V) :
    Blind (putValue p w) (Impl.spliceToEnd (K := K) (V := V) it) := by
  cases it with
  | none => intro s; rfl
  | some q =>
    refine Blind.bind (fun s => ?_) fun n s => rfl
    unfold Impl.derefOrder
    show (match s.c.order.find? (fun n => n.addr == q) with | some n => _ | none => _) = _
    cases s.c.order.find? (fun n => n.addr == q) <;> rfl

theorem size_blind (p : Ptr) (w : V) : Blind (putValue p w) (Impl.size (K := K) (V := V)) := by
  intro s
  show Out.ok (s.c.map.map _).length _ = _
  rw [List.length_map]
  rfl

theorem moveToFront_blind (it : Option Ptr) (p : Ptr) (w : V) :
    Blind (putValue p w) (Impl.moveToFront (K := K) (V := V) it) := by
  refine (size_blind p w).bind fun n => ?_
  split
  · intro s; rfl
  · exact spliceToEnd_blind it p w

theorem takeValue_eq {mv : V → V} {p : Ptr} {x : MapNode K V} (h : s.c.map.find? (fun n => n.addr == p) = some x) :
    Impl.takeValue mv p s = .ok x.info.value (putValue p (mv x.info.value) s) := by
  have h1 : x.addr = p := by simpa using List.find?_some h
  unfold Impl.takeValue
  rw [bind_ok (derefIt_find h), h1]
  rfl

theorem write_eq {p : Ptr} {x : MapNode K V} (h : s.c.map.find? (fun n => n.addr == p) = some x) (w : V) :
    Impl.write p w s = .ok () (putValue p w s) := by
  have h1 : x.addr = p := by simpa using List.find?_some h
  unfold Impl.write
  rw [bind_ok (derefIt_find h), h1]
  rfl

theorem attempt_state {site : Site} {u : Unit} (h : attempt O site s = .ok u s') : s'.c = s.c := by
  unfold attempt at h
  dsimp only at h
  split at h <;> cases h
  rfl

/-- An emplacement whose constructions succeed, up to the point where the key has been searched for. -/
theorem emplaceMove_iff {mv : V → V} {p : Ptr} {x : MapNode K V} {r : Bool × Option Ptr}
    (hx : s.c.map.find? (fun n => n.addr == p) = some x) (ha : a.In s.c.map k) (hc : s.c.capacity ≠ some 0) :
    Impl.emplaceMove O mv a p s = .ok r s' ↔
      Impl.emplace O k x.info.value (putValue p (mv x.info.value) s) = .ok r s' := by
  unfold Impl.emplaceMove Impl.emplace
  cases hcap : s.c.capacity with
  | none =>
    have h1 : Impl.readCapacity s = .ub := by unfold Impl.readCapacity; rw [hcap]
    have h2 : Impl.readCapacity (putValue p (mv x.info.value) s) = .ub := by
      unfold Impl.readCapacity
      rw [show (putValue p (mv x.info.value) s).c.capacity = none from hcap]
    rw [bind_ub h1, bind_ub h2]
  | some n =>
    have h1 : Impl.readCapacity s = .ok n s := by unfold Impl.readCapacity; rw [hcap]
    have h2 : Impl.readCapacity (putValue p (mv x.info.value) s) = .ok n (putValue p (mv x.info.value) s) := by
      unfold Impl.readCapacity
      rw [show (putValue p (mv x.info.value) s).c.capacity = some n from hcap]
    have hn : n ≠ 0 := by rintro rfl; exact hc hcap
    rw [bind_ok h1, bind_ok h2, if_neg hn, if_neg hn]
    have h3 := attempt_blind (O := O) .construct p (mv x.info.value) s
    cases e1 : attempt O .construct s with
    | ok u s1 =>
      rw [e1] at h3
      have c1 := attempt_state e1
      rw [bind_ok e1, bind_ok h3, read_key (by rw [c1]; exact ha)]
      have h4 : Impl.mapFind k s1 = .ok (s1.c.map.find? (fun n => keq n.key k)) s1 := rfl
      have h5 : Impl.mapFind k (putValue p (mv x.info.value) s1) =
          .ok ((s1.c.map.find? (fun n => keq n.key k)).map (putNode p (mv x.info.value)))
            (putValue p (mv x.info.value) s1) := by
        unfold Impl.mapFind
        rw [putValue_find p (mv x.info.value) s1 (fun n => keq n.key k) fun m => by simp only [putNode_key]]
      rw [bind_ok h4, bind_ok h5]
      have h6 := attempt_blind (O := O) .construct p (mv x.info.value) s1
      cases hf : s1.c.map.find? (fun n => keq n.key k) with
      | none =>
        simp only [Option.map_none]
        cases e2 : attempt O .construct s1 with
        | ok u s2 =>
          rw [e2] at h6
          have c2 := attempt_state e2
          rw [bind_ok e2, bind_ok h6, bind_ok (takeValue_eq (x := x) (by rw [c2, c1]; exact hx))]
        | throw er s2 =>
          rw [e2] at h6
          rw [bind_throw e2, bind_throw h6]
          constructor <;> intro h <;> cases h
        | _ => unfold attempt at e2; dsimp only at e2; split at e2 <;> cases e2
      | some y =>
        simp only [Option.map_some]
        cases e2 : attempt O .construct s1 with
        | ok u s2 =>
          rw [e2] at h6
          have c2 := attempt_state e2
          rw [bind_ok e2, bind_ok h6, bind_ok (takeValue_eq (x := x) (by rw [c2, c1]; exact hx))]
          unfold Impl.moveToFrontAssign
          rw [putNode_addr, putNode_order]
        | throw er s2 =>
          rw [e2] at h6
          rw [bind_throw e2, bind_throw h6]
          constructor <;> intro h <;> cases h
        | _ => unfold attempt at e2; dsimp only at e2; split at e2 <;> cases e2
    | throw er s1 =>
      rw [e1] at h3
      rw [bind_throw e1, bind_throw h3]
      constructor <;> intro h <;> cases h
    | _ => unfold attempt at e1; dsimp only at e1; split at e1 <;> cases e1

theorem putValue_twice (p : Ptr) (w v : V) (s : St (Cache K V) K V) : putValue p v (putValue p w s) = putValue p v s := by
  unfold putValue
  simp only [List.map_map]
  congr 3
  funext m
  simp only [Function.comp]
  by_cases h : m.addr = p
  · simp only [if_pos h]
  · simp only [if_neg h]

/-- An assignment does not depend on the value that is replaced, unless it throws. -/
theorem tryAssign_blind (p : Ptr) (w v : V) (s : St (Cache K V) K V) :
    (∃ s', Impl.tryAssign O p v (putValue p w s) = .ok () s' ∧ Impl.tryAssign O p v s = .ok () s') ∨
      ∃ e s' s'', Impl.tryAssign O p v (putValue p w s) = .throw e s' ∧ Impl.tryAssign O p v s = .throw e s'' := by
  have h : ∀ s : St (Cache K V) K V, may O .assign s = .ok (if O.fails .assign s.g.steps then some s.g.steps else none)
      { s with g := { s.g with steps := s.g.steps + 1 } } := fun _ => rfl
  unfold Impl.tryAssign
  rw [bind_ok (h s), bind_ok (h (putValue p w s))]
  rw [show (putValue p w s).g = s.g from rfl]
  cases O.fails .assign s.g.steps with
  | false =>
    refine .inl ⟨_, ?_, rfl⟩
    exact congrArg (Out.ok ()) (putValue_twice p w v { s with g := { s.g with steps := s.g.steps + 1 } })
  | true => exact .inr ⟨_, _, _, rfl, rfl⟩

/-- Moving the value of an entry into that entry itself. -/
theorem emplace_put_self {n : MapNode K V} (ht : TidyMap s.c.map) (hn : n ∈ s.c.map) (w : V) {r : Bool × Option Ptr}
    (hc : s.c.capacity ≠ some 0) :
    Impl.emplace O n.key n.info.value (putValue n.addr w s) = .ok r s' ↔ Impl.emplace O n.key n.info.value s = .ok r s' := by
  unfold Impl.emplace
  cases hcap : s.c.capacity with
  | none =>
    have h1 : Impl.readCapacity s = .ub := by unfold Impl.readCapacity; rw [hcap]
    have h2 : Impl.readCapacity (putValue n.addr w s) = .ub := by
      unfold Impl.readCapacity
      rw [show (putValue n.addr w s).c.capacity = none from hcap]
    rw [bind_ub h1, bind_ub h2]
  | some m =>
    have h1 : Impl.readCapacity s = .ok m s := by unfold Impl.readCapacity; rw [hcap]
    have h2 : Impl.readCapacity (putValue n.addr w s) = .ok m (putValue n.addr w s) := by
      unfold Impl.readCapacity
      rw [show (putValue n.addr w s).c.capacity = some m from hcap]
    have hm : m ≠ 0 := by rintro rfl; exact hc hcap
    rw [bind_ok h1, bind_ok h2, if_neg hm]
    have h3 := attempt_blind (O := O) .construct n.addr w s
    cases e1 : attempt O .construct s with
    | ok u s1 =>
      rw [e1] at h3
      have c1 := attempt_state e1
      rw [bind_ok e1, bind_ok h3]
      have hf : s1.c.map.find? (fun x => keq x.key n.key) = some n := by rw [c1]; exact ht.keys n hn
      have h4 : Impl.mapFind n.key s1 = .ok (some n) s1 := by unfold Impl.mapFind; rw [hf]
      have h5 : Impl.mapFind n.key (putValue n.addr w s1) =
          .ok (some (putNode n.addr w n)) (putValue n.addr w s1) := by
        unfold Impl.mapFind
        rw [putValue_find n.addr w s1 (fun x => keq x.key n.key) fun m => by simp only [putNode_key], hf]
        rfl
      rw [bind_ok h4, bind_ok h5]
      simp only
      unfold Impl.moveToFrontAssign
      rw [putNode_addr, putNode_order]
      have h6 := attempt_blind (O := O) .construct n.addr w s1
      cases e2 : attempt O .construct s1 with
      | ok u s2 =>
        rw [e2] at h6
        rw [bind_ok e2, bind_ok h6, bind_bind, bind_bind]
        have h7 := moveToFront_blind n.info.order n.addr w s2
        cases e3 : Impl.moveToFront n.info.order s2 with
        | ok u s3 =>
          rw [e3] at h7
          rw [bind_ok e3, bind_ok h7]
          rcases tryAssign_blind (O := O) n.addr w n.info.value s3 with ⟨s4, h8, h9⟩ | ⟨er, s4, s5, h8, h9⟩
          · rw [bind_ok h8, bind_ok h9]
          · rw [bind_throw h8, bind_throw h9]
            constructor <;> intro h <;> cases h
        | throw er s3 =>
          rw [e3] at h7
          rw [bind_throw e3, bind_throw h7]
          constructor <;> intro h <;> cases h
        | ub => rw [e3] at h7; rw [bind_ub e3, bind_ub h7]
        | terminate =>
          rw [e3] at h7
          show M.bind _ _ _ = _ ↔ M.bind _ _ _ = _
          unfold M.bind
          rw [e3, h7]
          exact Iff.rfl
        | diverge =>
          rw [e3] at h7
          show M.bind _ _ _ = _ ↔ M.bind _ _ _ = _
          unfold M.bind
          rw [e3, h7]
          exact Iff.rfl
      | throw er s2 =>
        rw [e2] at h6
        rw [bind_throw e2, bind_throw h6]
        constructor <;> intro h <;> cases h
      | _ => unfold attempt at e2; dsimp only at e2; split at e2 <;> cases e2
    | throw er s1 =>
      rw [e1] at h3
      rw [bind_throw e1, bind_throw h3]
      constructor <;> intro h <;> cases h
    | _ => unfold attempt at e1; dsimp only at e1; split at e1 <;> cases e1

theorem emplace_zero {n : Nat} (hc : s.c.capacity = some 0) (k : K) (v : V) (mv : V → V) (a : KeyRef K) :
    Impl.emplaceMove O mv a n s = .ok (false, none) s ∧ Impl.emplace O k v s = .ok (false, none) s := by
  have h1 : Impl.readCapacity s = .ok 0 s := by unfold Impl.readCapacity; rw [hc]
  constructor
  · unfold Impl.emplaceMove; rw [bind_ok h1]; rfl
  · unfold Impl.emplace; rw [bind_ok h1]; rfl

/-- Moving the value of an entry into that entry itself is as good as copying it. -/
theorem emplaceMove_own {n : MapNode K V} (ht : TidyMap s.c.map) (hn : n ∈ s.c.map) (mv : V → V) {a : KeyRef K}
    (ha : a.In s.c.map n.key) {r : Bool × Option Ptr} :
    Impl.emplaceMove O mv a n.addr s = .ok r s' ↔ Impl.emplace O n.key n.info.value s = .ok r s' := by
  by_cases hc : s.c.capacity = some 0
  · obtain ⟨h1, h2⟩ := emplace_zero (O := O) (n := n.addr) hc n.key n.info.value mv a
    rw [h1, h2]
  · rw [emplaceMove_iff (ht.find hn) ha hc, emplace_put_self ht hn _ hc]

theorem emplace_own {n : MapNode K V} (ht : TidyMap s.c.map) (hn : n ∈ s.c.map) {r : Bool × Option Ptr}
    (h : Impl.emplace O n.key n.info.value s = .ok r s') : s'.c.map = s.c.map ∧ r.1 = false := by
  unfold Impl.emplace at h
  obtain ⟨c, s1, h1, h2⟩ := bind_ok_inv h
  have e1 := readCapacity_keeps _ _ _ h1
  split at h2
  · cases h2; exact ⟨e1, rfl⟩
  · obtain ⟨u, s1', h1', h2'⟩ := bind_ok_inv h2
    have e1' := attempt_keeps _ _ _ _ h1'
    obtain ⟨o, s2, h3, h4⟩ := bind_ok_inv h2'
    have e2 : s2 = s1' ∧ o = s1'.c.map.find? (fun x => keq x.key n.key) := by cases h3; exact ⟨rfl, rfl⟩
    obtain ⟨rfl, ho⟩ := e2
    rw [e1', e1, ht.keys n hn] at ho
    subst ho
    simp only at h4
    obtain ⟨u, s2', h3', h4'⟩ := bind_ok_inv h4
    have e2' := attempt_keeps _ _ _ _ h3'
    obtain ⟨u, s3, h5, h6⟩ := bind_ok_inv h4'
    unfold Impl.moveToFrontAssign at h5
    obtain ⟨u, s4, h7, h8⟩ := bind_ok_inv h5
    have e4 := moveToFront_keeps _ _ _ _ h7
    have e6 : s4.c.map = s.c.map := by rw [e4, e2', e1', e1]
    have e7 : s3.c.map = s.c.map := by
      rw [tryAssign_map h8, e6]
      exact assign_self ht hn
    cases h6
    exact ⟨e7, rfl⟩

theorem bind_ok_iff {m : Impl.CM K V α} {f : α → Impl.CM K V β} {y : β} :
    (m >>= f) s = .ok y s' ↔ ∃ x s1, m s = .ok x s1 ∧ f x s1 = .ok y s' :=
  ⟨fun h => bind_ok_inv h, fun ⟨_, _, h1, h2⟩ => (bind_ok h1).trans h2⟩

theorem insertMoved_iff (mv : V → V) (rest : List (MapNode K V)) {pre : List (MapNode K V)}
    (hm : s.c.map = pre ++ rest) (ht : TidyMap s.c.map) (c : Nat) {fuel : Nat} (hf : rest.length < fuel) {n : Nat} :
    Impl.insertMoved O mv c fuel { pos := (rest.map (·.addr)).head? } s = .ok n s' ↔
      (Impl.insertRangeMove O (rest.map MapNode.pair) >>= fun n => pure (c + n)) s = .ok n s' := by
  induction rest generalizing s pre c fuel with
  | nil =>
    cases fuel with
    | zero => simp at hf
    | succ fuel => exact Iff.rfl
  | cons x rest ih =>
    cases fuel with
    | zero => simp at hf
    | succ fuel =>
      have hn : x ∈ s.c.map := by rw [hm]; simp
      unfold Impl.insertMoved
      rw [if_neg (by rw [show ((x :: rest).map (·.addr)).head? = some x.addr from rfl]; simp [Impl.uEq])]
      have h1 : Impl.uDeref { pos := some x.addr } s = .ok ⟨some x.addr, some x.addr⟩ s :=
        bind_ok (derefIt_find (ht.find hn))
      rw [show ((x :: rest).map (·.addr)).head? = some x.addr from rfl, bind_ok h1]
      simp only
      rw [show Impl.insertRangeMove O ((x :: rest).map MapNode.pair) = Impl.emplace O x.key x.info.value >>= fun r =>
        Impl.insertRangeMove O (rest.map MapNode.pair) >>= fun m => pure ((if r.1 then 1 else 0) + m) from rfl, bind_bind]
      rw [bind_ok_iff, bind_ok_iff]
      refine exists_congr fun r => exists_congr fun s1 => ?_
      rw [emplaceMove_own ht hn mv (a := .stored x.addr) ⟨x, ht.find hn, rfl⟩]
      refine and_congr_right fun hr => ?_
      obtain ⟨h4, h5⟩ := emplace_own ht hn hr
      have hm1 : s1.c.map = pre ++ x :: rest := by rw [h4, hm]
      have ht1 : TidyMap s1.c.map := by rw [h4]; exact ht
      rw [bind_ok (uNext_eq hm1 ht1 _), bind_bind]
      rw [ih (pre := pre ++ [x]) (by rw [hm1]; simp) ht1 _ (by simpa using hf)]
      unfold Impl.newly
      rw [h5]
      refine Eq.to_iff (congrArg (· = Out.ok n s') ?_)
      refine bind_eq_cases fun m s2 _ => ?_
      simp
      rfl

/-! ### What inserting entries into their own cache leaves -/

theorem Reachable.entryFor_of_mem (hO : NoListFault O) (hs : Reachable O s) {x : MapNode K V} (hx : x ∈ elements s.c) :
    entryFor s.c x.key = some x := by
  obtain ⟨t, hr, ht⟩ := hs.rel hO
  obtain ⟨e, he, rfl, _⟩ := hr.ent_of_mem ht hx
  rw [hr.entryFor]
  cases hf : t.c.ents.find? (fun y => keq y.key e.node.key) with
  | none =>
    have := List.find?_eq_none.1 hf e he
    exact absurd (KeyEqual.refl _) this
  | some y =>
    rw [key_inj_of_pairwise' ht.awf.keys y (List.mem_of_find?_eq_some hf) e he
      (List.find?_some (p := fun y : Ent K V => keq y.key e.node.key) hf) (KeyEqual.refl _)]
    rfl

theorem Reachable.map_elements (hO : NoListFault O) (hs : Reachable O s) : s.c.map.Perm (elements s.c) := by
  obtain ⟨t, hr, _⟩ := hs.rel hO
  rw [hr.elements]
  exact hr.rep.map

end LRU
