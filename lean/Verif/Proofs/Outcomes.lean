import Verif.Proofs.Mru
/-!
# Calls on reachable caches, through the closed forms of the list machine
-/

set_option linter.unusedSectionVars false
set_option autoImplicit false

namespace LRU

variable {K V : Type} [KeyEqual K] [DecidableEq K] [DecidableEq V] {O : Oracle K V}
  {s s' : St (Cache K V) K V} {op : Op K V} {r : Res K V} {e : Err} {k : K} {v : V}

theorem mid_inserts_ok {t t' : St (MCache K V) K V} (hO : NoListFault O) (ht : Ok t) (hi : op.Inserts k v)
    (hm : Mid.step O op t = .ok r t') : ∃ b p, InsertOut O k v t (.ok (b, p) t') ∧ r = .inserted b p := by
  rcases hi with rfl | rfl
  · obtain ⟨⟨b, p⟩, h1, h2⟩ := ret_ok_inv hm
    have := insert_out ht hO k v
    rw [h1] at this
    exact ⟨b, p, this, h2⟩
  · obtain ⟨⟨b, p⟩, h1, h2⟩ := ret_ok_inv hm
    have := emplace_out ht hO k v
    rw [h1] at this
    exact ⟨b, p, this, h2⟩

theorem mid_inserts_throw {t t' : St (MCache K V) K V} (hO : NoListFault O) (ht : Ok t) (hi : op.Inserts k v)
    (hm : Mid.step O op t = .throw e t') : InsertOut O k v t (.throw e t') := by
  rcases hi with rfl | rfl
  · have := insert_out ht hO k v
    rw [ret_throw_inv hm] at this
    exact this
  · have := emplace_out ht hO k v
    rw [ret_throw_inv hm] at this
    exact this

/-- An insertion on a reachable cache that returns, seen on the list machine. -/
theorem Reachable.inserts (hO : NoListFault O) (h : Reachable O s) (hi : op.Inserts k v)
    (hd : Returns O op s r s') :
    ∃ t t' b p, Rel s t ∧ Ok t ∧ InsertOut O k v t (.ok (b, p) t') ∧ Rel s' t' ∧ r = .inserted b p := by
  obtain ⟨t, t', h1, h2, h3, h4, _⟩ := h.returns hO hd
  obtain ⟨b, p, h5, h6⟩ := mid_inserts_ok hO h2 hi h3
  exact ⟨t, t', b, p, h1, h2, h5, h4, h6⟩

theorem Reachable.inserts_throw (hO : NoListFault O) (h : Reachable O s) (hi : op.Inserts k v)
    (hd : Throws O op s e s') :
    ∃ t t', Rel s t ∧ Ok t ∧ InsertOut O k v t (.throw e t') ∧ Rel s' t' := by
  obtain ⟨t, t', h1, h2, h3, h4, _⟩ := h.throws hO hd
  exact ⟨t, t', h1, h2, mid_inserts_throw hO h2 hi h3, h4⟩

theorem Rel.count {t : St (MCache K V) K V} (h : Rel s t) : count s.c = t.c.ents.length := by
  unfold LRU.count
  rw [h.elements, List.length_map]

theorem Rel.not_stored {t : St (MCache K V) K V} (h : Rel s t) :
    ¬ Stored s.c k ↔ t.c.ents.find? (fun e => keq e.key k) = none := by
  rw [h.stored]
  cases t.c.ents.find? (fun e => keq e.key k) <;> simp

theorem Rel.entryFor_some {t : St (MCache K V) K V} (h : Rel s t) {n : MapNode K V} (hn : LRU.entryFor s.c k = some n) :
    ∃ e, t.c.ents.find? (fun e => keq e.key k) = some e ∧ n = e.node := by
  rw [h.entryFor] at hn
  cases hf : t.c.ents.find? (fun e => keq e.key k) with
  | none => rw [hf] at hn; cases hn
  | some e =>
    rw [hf] at hn
    injection hn with hn
    exact ⟨e, rfl, hn.symm⟩

/-- On well-linked entries, removing the entry found for a key leaves the entries under other keys. -/
theorem Rel.without {t : St (MCache K V) K V} (h : Rel s t) (ht : Ok t) {x : Ent K V}
    (hf : t.c.ents.find? (fun e => keq e.key k) = some x) :
    (LRU.without x t.c.ents).map Ent.node = LRU.others s.c k := by
  rw [h.others, ht.without_eq hf]

theorem Rel.same {t t' : St (MCache K V) K V} (h : Rel s t) (h' : Rel s' t') (he : t'.c.ents = t.c.ents)
    (hc : t'.c.cap = t.c.cap) (hk : t'.c.kind = t.c.kind) (ho : t'.c.obs = t.c.obs) : SameCache s.c s'.c :=
  ⟨by rw [h.elements, h'.elements, he], by rw [h.rep.cap, h'.rep.cap, hc], by rw [h.rep.kind, h'.rep.kind, hk],
    by rw [h.rep.obs, h'.rep.obs, ho]⟩

/-- When the most recent entry is accessed again nothing moves. -/
theorem toEnd_last {a : MCache K V} (hn : (a.ents.map (·.slot)).Nodup) {x : Ent K V}
    (hx : a.ents.getLast? = some x) : toEnd x a.ents = a.ents := by
  obtain ⟨l, hl⟩ := List.getLast?_eq_some_iff.1 hx
  unfold toEnd
  rw [hl] at hn ⊢
  rw [List.map_append, List.nodup_append] at hn
  rw [List.filter_append]
  have h1 : l.filter (fun y => y.slot != x.slot) = l := by
    rw [List.filter_eq_self]
    intro y hy
    have := hn.2.2 y.slot (List.mem_map.2 ⟨y, hy, rfl⟩) x.slot (by simp)
    simpa using this
  rw [h1]
  simp

theorem Rel.onlyEntries {t : St (MCache K V) K V} {l : List (Ent K V)} (h : Rel s t)
    (h' : Rel s' ⟨t.c.prune l, t.g⟩) : OnlyEntries s s' :=
  ⟨by rw [h.rep.cap, h'.rep.cap]; rfl, by rw [h.rep.kind, h'.rep.kind]; rfl, by rw [h.rep.obs, h'.rep.obs]; rfl,
    by rw [h.g, h'.g]⟩

theorem others_not_stored (c : Cache K V) (k : K) : ∀ n ∈ others c k, keq n.key k = false := by
  intro n hn
  have := (List.mem_filter.1 hn).2
  simpa using this

/-- Every stored entry is the one found under its key. -/
theorem Rel.ent_of_mem {t : St (MCache K V) K V} (hr : Rel s t) (ht : Ok t) {x : MapNode K V} (hx : x ∈ LRU.elements s.c) :
    ∃ e ∈ t.c.ents, e.node = x ∧ t.c.ents.find? (fun y => keq y.key x.key) = some e := by
  rw [hr.elements] at hx
  obtain ⟨e, he, rfl⟩ := List.mem_map.1 hx
  exact ⟨e, he, rfl, ht.findKey he (KeyEqual.refl _)⟩

theorem Rel.ent_at {t : St (MCache K V) K V} (hr : Rel s t) (ht : Ok t) {q : Ptr} {x : MapNode K V}
    (hx : At s.c q x) : ∃ e ∈ t.c.ents, e.node = x ∧ e.slot = q ∧
      t.c.ents.find? (fun y => keq y.key x.key) = some e := by
  obtain ⟨h1, h2⟩ := hx
  obtain ⟨e, he, rfl, hf⟩ := hr.ent_of_mem ht h1
  rw [hr.rep.order] at h2
  obtain ⟨e', he', h3⟩ := List.mem_map.1 h2
  have h4 : e'.id = e.id := congrArg ListNode.ref h3
  have h5 : e'.slot = q := congrArg ListNode.addr h3
  have := map_inj_of_nodup ht.awf.ids e' he' e he h4
  subst this
  exact ⟨_, he, rfl, h5, hf⟩

section access

variable {t t' : St (MCache K V) K V}

/-- How an access can return. -/
inductive AccessOk (O : Oracle K V) (op : Op K V) (k : K) (t : St (MCache K V) K V) :
    Res K V → St (MCache K V) K V → Prop
  | last (e : Ent K V) (r : Res K V) : t.c.lastEnt = some e → t.c.ents.find? (fun x => keq x.key k) = some e →
      expiredAt O t.c.kind t.g e.time = false → Hit op r e.node → QuietHit O t.c.obs t.g.steps →
      AccessOk O op k t r ⟨t.c, hitG t.c.obs k e.val (tickG t.c.kind t.g)⟩
  | hit (e : Ent K V) (r : Res K V) (j : Nat) : t.c.ents.find? (fun x => keq x.key k) = some e →
      expiredAt O t.c.kind t.g e.time = false → Hit op r e.node → (j = 0 ∨ op = .lookup k) →
      (op = .lookup k → j = t.c.kind.reads ∧ expiredAt O t.c.kind (tickG t.c.kind t.g) e.time = false) → QuietHit O t.c.obs t.g.steps →
      AccessOk O op k t r ⟨t.c.touch e, { hitG t.c.obs k e.val (tickG t.c.kind t.g) with
        ticks := (tickG t.c.kind t.g).ticks + j }⟩
  | absent (r : Res K V) : t.c.ents.find? (fun x => keq x.key k) = none → Miss r → QuietMiss O t.c.obs t.g.steps →
      AccessOk O op k t r ⟨t.c, missG t.c.obs k t.g⟩
  | expired (e : Ent K V) (r : Res K V) : t.c.ents.find? (fun x => keq x.key k) = some e → t.c.lastMatches k = false ∨ op = .find k →
      expiredAt O t.c.kind t.g e.time = true → Miss r → QuietMiss O t.c.obs t.g.steps →
      AccessOk O op k t r ⟨t.c, missG t.c.obs k (tickG t.c.kind t.g)⟩
  | lastExpired (e : Ent K V) : op = .contains k → t.c.lastEnt = some e →
      t.c.ents.find? (fun x => keq x.key k) = some e → expiredAt O t.c.kind t.g e.time = true →
      AccessOk O op k t (.bool false) ⟨t.c, tickG t.c.kind t.g⟩

/-- How an access can throw. -/
inductive AccessThrow (O : Oracle K V) (op : Op K V) (k : K) (t : St (MCache K V) K V) :
    Err → St (MCache K V) K V → Prop
  | hitUser (e : Ent K V) (n cb : Nat) : t.c.ents.find? (fun x => keq x.key k) = some e →
      expiredAt O t.c.kind t.g e.time = false →
      (t.c.obs.hitCbs ++ t.c.obs.accCbs)[n]? = some cb → O.fails (.callback cb) (t.g.steps + n) = true →
      AccessThrow O op k t .user ⟨t.c, hitThrowG t.c.obs k e.val n (tickG t.c.kind t.g)⟩
  | missUser (n cb : Nat) : t.c.ents.find? (fun x => keq x.key k) = none →
      (t.c.obs.missCbs ++ t.c.obs.accCbs)[n]? = some cb → O.fails (.callback cb) (t.g.steps + n) = true →
      AccessThrow O op k t .user ⟨t.c, missThrowG t.c.obs k n t.g⟩
  | expiredUser (e : Ent K V) (n cb : Nat) : t.c.ents.find? (fun x => keq x.key k) = some e →
      expiredAt O t.c.kind t.g e.time = true →
      (t.c.obs.missCbs ++ t.c.obs.accCbs)[n]? = some cb → O.fails (.callback cb) (t.g.steps + n) = true →
      AccessThrow O op k t .user ⟨t.c, missThrowG t.c.obs k n (tickG t.c.kind t.g)⟩
  | notFound : op = .lookup k → t.c.ents.find? (fun x => keq x.key k) = none → QuietMiss O t.c.obs t.g.steps →
      AccessThrow O op k t .keyNotFound ⟨t.c, missG t.c.obs k t.g⟩
  | expired (e : Ent K V) : op = .lookup k → t.c.lastMatches k = false →
      t.c.ents.find? (fun x => keq x.key k) = some e → expiredAt O t.c.kind t.g e.time = true → QuietMiss O t.c.obs t.g.steps →
      AccessThrow O op k t .keyNotFound ⟨t.c, missG t.c.obs k (tickG t.c.kind t.g)⟩
  | lastExpired (e : Ent K V) : op = .lookup k → t.c.lastEnt = some e →
      t.c.ents.find? (fun x => keq x.key k) = some e → expiredAt O t.c.kind t.g e.time = true →
      AccessThrow O op k t .keyExpired ⟨t.c, tickG t.c.kind t.g⟩
  | lateExpired (e : Ent K V) : op = .lookup k → t.c.lastMatches k = false →
      t.c.ents.find? (fun x => keq x.key k) = some e → expiredAt O t.c.kind t.g e.time = false →
      expiredAt O t.c.kind (tickG t.c.kind t.g) e.time = true → QuietHit O t.c.obs t.g.steps →
      AccessThrow O op k t .keyExpired
        ⟨t.c.touch e, tickG t.c.kind (hitG t.c.obs k e.val (tickG t.c.kind t.g))⟩

theorem Ok.find_last (ht : Ok t) {x : Ent K V} (hx : t.c.lastEnt = some x) (hk : keq k x.key = true) :
    t.c.ents.find? (fun x => keq x.key k) = some x :=
  ht.findKey (lastEnt_mem hx).1 (by rw [KeyEqual.symm]; exact hk)

/-- Every access on a well-linked cache returns or throws in one of these ways. -/
theorem mid_access (ht : Ok t) (ha : op.Accesses k) :
    (∃ r t', Mid.step O op t = .ok r t' ∧ AccessOk O op k t r t') ∨
    (∃ e t', Mid.step O op t = .throw e t' ∧ AccessThrow O op k t e t') := by
  rcases ha with rfl | rfl | rfl
  · have ho := contains_out (O := O) ht k
    generalize hr : Mid.contains O k t = r at ho
    cases ho with
    | lastHit e h1 h2 h3 h4 => exact .inl ⟨_, _, bind_ok hr, .last e _ h1 (ht.find_last h1 h2) h3 rfl h4⟩
    | lastThrow e n cb h1 h2 h3 h4 h5 => exact .inr ⟨_, _, bind_throw hr, .hitUser e n cb (ht.find_last h1 h2) h3 h4 h5⟩
    | lastExpired e h1 h2 h3 => exact .inl ⟨_, _, bind_ok hr, .lastExpired e rfl h1 (ht.find_last h1 h2) h3⟩
    | found p t' hm hf =>
      refine .inl ⟨_, _, bind_ok hr, ?_⟩
      cases hf with
      | absent h1 hq => exact .absent _ h1 (.inl rfl) hq
      | expired e h1 h2 hq => exact .expired e _ h1 (.inl hm) h2 (.inl rfl) hq
      | hit e h1 h2 hq => exact .hit e _ 0 h1 h2 rfl (.inl rfl) (by intro h; cases h) hq
    | throws e t' hm hf =>
      refine .inr ⟨_, _, bind_throw hr, ?_⟩
      cases hf with
      | absentThrow n cb h1 h2 h3 => exact .missUser n cb h1 h2 h3
      | expiredThrow e n cb h1 h2 h3 h4 => exact .expiredUser e n cb h1 h2 h3 h4
      | hitThrow e n cb h1 h2 h3 h4 => exact .hitUser e n cb h1 h2 h3 h4
  · have hf := find_out (O := O) ht k
    generalize hr : Mid.find O k t = r at hf
    cases hf with
    | absent h1 hq => exact .inl ⟨_, _, bind_ok hr, .absent _ h1 (.inr rfl) hq⟩
    | expired e h1 h2 hq => exact .inl ⟨_, _, bind_ok hr, .expired e _ h1 (.inr rfl) h2 (.inr rfl) hq⟩
    | hit e h1 h2 hq => exact .inl ⟨_, _, bind_ok hr, .hit e _ 0 h1 h2 rfl (.inl rfl) (by intro h; cases h) hq⟩
    | absentThrow n cb h1 h2 h3 => exact .inr ⟨_, _, bind_throw hr, .missUser n cb h1 h2 h3⟩
    | expiredThrow e n cb h1 h2 h3 h4 => exact .inr ⟨_, _, bind_throw hr, .expiredUser e n cb h1 h2 h3 h4⟩
    | hitThrow e n cb h1 h2 h3 h4 => exact .inr ⟨_, _, bind_throw hr, .hitUser e n cb h1 h2 h3 h4⟩
  · have ho := lookup_out (O := O) ht k
    generalize hr : Mid.lookup O k t = r at ho
    cases ho with
    | lastHit e h1 h2 h3 h4 => exact .inl ⟨_, _, bind_ok hr, .last e _ h1 (ht.find_last h1 h2) h3 rfl h4⟩
    | lastThrow e n cb h1 h2 h3 h4 h5 => exact .inr ⟨_, _, bind_throw hr, .hitUser e n cb (ht.find_last h1 h2) h3 h4 h5⟩
    | lastExpired e h1 h2 h3 => exact .inr ⟨_, _, bind_throw hr, .lastExpired e rfl h1 (ht.find_last h1 h2) h3⟩
    | notFound t' hm hf =>
      refine .inr ⟨_, _, bind_throw hr, ?_⟩
      cases hf with
      | absent h1 hq => exact .notFound rfl h1 hq
      | expired e h1 h2 hq => exact .expired e rfl hm h1 h2 hq
    | throws e t' hm hf =>
      refine .inr ⟨_, _, bind_throw hr, ?_⟩
      cases hf with
      | absentThrow n cb h1 h2 h3 => exact .missUser n cb h1 h2 h3
      | expiredThrow e n cb h1 h2 h3 h4 => exact .expiredUser e n cb h1 h2 h3 h4
      | hitThrow e n cb h1 h2 h3 h4 => exact .hitUser e n cb h1 h2 h3 h4
    | hit e hm h1 h2 h3 hq => exact .inl ⟨_, _, bind_ok hr, .hit e _ _ h1 h2 rfl (.inr rfl) (fun _ => ⟨rfl, h3⟩) hq⟩
    | lateExpired e hm h1 h2 h3 hq => exact .inr ⟨_, _, bind_throw hr, .lateExpired e rfl hm h1 h2 h3 hq⟩

theorem Reachable.access (hO : NoListFault O) (h : Reachable O s) (ha : op.Accesses k) (hd : Returns O op s r s') :
    ∃ t t', Rel s t ∧ Ok t ∧ AccessOk O op k t r t' ∧ Rel s' t' := by
  obtain ⟨t, t', h1, h2, h3, h4, _⟩ := h.returns hO hd
  rcases mid_access (O := O) h2 ha with ⟨r', t'', h5, h6⟩ | ⟨e, t'', h5, h6⟩
  · rw [h3] at h5
    injection h5 with h5 h7
    subst h5 h7
    exact ⟨t, _, h1, h2, h6, h4⟩
  · rw [h3] at h5; cases h5

theorem Reachable.access_throw (hO : NoListFault O) (h : Reachable O s) (ha : op.Accesses k)
    (hd : Throws O op s e s') : ∃ t t', Rel s t ∧ Ok t ∧ AccessThrow O op k t e t' ∧ Rel s' t' := by
  obtain ⟨t, t', h1, h2, h3, h4, _⟩ := h.throws hO hd
  rcases mid_access (O := O) h2 ha with ⟨r', t'', h5, h6⟩ | ⟨e, t'', h5, h6⟩
  · rw [h3] at h5; cases h5
  · rw [h3] at h5
    injection h5 with h5 h7
    subst h5 h7
    exact ⟨t, _, h1, h2, h6, h4⟩

end access

end LRU
