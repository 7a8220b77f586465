import Verif.Proofs.Effects
/-!
# Outcomes of lookups and insertions on well-linked caches
-/

set_option linter.unusedSectionVars false

namespace LRU

variable {K V : Type} [KeyEqual K]

theorem Ok.mono {c : MCache K V} {g g' : Shared K V} (h : Ok ⟨c, g⟩) (he : g'.ext = g.ext)
    (hn : g.next ≤ g'.next) : Ok ⟨c, g'⟩ :=
  ⟨h.awf.mono he hn, h.clean⟩

theorem Ok.mono' {t : St (MCache K V) K V} {g' : Shared K V} (h : Ok t) (he : g'.ext = t.g.ext)
    (hn : t.g.next ≤ g'.next) : Ok ⟨t.c, g'⟩ :=
  ⟨h.awf.mono he hn, h.clean⟩

/-- The entry becomes the most recent and the last accessed one. -/
def MCache.touch (a : MCache K V) (e : Ent K V) : MCache K V :=
  { a with ents := toEnd e a.ents, last := some e.id }

section touch

variable {t : St (MCache K V) K V}

theorem toEnd_perm (h : Ok t) {e : Ent K V} (he : e ∈ t.c.ents) : (toEnd e t.c.ents).Perm t.c.ents := by
  unfold toEnd
  refine filter_append_perm he (by simp) ?_ (nodup_of_map h.awf.slots)
  intro y hy hys
  have : y.slot = e.slot := by simpa using hys
  exact map_inj_of_nodup h.awf.slots y hy e he this

theorem Ok.move (h : Ok t) {e : Ent K V} (he : e ∈ t.c.ents) :
    Ok ⟨{ t.c with ents := toEnd e t.c.ents }, t.g⟩ := by
  have p := toEnd_perm h he
  refine ⟨h.awf.perm p, ?_, ?_⟩
  · intro x hx
    exact h.clean.linked x (p.mem_iff.1 hx)
  · intro q hq
    obtain ⟨x, hx, hid⟩ := h.clean.last q hq
    exact ⟨x, p.mem_iff.2 hx, hid⟩

theorem Ok.setLast (h : Ok t) {e : Ent K V} (he : e ∈ t.c.ents) :
    Ok ⟨{ t.c with last := some e.id }, t.g⟩ :=
  ⟨h.awf.setLast ⟨e, he, rfl⟩, h.clean.linked, by
    intro p hp
    simp only [Option.some.injEq] at hp
    exact ⟨e, he, hp⟩⟩

theorem Ok.touch (h : Ok t) {e : Ent K V} (he : e ∈ t.c.ents) : Ok ⟨t.c.touch e, t.g⟩ :=
  (h.move he).setLast (e := e) ((toEnd_perm h he).mem_iff.2 he)

end touch

section find

variable [DecidableEq K] {O : Oracle K V} {t : St (MCache K V) K V}

/-- None of the callbacks of a hit, started at step `n`, throws. -/
def QuietHit (O : Oracle K V) (o : Obs) (n : Nat) : Prop :=
  ∀ i cb, (o.hitCbs ++ o.accCbs)[i]? = some cb → O.fails (.callback cb) (n + i) = false

/-- None of the callbacks of a miss, started at step `n`, throws. -/
def QuietMiss (O : Oracle K V) (o : Obs) (n : Nat) : Prop :=
  ∀ i cb, (o.missCbs ++ o.accCbs)[i]? = some cb → O.fails (.callback cb) (n + i) = false

/-- The possible outcomes of `find(k)`. -/
inductive FindOut (O : Oracle K V) (k : K) (t : St (MCache K V) K V) :
    Out (St (MCache K V) K V) (Option Ptr) → Prop
  | absent : t.c.ents.find? (fun x => keq x.key k) = none → QuietMiss O t.c.obs t.g.steps →
      FindOut O k t (.ok none ⟨t.c, missG t.c.obs k t.g⟩)
  | absentThrow (n cb) : t.c.ents.find? (fun x => keq x.key k) = none →
      (t.c.obs.missCbs ++ t.c.obs.accCbs)[n]? = some cb → O.fails (.callback cb) (t.g.steps + n) = true →
      FindOut O k t (.throw .user ⟨t.c, missThrowG t.c.obs k n t.g⟩)
  | expired (e) : t.c.ents.find? (fun x => keq x.key k) = some e →
      expiredAt O t.c.kind t.g e.time = true → QuietMiss O t.c.obs t.g.steps →
      FindOut O k t (.ok none ⟨t.c, missG t.c.obs k (tickG t.c.kind t.g)⟩)
  | expiredThrow (e n cb) : t.c.ents.find? (fun x => keq x.key k) = some e →
      expiredAt O t.c.kind t.g e.time = true →
      (t.c.obs.missCbs ++ t.c.obs.accCbs)[n]? = some cb → O.fails (.callback cb) (t.g.steps + n) = true →
      FindOut O k t (.throw .user ⟨t.c, missThrowG t.c.obs k n (tickG t.c.kind t.g)⟩)
  | hit (e) : t.c.ents.find? (fun x => keq x.key k) = some e →
      expiredAt O t.c.kind t.g e.time = false → QuietHit O t.c.obs t.g.steps →
      FindOut O k t (.ok (some e.id) ⟨t.c.touch e, hitG t.c.obs k e.val (tickG t.c.kind t.g)⟩)
  | hitThrow (e n cb) : t.c.ents.find? (fun x => keq x.key k) = some e →
      expiredAt O t.c.kind t.g e.time = false →
      (t.c.obs.hitCbs ++ t.c.obs.accCbs)[n]? = some cb → O.fails (.callback cb) (t.g.steps + n) = true →
      FindOut O k t (.throw .user ⟨t.c, hitThrowG t.c.obs k e.val n (tickG t.c.kind t.g)⟩)

theorem find_out (h : Ok t) (k : K) : FindOut O k t (Mid.find O k t) := by
  unfold Mid.find
  rw [bind_ok (m := Mid.getObs) (s := t) rfl, bind_ok (m := Mid.mapFind k) (s := t) rfl]
  cases hf : t.c.ents.find? (fun x => keq x.key k) with
  | none =>
    simp only [Option.map_none]
    rcases registerMiss_cases (O := O) t.c.obs k t with ⟨h1, h2⟩ | ⟨n, cb, h1, h2, h3⟩
    · rw [bind_ok h1]; exact .absent hf h2
    · rw [bind_throw h3]; exact .absentThrow n cb hf h1 h2
  | some e =>
    obtain ⟨he, hk⟩ := find_mem hf
    simp only [Option.map_some]
    rw [bind_ok (hasExpiredInfo_eq O _ t)]
    have e1 : e.node.info.time = e.time := rfl
    have e2 : e.node.info.value = e.val := rfl
    have e3 : e.node.info.order = e.ord := rfl
    have e4 : e.node.addr = e.id := rfl
    rw [e1, e2, e3, e4]
    cases hx : expiredAt O t.c.kind t.g e.time with
    | true =>
      rw [if_pos rfl]
      rcases registerMiss_cases (O := O) t.c.obs k ⟨t.c, tickG t.c.kind t.g⟩ with ⟨h1, h2⟩ | ⟨n, cb, h1, h2, h3⟩
      · rw [bind_ok h1]; exact .expired e hf hx h2
      · rw [bind_throw h3]; exact .expiredThrow e n cb hf hx h1 h2
    | false =>
      rw [if_neg (by simp)]
      rcases registerHit_cases (O := O) t.c.obs k e.val ⟨t.c, tickG t.c.kind t.g⟩ with
        ⟨h1, h2⟩ | ⟨n, cb, h1, h2, h3⟩
      · rw [bind_ok h1]
        have h' : Ok ⟨t.c, hitG t.c.obs k e.val (tickG t.c.kind t.g)⟩ := h.mono' rfl (Nat.le_refl _)
        rw [bind_ok (moveToFront_eq h' he)]
        exact .hit e hf hx h2
      · rw [bind_throw h3]; exact .hitThrow e n cb hf hx h1 h2

/-- The possible outcomes of `contains(k)`. -/
inductive ContainsOut (O : Oracle K V) (k : K) (t : St (MCache K V) K V) :
    Out (St (MCache K V) K V) Bool → Prop
  | lastHit (e) : t.c.lastEnt = some e → keq k e.key = true → expiredAt O t.c.kind t.g e.time = false → QuietHit O t.c.obs t.g.steps →
      ContainsOut O k t (.ok true ⟨t.c, hitG t.c.obs k e.val (tickG t.c.kind t.g)⟩)
  | lastThrow (e n cb) : t.c.lastEnt = some e → keq k e.key = true → expiredAt O t.c.kind t.g e.time = false →
      (t.c.obs.hitCbs ++ t.c.obs.accCbs)[n]? = some cb → O.fails (.callback cb) (t.g.steps + n) = true →
      ContainsOut O k t (.throw .user ⟨t.c, hitThrowG t.c.obs k e.val n (tickG t.c.kind t.g)⟩)
  | lastExpired (e) : t.c.lastEnt = some e → keq k e.key = true → expiredAt O t.c.kind t.g e.time = true →
      ContainsOut O k t (.ok false ⟨t.c, tickG t.c.kind t.g⟩)
  | found (p t') : t.c.lastMatches k = false → FindOut O k t (.ok p t') →
      ContainsOut O k t (.ok p.isSome t')
  | throws (e t') : t.c.lastMatches k = false → FindOut O k t (.throw e t') →
      ContainsOut O k t (.throw e t')

theorem lastAccessedIsOk_eq (h : Ok t) {e : Ent K V} (he : t.c.lastEnt = some e) :
    Mid.lastAccessedIsOk O t = .ok (!expiredAt O t.c.kind t.g e.time) ⟨t.c, tickG t.c.kind t.g⟩ := by
  unfold Mid.lastAccessedIsOk
  rw [bind_ok (m := Mid.getKind) (s := t) rfl]
  cases hk : t.c.kind with
  | basic => rfl
  | timed ttl res =>
    simp only
    rw [bind_ok (lastNode_eq h he), bind_ok (hasExpiredInfo_eq O _ t), hk]
    rfl

theorem contains_out (h : Ok t) (k : K) : ContainsOut O k t (Mid.contains O k t) := by
  unfold Mid.contains
  rw [bind_ok (m := Mid.getObs) (s := t) rfl, bind_ok (lastIs_eq h k)]
  cases hm : t.c.lastMatches k with
  | true =>
    rw [if_pos rfl]
    obtain ⟨e, he, hk⟩ := lastMatches_iff.1 hm
    rw [bind_ok (lastAccessedIsOk_eq h he)]
    cases hx : expiredAt O t.c.kind t.g e.time with
    | true =>
      exact .lastExpired e he hk hx
    | false =>
      have h' : Ok ⟨t.c, tickG t.c.kind t.g⟩ := h.mono' rfl (Nat.le_refl _)
      rw [if_pos (by rfl), bind_ok (lastNode_eq h' he)]
      have e2 : e.node.info.value = e.val := rfl
      rw [e2]
      rcases registerHit_cases (O := O) t.c.obs k e.val ⟨t.c, tickG t.c.kind t.g⟩ with
        ⟨h1, h2⟩ | ⟨n, cb, h1, h2, h3⟩
      · rw [bind_ok h1]; exact .lastHit e he hk hx h2
      · rw [bind_throw h3]; exact .lastThrow e n cb he hk hx h1 h2
  | false =>
    rw [if_neg (by simp)]
    have hf := find_out (O := O) h k
    generalize hr : Mid.find O k t = r at hf
    cases r with
    | ok p t' => rw [bind_ok hr]; exact .found p t' hm hf
    | throw e t' => rw [bind_throw hr]; exact .throws e t' hm hf
    | ub => cases hf
    | terminate => cases hf
    | diverge => cases hf

theorem throwIfInvalidU_eq (h : Ok t) {e : Ent K V} (he : e ∈ t.c.ents) :
    Mid.throwIfInvalidU O (some e.id) t =
      if expiredAt O t.c.kind t.g e.time then .throw .keyExpired ⟨t.c, tickG t.c.kind t.g⟩
      else .ok () ⟨t.c, tickG t.c.kind t.g⟩ := by
  unfold Mid.throwIfInvalidU
  simp only
  rw [bind_ok (m := Mid.getKind) (s := t) rfl]
  cases hk : t.c.kind with
  | basic => rfl
  | timed ttl res =>
    simp only
    rw [bind_ok (derefIt_own h he), bind_ok (hasExpiredInfo_eq O _ t), hk]
    have e1 : e.node.info.time = e.time := rfl
    rw [e1]
    cases hx : expiredAt O (.timed ttl res) t.g e.time <;> rfl

theorem entryU_eq (h : Ok t) {e : Ent K V} (he : e ∈ t.c.ents) :
    Mid.entryU O (some e.id) t =
      if expiredAt O t.c.kind t.g e.time then .throw .keyExpired ⟨t.c, tickG t.c.kind t.g⟩
      else .ok e.node ⟨t.c, tickG t.c.kind t.g⟩ := by
  unfold Mid.entryU
  rw [bind_ok (derefIt_own h he)]
  have := throwIfInvalidU_eq (O := O) h he
  cases hx : expiredAt O t.c.kind t.g e.time with
  | true =>
    rw [hx, if_pos rfl] at this
    rw [bind_throw this, if_pos rfl]
  | false =>
    rw [hx, if_neg (by simp)] at this
    rw [bind_ok this, if_neg (by simp)]
    rfl

theorem valueForLastAccessed_eq (h : Ok t) {e : Ent K V} (he : t.c.lastEnt = some e) :
    Mid.valueForLastAccessed O t =
      if expiredAt O t.c.kind t.g e.time then .throw .keyExpired ⟨t.c, tickG t.c.kind t.g⟩
      else .ok e.node ⟨t.c, tickG t.c.kind t.g⟩ := by
  unfold Mid.valueForLastAccessed
  rw [bind_ok (lastNode_eq h he), bind_ok (m := Mid.getKind) (s := t) rfl]
  cases hk : t.c.kind with
  | basic => rfl
  | timed ttl res =>
    simp only
    rw [bind_ok (hasExpiredInfo_eq O _ t), hk]
    have e1 : e.node.info.time = e.time := rfl
    rw [e1]
    cases hx : expiredAt O (.timed ttl res) t.g e.time <;> rfl

/-- The possible outcomes of `lookup(k)`. -/
inductive LookupOut (O : Oracle K V) (k : K) (t : St (MCache K V) K V) :
    Out (St (MCache K V) K V) (Ptr × V) → Prop
  | lastHit (e) : t.c.lastEnt = some e → keq k e.key = true → expiredAt O t.c.kind t.g e.time = false → QuietHit O t.c.obs t.g.steps →
      LookupOut O k t (.ok (e.id, e.val) ⟨t.c, hitG t.c.obs k e.val (tickG t.c.kind t.g)⟩)
  | lastThrow (e n cb) : t.c.lastEnt = some e → keq k e.key = true → expiredAt O t.c.kind t.g e.time = false →
      (t.c.obs.hitCbs ++ t.c.obs.accCbs)[n]? = some cb → O.fails (.callback cb) (t.g.steps + n) = true →
      LookupOut O k t (.throw .user ⟨t.c, hitThrowG t.c.obs k e.val n (tickG t.c.kind t.g)⟩)
  | lastExpired (e) : t.c.lastEnt = some e → keq k e.key = true → expiredAt O t.c.kind t.g e.time = true →
      LookupOut O k t (.throw .keyExpired ⟨t.c, tickG t.c.kind t.g⟩)
  | notFound (t') : t.c.lastMatches k = false → FindOut O k t (.ok none t') →
      LookupOut O k t (.throw .keyNotFound t')
  | throws (e t') : t.c.lastMatches k = false → FindOut O k t (.throw e t') →
      LookupOut O k t (.throw e t')
  | hit (e) : t.c.lastMatches k = false → t.c.ents.find? (fun x => keq x.key k) = some e →
      expiredAt O t.c.kind t.g e.time = false →
      expiredAt O t.c.kind (tickG t.c.kind t.g) e.time = false → QuietHit O t.c.obs t.g.steps →
      LookupOut O k t (.ok (e.id, e.val)
        ⟨t.c.touch e, tickG t.c.kind (hitG t.c.obs k e.val (tickG t.c.kind t.g))⟩)
  | lateExpired (e) : t.c.lastMatches k = false → t.c.ents.find? (fun x => keq x.key k) = some e →
      expiredAt O t.c.kind t.g e.time = false →
      expiredAt O t.c.kind (tickG t.c.kind t.g) e.time = true → QuietHit O t.c.obs t.g.steps →
      LookupOut O k t (.throw .keyExpired
        ⟨t.c.touch e, tickG t.c.kind (hitG t.c.obs k e.val (tickG t.c.kind t.g))⟩)

theorem lookup_out (h : Ok t) (k : K) : LookupOut O k t (Mid.lookup O k t) := by
  unfold Mid.lookup
  rw [bind_ok (m := Mid.getObs) (s := t) rfl, bind_ok (lastIs_eq h k)]
  cases hm : t.c.lastMatches k with
  | true =>
    rw [if_pos rfl]
    obtain ⟨e, he, hk⟩ := lastMatches_iff.1 hm
    have hv := valueForLastAccessed_eq (O := O) h he
    cases hx : expiredAt O t.c.kind t.g e.time with
    | true =>
      rw [hx, if_pos rfl] at hv
      rw [bind_throw hv]
      exact .lastExpired e he hk hx
    | false =>
      rw [hx, if_neg (by simp)] at hv
      rw [bind_ok hv]
      have e2 : e.node.info.value = e.val := rfl
      rw [e2]
      rcases registerHit_cases (O := O) t.c.obs k e.val ⟨t.c, tickG t.c.kind t.g⟩ with
        ⟨h1, h2⟩ | ⟨n, cb, h1, h2, h3⟩
      · rw [bind_ok h1]; exact .lastHit e he hk hx h2
      · rw [bind_throw h3]; exact .lastThrow e n cb he hk hx h1 h2
  | false =>
    rw [if_neg (by simp)]
    have hf := find_out (O := O) h k
    generalize hr : Mid.find O k t = r at hf
    cases r with
    | ok p t' =>
      rw [bind_ok hr]
      cases p with
      | none => exact .notFound t' hm hf
      | some p =>
        cases hf with
        | hit e hfk hx hq =>
          have he := (find_mem hfk).1
          have h' : Ok ⟨t.c.touch e, hitG t.c.obs k e.val (tickG t.c.kind t.g)⟩ :=
            (h.touch he).mono rfl (Nat.le_refl _)
          have he' : e ∈ (t.c.touch e).ents := by simp [MCache.touch, toEnd]
          have hv := entryU_eq (O := O) h' he'
          have e1 : expiredAt O (t.c.touch e).kind (hitG t.c.obs k e.val (tickG t.c.kind t.g)) e.time
              = expiredAt O t.c.kind (tickG t.c.kind t.g) e.time := rfl
          simp only at hv
          rw [e1] at hv
          cases hx2 : expiredAt O t.c.kind (tickG t.c.kind t.g) e.time with
          | true =>
            rw [hx2, if_pos rfl] at hv
            simp only
            rw [bind_throw hv]
            exact .lateExpired e hm hfk hx hx2 hq
          | false =>
            rw [hx2, if_neg (by simp)] at hv
            simp only
            rw [bind_ok hv]
            exact .hit e hm hfk hx hx2 hq
    | throw e t' => rw [bind_throw hr]; exact .throws e t' hm hf
    | ub => cases hf
    | terminate => cases hf
    | diverge => cases hf

end find

/-- Nothing observable happened to the shared state; only counters advanced. -/
structure Quiet (g g' : Shared K V) : Prop where
  ext : g'.ext = g.ext
  stats : g'.stats = g.stats
  nextStat : g'.nextStat = g.nextStat
  log : g'.log = g.log
  next : g.next ≤ g'.next
  ticks : g.ticks ≤ g'.ticks

/-- The insertion time stored for a new entry. -/
def Kind.stamp (kind : Kind) (now : Int) : Int :=
  match kind with
  | .basic => 0
  | .timed .. => now

theorem out_bind_ok {σ α β : Type} {P : Out σ β → Prop} {m : M σ α} {f : α → M σ β} {s s' : σ} {a : α}
    (h : m s = .ok a s') (h' : P (f a s')) : P ((m >>= f) s) := by
  rw [bind_ok h]; exact h'

theorem out_bind_throw {σ α β : Type} {P : Out σ β → Prop} {m : M σ α} {f : α → M σ β} {s s' : σ} {e : Err}
    (h : m s = .throw e s') (h' : P (.throw e s')) : P ((m >>= f) s) := by
  rw [bind_throw h]; exact h'

section insert

variable {O : Oracle K V} {t : St (MCache K V) K V}

/-- The possible outcomes of `insert(k, v)` and `emplace(k, v)`. -/
inductive InsertOut (O : Oracle K V) (k : K) (v : V) (t : St (MCache K V) K V) :
    Out (St (MCache K V) K V) (Bool × Option Ptr) → Prop
  | unset : t.c.cap = none → InsertOut O k v t .ub
  | zero : t.c.cap = some 0 → InsertOut O k v t (.ok (false, none) t)
  | fault (g' site n) : t.c.cap ≠ some 0 → t.c.cap ≠ none → Quiet t.g g' →
      (site = .construct ∨ site = .mapNode) → O.fails site n = true →
      InsertOut O k v t (.throw .badAlloc ⟨t.c, g'⟩)
  | full (g' e r) (n : Nat) : t.c.ents.find? (fun x => keq x.key k) = none → t.c.cap = some (n + 1) →
      t.c.ents = e :: r → r.length = n → Quiet t.g g' → t.g.next < g'.next →
      g'.next = t.g.next + 1 ∧ g'.ticks = t.g.ticks + t.c.kind.reads →
      InsertOut O k v t (.ok (true, some t.g.next)
        ⟨{ t.c with
            ents := r ++ [⟨t.g.next, e.slot, k, v, t.c.kind.stamp (O.clock t.g.ticks), some e.slot⟩]
            last := some t.g.next }, g'⟩)
  | room (g' n q) : t.c.ents.find? (fun x => keq x.key k) = none → t.c.cap = some n →
      t.c.ents.length < n → Quiet t.g g' → t.g.next < q → q < g'.next →
      q = t.g.next + 1 ∧ g'.next = t.g.next + 2 ∧ g'.ticks = t.g.ticks + t.c.kind.reads →
      InsertOut O k v t (.ok (true, some t.g.next)
        ⟨{ t.c with
            ents := t.c.ents ++ [⟨t.g.next, q, k, v, t.c.kind.stamp (O.clock t.g.ticks), some q⟩]
            last := some t.g.next }, g'⟩)
  | update (g' e) (n : Nat) : t.c.ents.find? (fun x => keq x.key k) = some e → t.c.cap = some (n + 1) →
      Quiet t.g g' → g'.next = t.g.next ∧ g'.ticks = t.g.ticks →
      InsertOut O k v t (.ok (false, some e.id)
        ⟨{ t.c with ents := without e t.c.ents ++ [{ e with val := v }], last := some e.id }, g'⟩)
  | updateFault (g' e m) (n : Nat) : t.c.ents.find? (fun x => keq x.key k) = some e → t.c.cap = some (n + 1) →
      Quiet t.g g' → O.fails .assign m = true →
      InsertOut O k v t (.throw .badAlloc ⟨{ t.c with ents := without e t.c.ents ++ [{ e with val := O.torn m e.val v }] }, g'⟩)

theorem attempt_cases {C : Type} (O : Oracle K V) (site : Site) (s : St C K V)
    (hs : site = .construct ∨ site = .mapNode ∨ site = .listNode ∨ site = .assign) :
    (attempt O site s = .ok () ⟨s.c, { s.g with steps := s.g.steps + 1 }⟩ ∧ O.fails site s.g.steps = false) ∨
    (attempt O site s = .throw .badAlloc ⟨s.c, { s.g with steps := s.g.steps + 1 }⟩ ∧
      O.fails site s.g.steps = true) := by
  unfold attempt
  cases h : O.fails site s.g.steps with
  | true =>
    right
    rcases hs with rfl | rfl | rfl | rfl <;> simp
  | false => left; simp

/-- An assignment. -/
theorem tryAssign_cases (O : Oracle K V) (p : Ptr) (v : V) (s : St (MCache K V) K V) :
    (O.fails .assign s.g.steps = false ∧ Mid.tryAssign O p v s =
      .ok () ⟨{ s.c with ents := s.c.ents.map (fun e => if e.id = p then { e with val := v } else e) },
        { s.g with steps := s.g.steps + 1 }⟩) ∨
    (O.fails .assign s.g.steps = true ∧ Mid.tryAssign O p v s =
      .throw .badAlloc ⟨{ s.c with
          ents := s.c.ents.map (fun e => if e.id = p then { e with val := O.torn s.g.steps e.val v } else e) },
        { s.g with steps := s.g.steps + 1 }⟩) := by
  unfold Mid.tryAssign
  rw [bind_ok (show may O .assign s = .ok _ _ from rfl)]
  cases O.fails .assign s.g.steps with
  | false => exact .inl ⟨rfl, rfl⟩
  | true => exact .inr ⟨rfl, rfl⟩

/-- Changing the value of the last entry. -/
theorem toEnd_setVal (h : Ok t) {e : Ent K V} (he : e ∈ t.c.ents) (f : V → V) :
    (toEnd e t.c.ents).map (fun x => if x.id = e.node.addr then { x with val := f x.val } else x)
      = without e t.c.ents ++ [{ e with val := f e.val }] := by
  unfold toEnd
  rw [List.map_append]
  congr 1
  · unfold without
    conv => rhs; rw [← List.map_id (List.filter _ _)]
    apply List.map_congr_left
    intro x hx
    rw [List.mem_filter, bne_iff_ne] at hx
    have : x.id ≠ e.node.addr := fun h' => hx.2 (by
      rw [map_inj_of_nodup h.awf.ids x hx.1 e he h'])
    rw [if_neg this]
    rfl
  · simp [Ent.node]

/-- The update path. -/
theorem assign_out (h : Ok t) {e : Ent K V} (he : e ∈ t.c.ents) (v : V) :
    (∃ g', Quiet t.g g' ∧ (g'.next = t.g.next ∧ g'.ticks = t.g.ticks) ∧ Mid.moveToFrontAssign O e.node v t =
      .ok () ⟨{ t.c with ents := without e t.c.ents ++ [{ e with val := v }] }, g'⟩) ∨
    (∃ g' m, Quiet t.g g' ∧ O.fails .assign m = true ∧ Mid.moveToFrontAssign O e.node v t =
      .throw .badAlloc ⟨{ t.c with ents := without e t.c.ents ++ [{ e with val := O.torn m e.val v }] }, g'⟩) := by
  unfold Mid.moveToFrontAssign
  rw [show e.node.info.order = e.ord from rfl, bind_ok (moveToFront_eq h he)]
  have hq : Quiet t.g { t.g with steps := t.g.steps + 1 } := ⟨rfl, rfl, rfl, rfl, Nat.le_refl _, Nat.le_refl _⟩
  rcases tryAssign_cases O e.node.addr v ⟨{ t.c with ents := toEnd e t.c.ents }, t.g⟩ with ⟨h1, h2⟩ | ⟨h1, h2⟩
  · left
    refine ⟨_, hq, ⟨rfl, rfl⟩, h2.trans ?_⟩
    rw [toEnd_setVal h he (fun _ => v)]
  · right
    refine ⟨_, t.g.steps, hq, h1, h2.trans ?_⟩
    rw [toEnd_setVal h he (fun old => O.torn t.g.steps old v)]

/-- The new-entry path, after the temporaries were built. -/
theorem insertNode_out (hO : NoListFault O) {n : Nat} (hc : t.c.cap = some (n + 1))
    (hb : t.c.ents.length ≤ n + 1) (k : K) (v : V) (time : Int) :
    (∃ g' m, Quiet t.g g' ∧ O.fails .mapNode m = true ∧
      Mid.insertNode O k v time t = .throw .badAlloc ⟨t.c, g'⟩) ∨
    (∃ g' e r, t.c.ents = e :: r ∧ r.length = n ∧ Quiet t.g g' ∧ t.g.next < g'.next ∧
      (g'.next = t.g.next + 1 ∧ g'.ticks = t.g.ticks) ∧
      Mid.insertNode O k v time t = .ok t.g.next
        ⟨{ t.c with ents := r ++ [⟨t.g.next, e.slot, k, v, time, some e.slot⟩] }, g'⟩) ∨
    (∃ g' q, t.c.ents.length < n + 1 ∧ Quiet t.g g' ∧ t.g.next < q ∧ q < g'.next ∧
      (q = t.g.next + 1 ∧ g'.next = t.g.next + 2 ∧ g'.ticks = t.g.ticks) ∧
      Mid.insertNode O k v time t = .ok t.g.next
        ⟨{ t.c with ents := t.c.ents ++ [⟨t.g.next, q, k, v, time, some q⟩] }, g'⟩) := by
  unfold Mid.insertNode
  rcases attempt_cases O .mapNode t (by simp) with ⟨h1, h2⟩ | ⟨h1, h2⟩
  · right
    rw [bind_ok h1, bind_ok (m := alloc) (a := t.g.next)
      (s' := ⟨t.c, { t.g with steps := t.g.steps + 1, next := t.g.next + 1 }⟩) rfl]
    unfold Mid.placeNode
    by_cases hfull : t.c.ents.length + 1 > n + 1
    · left
      cases hl : t.c.ents with
      | nil => rw [hl] at hfull; simp at hfull
      | cons e r =>
        refine ⟨{ t.g with steps := t.g.steps + 1, next := t.g.next + 1 }, e, r, rfl, ?_,
          ⟨rfl, rfl, rfl, rfl, Nat.le_succ _, Nat.le_refl _⟩, Nat.lt_succ_self _, ⟨rfl, rfl⟩, ?_⟩
        · rw [hl, List.length_cons] at hfull hb
          omega
        · apply bind_ok (a := ())
          rw [bind_ok (m := Mid.size) (s' := ⟨t.c, { t.g with steps := t.g.steps + 1, next := t.g.next + 1 }⟩) rfl,
            bind_ok (m := Mid.readCapacity) (a := n + 1)
              (s' := ⟨t.c, { t.g with steps := t.g.steps + 1, next := t.g.next + 1 }⟩)
              (by simp [Mid.readCapacity, hc])]
          rw [if_pos hfull]
          unfold Mid.replaceFirst
          simp only [hl]
    · right
      refine ⟨{ t.g with steps := t.g.steps + 2, next := t.g.next + 2 }, t.g.next + 1, by omega,
          ⟨rfl, rfl, rfl, rfl, Nat.le_add_right _ _, Nat.le_refl _⟩, Nat.lt_succ_self _, Nat.lt_succ_self _, ⟨rfl, rfl, rfl⟩, ?_⟩
      apply bind_ok (a := ())
      rw [bind_ok (m := Mid.size) (s' := ⟨t.c, { t.g with steps := t.g.steps + 1, next := t.g.next + 1 }⟩) rfl,
        bind_ok (m := Mid.readCapacity) (a := n + 1)
          (s' := ⟨t.c, { t.g with steps := t.g.steps + 1, next := t.g.next + 1 }⟩)
          (by simp [Mid.readCapacity, hc])]
      rw [if_neg hfull]
      rcases attempt_cases O .listNode
          (⟨t.c, { t.g with steps := t.g.steps + 1, next := t.g.next + 1 }⟩ : St (MCache K V) K V)
          (by simp) with ⟨h3, h4⟩ | ⟨h3, h4⟩
      · rw [bind_ok h3]
        rfl
      · rw [hO] at h4; cases h4
  · left
    exact ⟨{ t.g with steps := t.g.steps + 1 }, _, ⟨rfl, rfl, rfl, rfl, Nat.le_refl _, Nat.le_refl _⟩, h2, bind_throw h1⟩

theorem Quiet.trans {g g' g'' : Shared K V} (h : Quiet g g') (h' : Quiet g' g'') : Quiet g g'' :=
  ⟨h'.ext.trans h.ext, h'.stats.trans h.stats, h'.nextStat.trans h.nextStat, h'.log.trans h.log,
    Nat.le_trans h.next h'.next, Nat.le_trans h.ticks h'.ticks⟩

theorem Quiet.refl (g : Shared K V) : Quiet g g :=
  ⟨rfl, rfl, rfl, rfl, Nat.le_refl _, Nat.le_refl _⟩

theorem quiet_tick (kind : Kind) (g : Shared K V) (n : Nat) :
    Quiet g { tickG kind g with steps := n } :=
  ⟨rfl, rfl, rfl, rfl, Nat.le_refl _, Nat.le_add_right _ _⟩

theorem insert_out (h : Ok t) (hO : NoListFault O) (k : K) (v : V) :
    InsertOut O k v t (Mid.insert O k v t) := by
  unfold Mid.insert
  cases hc : t.c.cap with
  | none =>
    rw [bind_ub (by simp [Mid.readCapacity, hc])]
    exact .unset hc
  | some n =>
    rw [bind_ok (m := Mid.readCapacity) (a := n) (s' := t) (by simp [Mid.readCapacity, hc])]
    cases n with
    | zero => exact .zero hc
    | succ n =>
      rw [if_neg (Nat.succ_ne_zero n), bind_ok (m := Mid.mapFind k) (s := t) rfl]
      have hn0 : t.c.cap ≠ some 0 := by rw [hc]; simp
      have hnn : t.c.cap ≠ none := by rw [hc]; simp
      cases hf : t.c.ents.find? (fun x => keq x.key k) with
      | none =>
        simp only [Option.map_none]
        rw [bind_ok (insertionTime_eq O t)]
        rcases attempt_cases O .construct ⟨t.c, tickG t.c.kind t.g⟩ (by simp) with ⟨h1, h2⟩ | ⟨h1, h2⟩
        · rw [bind_ok h1]
          have hb := h.awf.bound _ hc
          rcases insertNode_out (t := ⟨t.c, { tickG t.c.kind t.g with steps := (tickG t.c.kind t.g).steps + 1 }⟩)
            hO hc hb k v (match t.c.kind with | .basic => 0 | .timed .. => O.clock t.g.ticks) with
            ⟨g', m, q, hm, he⟩ | ⟨g', e, r, hl, hr, q, hlt, hx, he⟩ | ⟨g', q, hl, qu, h3, h4, hx, he⟩
          · refine out_bind_throw (P := InsertOut O k v t) he ?_
            exact .fault g' .mapNode m hn0 hnn ((quiet_tick _ _ _).trans q) (Or.inr rfl) hm
          · refine out_bind_ok (P := InsertOut O k v t) he ?_
            exact .full g' e r n hf hc hl hr ((quiet_tick _ _ _).trans q) hlt hx
          · refine out_bind_ok (P := InsertOut O k v t) he ?_
            exact .room g' (n + 1) q hf hc hl ((quiet_tick _ _ _).trans qu) h3 h4 hx
        · rw [bind_throw h1]
          exact .fault _ .construct _ hn0 hnn (quiet_tick _ _ _) (Or.inl rfl) h2
      | some e =>
        simp only [Option.map_some]
        rcases assign_out (O := O) h (find_mem hf).1 v with ⟨g', q, hx, he⟩ | ⟨g', m, q, hm, he⟩
        · rw [bind_ok he]
          exact .update g' e n hf hc q hx
        · rw [bind_throw he]
          exact .updateFault g' e m n hf hc q hm

theorem emplace_out (h : Ok t) (hO : NoListFault O) (k : K) (v : V) :
    InsertOut O k v t (Mid.emplace O k v t) := by
  unfold Mid.emplace
  cases hc : t.c.cap with
  | none =>
    rw [bind_ub (by simp [Mid.readCapacity, hc])]
    exact .unset hc
  | some n =>
    rw [bind_ok (m := Mid.readCapacity) (a := n) (s' := t) (by simp [Mid.readCapacity, hc])]
    cases n with
    | zero => exact .zero hc
    | succ n =>
      rw [if_neg (Nat.succ_ne_zero n)]
      have hn0 : t.c.cap ≠ some 0 := by rw [hc]; simp
      have hnn : t.c.cap ≠ none := by rw [hc]; simp
      rcases attempt_cases O .construct t (by simp) with ⟨h1, h2⟩ | ⟨h1, h2⟩
      · rw [bind_ok h1, bind_ok (m := Mid.mapFind k) rfl]
        have q0 : Quiet t.g { t.g with steps := t.g.steps + 1 } :=
          ⟨rfl, rfl, rfl, rfl, Nat.le_refl _, Nat.le_refl _⟩
        have q1 : Quiet t.g { t.g with steps := t.g.steps + 2 } :=
          ⟨rfl, rfl, rfl, rfl, Nat.le_refl _, Nat.le_refl _⟩
        cases hf : t.c.ents.find? (fun x => keq x.key k) with
        | none =>
          simp only [Option.map_none]
          rcases attempt_cases O .construct
            (⟨t.c, { t.g with steps := t.g.steps + 1 }⟩ : St (MCache K V) K V) (by simp) with ⟨h3, h4⟩ | ⟨h3, h4⟩
          · rw [bind_ok h3, bind_ok (insertionTime_eq O _)]
            have hb := h.awf.bound _ hc
            rcases insertNode_out (t := ⟨t.c, { tickG t.c.kind t.g with steps := t.g.steps + 2 }⟩)
              hO hc hb k v (match t.c.kind with | .basic => 0 | .timed .. => O.clock t.g.ticks) with
              ⟨g', m, q, hm, he⟩ | ⟨g', e, r, hl, hr, q, hlt, hx, he⟩ | ⟨g', q, hl, qu, h5, h6, hx, he⟩
            · refine out_bind_throw (P := InsertOut O k v t) he ?_
              exact .fault g' .mapNode m hn0 hnn ((quiet_tick _ _ _).trans q) (Or.inr rfl) hm
            · refine out_bind_ok (P := InsertOut O k v t) he ?_
              exact .full g' e r n hf hc hl hr ((quiet_tick _ _ _).trans q) hlt hx
            · refine out_bind_ok (P := InsertOut O k v t) he ?_
              exact .room g' (n + 1) q hf hc hl ((quiet_tick _ _ _).trans qu) h5 h6 hx
          · rw [bind_throw h3]
            exact .fault _ .construct _ hn0 hnn q1 (Or.inl rfl) h4
        | some e =>
          simp only [Option.map_some]
          rcases attempt_cases O .construct
            (⟨t.c, { t.g with steps := t.g.steps + 1 }⟩ : St (MCache K V) K V) (by simp) with ⟨h3, h4⟩ | ⟨h3, h4⟩
          · rw [bind_ok h3]
            have h' : Ok ⟨t.c, { t.g with steps := t.g.steps + 2 }⟩ := h.mono' rfl (Nat.le_refl _)
            rcases assign_out (O := O) h' (find_mem hf).1 v with ⟨g', q, hx, he⟩ | ⟨g', m, q, hm, he⟩
            · refine out_bind_ok (P := InsertOut O k v t) he ?_
              exact .update g' e n hf hc (q1.trans q) hx
            · refine out_bind_throw (P := InsertOut O k v t) he ?_
              exact .updateFault g' e m n hf hc (q1.trans q) hm
          · rw [bind_throw h3]
            exact .fault _ .construct _ hn0 hnn q1 (Or.inl rfl) h4
      · rw [bind_throw h1]
        exact .fault _ .construct _ hn0 hnn ⟨rfl, rfl, rfl, rfl, Nat.le_refl _, Nat.le_refl _⟩ (Or.inl rfl) h2

end insert

end LRU
