import Verif.Spec.TimedWrap
import Verif.Proofs.Memo
import Verif.Props.Timed
import Verif.Proofs.HistoryInv
/-!
# The caches inside timed wrappers
-/

set_option linter.unusedSectionVars false
set_option autoImplicit false

namespace LRU

variable {K V : Type} [KeyEqual K] [DecidableEq K] [DecidableEq V] {O : Oracle K V} {ttl : Int} {res : Nat}

/-! ### Hits -/

theorem find_timed (hO : NoListFault O) {w w' : World K V} {i : Nat} {c : Cache K V} {k : K} {r : Option Ptr}
    (hp : AllOwn O w) (hc : w.caches[i]? = some (some c)) (hk : c.kind = .timed ttl res)
    (hf : Impl.onCache i (Impl.find O k) w = .ok r w') : (r ≠ none ↔ LiveFor O ttl res c w.g.ticks k) ∧
      (r = none → ∃ c', w'.caches[i]? = some (some c') ∧ elements c' = elements c) := by
  obtain ⟨t, hr, ht⟩ := hp.view hO rfl hc
  have hk' : t.c.kind = .timed ttl res := by rw [← hr.rep.kind]; exact hk
  obtain ⟨c0, s', h1, h2, h0⟩ := onCache_ok hf
  rw [hc] at h1
  injection h1 with h1
  injection h1 with h1
  subst h1
  have hel : ∀ g, Rel s' (⟨t.c, g⟩ : St (MCache K V) K V) →
      ∃ c', w'.caches[i]? = some (some c') ∧ elements c' = elements c := by
    intro g hr'
    refine ⟨s'.c, by rw [h0]; exact get_set_self hc, ?_⟩
    rw [hr'.elements]
    exact hr.elements.symm
  have h3 := find_sim O (k := k) (viewOf w i c) t hr trivial
  rw [h2] at h3
  have h4 := find_out (O := O) ht k
  have hg : w.g.ticks = t.g.ticks := by
    have : (viewOf w i c).g.ticks = t.g.ticks := by rw [hr.g]
    exact this
  have he : entryFor c k = (t.c.ents.find? (fun e => keq e.key k)).map Ent.node := hr.entryFor k
  unfold LiveFor
  rw [he, hg]
  generalize hm : Mid.find O k t = o at h3 h4
  cases h4 with
  | absent hn _ =>
    obtain ⟨rfl, h5, _⟩ := h3
    refine ⟨?_, fun _ => hel _ h5⟩
    rw [hn]
    simp
  | expired e hn hx _ =>
    obtain ⟨rfl, h5, _⟩ := h3
    refine ⟨?_, fun _ => hel _ h5⟩
    rw [expiredAt_timed hk'] at hx
    rw [hn]
    simp only [decide_eq_true_eq] at hx
    simp only [ne_eq, not_true_eq_false, Option.map_some, Option.some.injEq, false_iff]
    rintro ⟨_, rfl, h5⟩
    omega
  | hit e hn hx _ =>
    obtain ⟨rfl, _⟩ := h3
    refine ⟨?_, nofun⟩
    rw [expiredAt_timed hk'] at hx
    rw [hn]
    simp only [decide_eq_false_iff_not] at hx
    simp only [ne_eq, reduceCtorEq, not_false_eq_true, Option.map_some, Option.some.injEq, true_iff]
    exact ⟨_, rfl, by omega⟩
  | absentThrow => exact h3.elim
  | expiredThrow => exact h3.elim
  | hitThrow => exact h3.elim

theorem item_of_entry {c : Cache K V} {k : K} {x : MapNode K V} (h : entryFor c k = some x) :
    (asLru c).item k = some (x.key, x.info.value) := by
  unfold Lru.item asLru entries
  unfold entryFor at h
  rw [List.find?_map]
  show Option.map _ ((elements c).find? (fun n => keq n.key k)) = _
  rw [h]
  rfl

theorem entry_of_item {c : Cache K V} {k : K} {y : K × V} (h : (asLru c).item k = some y) :
    ∃ x, entryFor c k = some x ∧ x.info.value = y.2 := by
  cases he : entryFor c k with
  | none =>
    have : (asLru c).item k = none := by
      unfold Lru.item asLru entries
      unfold entryFor at he
      rw [List.find?_map]
      show Option.map _ ((elements c).find? (fun n => keq n.key k)) = _
      rw [he]
      rfl
    rw [this] at h
    cases h
  | some x =>
    rw [item_of_entry he] at h
    injection h with h
    exact ⟨x, rfl, by rw [← h]⟩

/-- The call, once the timed cache is there: a hit if a live entry is stored, a miss otherwise. -/
theorem rest_timed (hO : NoListFault O) {σ : Memo K V} (h : MInv O σ) {d f : Nat} {k : K} {x : Wrapper K V} {i : Nat}
    (hi : σ.statics x.type = some i) {c : Cache K V} (hc : σ.cacheOf x.type = some c) (hk : c.kind = .timed ttl res) :
    (∃ σ' y, entryFor c k = some y ∧ elapsed O res y σ.world.g.ticks ≤ ttl ∧
      Impl.rest O d f k x i σ = .ok y.info.value σ' ∧ σ'.evals = σ.evals) ∨
    (¬ LiveFor O ttl res c σ.world.g.ticks k ∧ ∃ σ' c', Upd O σ σ' x.type c' ∧ SameFrame c c' ∧
      elements c' = elements c ∧ σ'.evals = (f, k) :: σ.evals ∧ σ'.done = σ.done ∧
      Impl.rest O d f k x i σ = (Impl.evalBody (Impl.callWrapper O d) (x.fn σ.evals k) >>= fun value =>
        Impl.lift (Impl.onCache i (Impl.emplace O k value)) >>= fun _ =>
        Impl.noteDone x.type k >>= fun _ => pure value) σ') := by
  obtain ⟨c0, h1, h2, h3, h4⟩ := h.cacheOf hi
  rw [hc] at h1
  injection h1 with h1
  subst h1
  have unlift : ∀ {r w'}, Impl.lift (Impl.onCache i (Impl.find O k)) σ = .ok r { σ with world := w' } →
      Impl.onCache i (Impl.find O k) σ.world = .ok r w' := by
    intro r w' hl
    unfold Impl.lift at hl
    cases ho : Impl.onCache i (Impl.find O k) σ.world <;> rw [ho] at hl
    · injection hl with e1 e2
      injection e2 with e2
      rw [e1, e2]
    all_goals cases hl
  rcases find_memo hO h hi hc k with ⟨y, p, w', w'', c', h5, h6, h7, h8, h9, h10⟩ | ⟨w', c', h5, h6, h7, h8, h9⟩
  · obtain ⟨z, h11, h12⟩ := (find_timed hO h.own h2 hk (unlift h6)).1.1 (by simp)
    obtain ⟨z', h13, h14⟩ := entry_of_item h5
    rw [h11] at h13
    injection h13 with h13
    subst h13
    refine .inl ⟨{ σ with world := w'', done := (x.type, k) :: σ.done }, z, h11, h12, ?_, rfl⟩
    unfold Impl.rest
    rw [bind_ok h6]
    simp only
    rw [bind_ok h7, h14]
    rfl
  · obtain ⟨h10, h11⟩ := find_timed hO h.own h2 hk (unlift h6)
    obtain ⟨c2, h12, h13⟩ := h11 rfl
    have h14 : c' = c2 := by
      obtain ⟨c3, h15, h16, _⟩ := h7.inv.cacheOf (τ := x.type) hi
      rw [h7.self] at h15
      injection h15 with h15
      subst h15
      have h16 : w'.caches[i]? = some (some c') := h16
      rw [h12] at h16
      injection h16 with h16
      injection h16 with h16
      exact h16.symm
    subst h14
    refine .inr ⟨fun hl => h10.2 hl rfl,
      { σ with world := w', evals := (f, k) :: σ.evals }, c', h7.logs _ _, h8, h13, rfl, rfl, ?_⟩
    unfold Impl.rest
    rw [bind_ok h6]
    rfl

theorem call_static {σ : Memo K V} (h : MInv O σ) {d f : Nat} {k : K} {x : Wrapper K V} (hx : σ.wrappers[f]? = some x)
    {c : Cache K V} (hc : σ.cacheOf x.type = some c) :
    ∃ i, σ.statics x.type = some i ∧ σ.world.caches[i]? = some (some c) ∧
      Impl.callWrapper O (d + 1) f k σ = Impl.rest O d f k x i σ := by
  rw [callWrapper_succ hx]
  rcases static_cases h x with ⟨i, h1, h2⟩ | ⟨h1, _⟩ | ⟨h1, _⟩
  · obtain ⟨c0, h3, h4, _⟩ := h.cacheOf h1
    rw [hc] at h3
    injection h3 with h3
    subst h3
    exact ⟨i, h1, h4, bind_ok h2⟩
  all_goals
    unfold Memo.cacheOf at hc
    rw [h1] at hc
    cases hc

/-! ### The steps a call consists of -/

/-- What calls of wrappers do to caches. -/
def CallOp (op : Op K V) : Prop := (∃ k, op = .find k) ∨ (∃ p, op = .read p) ∨ ∃ k v, op = .emplace k v

inductive CallPath (O : Oracle K V) (w : World K V) : World K V → Prop
  | refl : CallPath O w w
  | op {u u' r} (i : Nat) (o : Op K V) : CallPath O w u → CallOp o → Impl.wstep O (.op i o) u = .ok r u' → CallPath O w u'
  | opThrow {u u' e} (i : Nat) (o : Op K V) : CallPath O w u → CallOp o → Impl.wstep O (.op i o) u = .throw e u' →
      CallPath O w u'
  | create {u u'} (kind : Kind) (ctor : Ctor K V) : CallPath O w u → Impl.ctorBody O ctor = pure 0 →
      Impl.create O kind ctor u = .ok () u' → CallPath O w u'

theorem CallPath.trans {w u v : World K V} (h : CallPath O w u) (h' : CallPath O u v) : CallPath O w v := by
  induction h' with
  | refl => exact h
  | op i o _ h1 h2 ih => exact .op i o ih h1 h2
  | opThrow i o _ h1 h2 ih => exact .opThrow i o ih h1 h2
  | create kind ctor _ h1 h2 ih => exact .create kind ctor ih h1 h2

/-- `m` leads along call paths. -/
def Travels (O : Oracle K V) {α : Type} (m : M (Memo K V) α) (σ : Memo K V) : Prop :=
  match m σ with
  | .ok _ σ' => CallPath O σ.world σ'.world
  | .throw _ σ' => CallPath O σ.world σ'.world
  | _ => True

theorem Travels.bind {α β : Type} {m : M (Memo K V) α} {g : α → M (Memo K V) β} {σ : Memo K V} (h : Travels O m σ)
    (h' : ∀ a σ', m σ = .ok a σ' → Travels O (g a) σ') : Travels O (m >>= g) σ := by
  unfold Travels at h ⊢
  cases hm : m σ with
  | ok a σ' =>
    rw [bind_ok hm]
    rw [hm] at h
    have h2 := h' a σ' hm
    unfold Travels at h2
    cases hg : g a σ' with
    | ok b σ'' => rw [hg] at h2; exact h.trans h2
    | throw e σ'' => rw [hg] at h2; exact h.trans h2
    | _ => trivial
  | throw e σ' => rw [bind_throw hm]; rw [hm] at h; exact h
  | ub => rw [bind_ub hm]; trivial
  | _ =>
    have : (m >>= g) σ = M.bind m g σ := rfl
    rw [this]
    unfold M.bind
    rw [hm]
    trivial

theorem travels_op {α : Type} {m : Impl.CM K V α} {r : α → Res K V} {o : Op K V} (ho : CallOp o)
    (he : Impl.step O o = Impl.ret m r) (i : Nat) (σ : Memo K V) : Travels O (Impl.lift (Impl.onCache i m)) σ := by
  have h1 : Impl.wstep O (.op i o) σ.world = Impl.ret (Impl.onCache i m) r σ.world := by
    show Impl.onCache i (Impl.step O o) σ.world = _
    rw [he]
    exact onCache_ret _
  unfold Travels Impl.lift
  cases hm : Impl.onCache i m σ.world with
  | ok a w => exact .op i o .refl ho (h1.trans (ret_ok_iff.2 ⟨a, hm, rfl⟩))
  | throw e w => exact .opThrow i o .refl ho (h1.trans (ret_throw_iff.2 hm))
  | _ => trivial

theorem travels_read (a : Nat) (σ : Memo K V) : Travels O (Impl.readRef a) σ := by
  unfold Travels Impl.readRef
  split
  · next h => split at h <;> cases h; exact .refl
  · next h => split at h <;> cases h
  · trivial

theorem travels_create (kind : Kind) {ctor : Ctor K V} (hct : Impl.ctorBody O ctor = pure 0) (σ : Memo K V) :
    Travels O (Impl.lift (Impl.create O kind ctor)) σ := by
  unfold Travels Impl.lift
  cases hm : Impl.create O kind ctor σ.world with
  | ok a w => exact .create kind ctor .refl hct hm
  | throw e w =>
    unfold Impl.create at hm
    rw [hct] at hm
    cases hm
  | _ => trivial

theorem travels_construct (args : CacheArgs) (σ : Memo K V) : Travels O (Impl.construct O args) σ := by
  cases args with
  | basic => exact travels_create .basic (ctor := .default) rfl σ
  | sized a => exact (travels_read a σ).bind fun n σ' _ => travels_create .basic (ctor := .sized _) rfl σ'
  | timed r d => exact (travels_read d σ).bind fun n σ' _ => travels_create (timedKind n r) (ctor := .default) rfl σ'
  | timedSized r d a =>
    exact (travels_read d σ).bind fun n σ' _ => (travels_read a σ').bind fun m σ'' _ =>
      travels_create (timedKind n r) (ctor := .sized _) rfl σ''

theorem travels_static (x : Wrapper K V) (σ : Memo K V) : Travels O (Impl.staticCache O x) σ := by
  unfold Impl.staticCache
  cases hs : σ.statics x.type with
  | some i =>
    unfold Travels
    simp only [hs]
    exact .refl
  | none =>
    have h := travels_construct (O := O) x.args σ
    unfold Travels at h ⊢
    simp only [hs, M.bind]
    cases hm : Impl.construct O x.args σ with
    | ok u σ' => rw [hm] at h; exact h
    | throw e σ' => rw [hm] at h; exact h
    | _ => trivial

theorem travels_body {call : Nat → K → M (Memo K V) V} (hc : ∀ f k σ, Travels O (call f k) σ) :
    ∀ (b : Body K V) (σ : Memo K V), Travels O (Impl.evalBody call b) σ := by
  intro b
  induction b with
  | ret v => exact fun σ => .refl
  | throw e => exact fun σ => .refl
  | call f k next ih =>
    intro σ
    have h1 := hc f k σ
    unfold Travels at h1 ⊢
    unfold Impl.evalBody
    cases hm : call f k σ with
    | ok v σ' =>
      rw [hm] at h1
      have h2 := ih (.ok v) σ'
      unfold Travels at h2
      cases hb : Impl.evalBody call (next (.ok v)) σ' with
      | ok u σ'' => rw [hb] at h2; simp only [hb]; exact h1.trans h2
      | throw e σ'' => rw [hb] at h2; simp only [hb]; exact h1.trans h2
      | _ => simp only [hb]
    | throw e σ' =>
      rw [hm] at h1
      have h2 := ih (.error e) σ'
      unfold Travels at h2
      cases hb : Impl.evalBody call (next (.error e)) σ' with
      | ok u σ'' => rw [hb] at h2; simp only [hb]; exact h1.trans h2
      | throw e σ'' => rw [hb] at h2; simp only [hb]; exact h1.trans h2
      | _ => simp only [hb]
    | _ => trivial

theorem travels_done (τ : Nat) (k : K) (v : V) (σ : Memo K V) :
    Travels O (Impl.noteDone τ k >>= fun _ => (pure v : M (Memo K V) V)) σ := .refl

theorem travels_call : ∀ (d f : Nat) (k : K) (σ : Memo K V), Travels O (Impl.callWrapper O d f k) σ := by
  intro d
  induction d with
  | zero => intro f k σ; trivial
  | succ d ih =>
    intro f k σ
    unfold Impl.callWrapper
    refine Travels.bind ?_ fun x σ1 _ => (travels_static x σ1).bind fun i σ2 _ =>
      (travels_op (o := .find k) (.inl ⟨k, rfl⟩) rfl i σ2).bind fun p σ3 _ => ?_
    · unfold Travels Impl.getWrapper
      cases σ.wrappers[f]? with
      | some x => exact .refl
      | none => trivial
    · cases p with
      | some p =>
        exact (travels_op (o := .read p) (.inr (.inl ⟨p, rfl⟩)) rfl i σ3).bind fun v σ4 _ => travels_done _ _ _ _
      | none =>
        refine Travels.bind (.refl) fun e σ4 _ => (travels_body ih _ σ4).bind fun v σ5 _ =>
          (travels_op (o := .emplace k v) (.inr (.inr ⟨k, v, rfl⟩)) rfl i σ5).bind fun _ σ6 _ => travels_done _ _ _ _

theorem travels_rest (d f : Nat) (k : K) (x : Wrapper K V) (i : Nat) (σ : Memo K V) :
    Travels O (Impl.rest O d f k x i) σ := by
  unfold Impl.rest
  refine (travels_op (o := .find k) (.inl ⟨k, rfl⟩) rfl i σ).bind fun p σ3 _ => ?_
  cases p with
  | some p => exact (travels_op (o := .read p) (.inr (.inl ⟨p, rfl⟩)) rfl i σ3).bind fun v σ4 _ => travels_done _ _ _ _
  | none =>
    refine Travels.bind (.refl) fun e σ4 _ => (travels_body (travels_call d) _ σ4).bind fun v σ5 _ =>
      (travels_op (o := .emplace k v) (.inr (.inr ⟨k, v, rfl⟩)) rfl i σ5).bind fun _ σ6 _ => travels_done _ _ _ _

theorem MPath.travels {σ σ' : Memo K V} (h : MPath O σ σ') : CallPath O σ.world σ'.world := by
  induction h with
  | refl => exact .refl
  | newObject v _ he ih => cases he; exact ih
  | setObject a v _ he ih => cases he; exact ih
  | endObject a _ he ih => cases he; exact ih
  | wrap type fn args _ he ih => cases he; exact ih
  | @call τ τ' v d f k _ he ih =>
    have := travels_call (O := O) d f k τ
    unfold Travels at this
    rw [he] at this
    exact ih.trans this
  | @callThrow τ τ' e d f k _ he ih =>
    have := travels_call (O := O) d f k τ
    unfold Travels at this
    rw [he] at this
    exact ih.trans this

/-! ### A call path as a history of one of the caches -/

theorem CallOp.discards {o : Op K V} (h : CallOp o) : o.discards = false := by
  rcases h with ⟨k, rfl⟩ | ⟨p, rfl⟩ | ⟨k, v, rfl⟩ <;> rfl

theorem AllOwn.reachable {w : World K V} (h : AllOwn O w) {i : Nat} {c : Cache K V}
    (hc : w.caches[i]? = some (some c)) : Reachable O (viewOf w i c) := ⟨w, _, i, c, h, rfl, hc, rfl⟩

/-- A step on one cache, seen from another or the same one. -/
theorem step_history (hO : NoListFault O) {w w' : World K V} {j : Nat} {o : Op K V} (hp : AllOwn O w) (hp' : AllOwn O w')
    (hs : (∃ r, Impl.wstep O (.op j o) w = .ok r w') ∨ ∃ e, Impl.wstep O (.op j o) w = .throw e w') {i : Nat}
    {c : Cache K V} (hc : w.caches[i]? = some (some c)) :
    ∃ c', w'.caches[i]? = some (some c') ∧ ∀ {s h}, History O s h (viewOf w i c) → ∃ h', History O s h' (viewOf w' i c') := by
  obtain ⟨d, s', h1, h2, h3⟩ : ∃ d s', w.caches[j]? = some (some d) ∧
      ((∃ r, Returns O o (viewOf w j d) r s') ∨ ∃ e, Throws O o (viewOf w j d) e s') ∧
      w' = ⟨w.caches.set j (some s'.c), s'.g⟩ := by
    rcases hs with ⟨r, hs⟩ | ⟨e, hs⟩
    · obtain ⟨d, s', h1, h2, h3⟩ := onCache_ok (show Impl.onCache j (Impl.step O o) w = .ok r w' from hs)
      exact ⟨d, s', h1, .inl ⟨r, h2⟩, h3⟩
    · obtain ⟨d, s', h1, h2, h3⟩ := onCache_threw (show Impl.onCache j (Impl.step O o) w = .throw e w' from hs)
      exact ⟨d, s', h1, .inr ⟨e, h2⟩, h3⟩
  have hr := hp.reachable h1
  have hg : Grown (viewOf w j d) s' ∧ s'.g.ext = Impl.allNodes (w.caches.set j none) := by
    rcases h2 with ⟨r, h2⟩ | ⟨e, h2⟩
    · obtain ⟨t, t', hr1, ht, hm, hr', hst⟩ := hr.returns hO h2
      exact ⟨grown_returns hO hr h2, by rw [hr'.g, hst.ext, ← hr1.g]; rfl⟩
    · obtain ⟨t, t', hr1, ht, hm, hr', hst⟩ := hr.throws hO h2
      exact ⟨grown_throws hO hr h2, by rw [hr'.g, hst.ext, ← hr1.g]; rfl⟩
  subst h3
  by_cases he : j = i
  · subst he
    rw [hc] at h1
    injection h1 with h1
    injection h1 with h1
    subst h1
    refine ⟨s'.c, get_set_self hc, fun {s h} hh => ?_⟩
    rw [viewOf_set w j s' hg.2]
    rcases h2 with ⟨r, h2⟩ | ⟨e, h2⟩
    · exact ⟨_, .ok hh h2⟩
    · exact ⟨_, .throw hh h2⟩
  · have hc' : (w.caches.set j (some s'.c))[i]? = some (some c) := by rw [get_set_other he]; exact hc
    exact ⟨c, hc', fun {s h} hh => ⟨h, .elsewhere hh ⟨hp'.reachable hc', rfl, hg.1.ticks, hg.1.next⟩⟩⟩

theorem CallPath.own {w w' : World K V} (h : CallPath O w w') (hp : AllOwn O w) : AllOwn O w' := by
  induction h with
  | refl => exact hp
  | op i o _ h1 h2 ih => exact ih.op h1.discards h2
  | opThrow i o _ h1 h2 ih => exact ih.opThrow h1.discards h2
  | create kind ctor _ h1 h2 ih => exact ih.create h2

theorem CallPath.history (hO : NoListFault O) {w w' : World K V} (h : CallPath O w w') (hp : AllOwn O w) {i : Nat}
    {c : Cache K V} (hc : w.caches[i]? = some (some c)) :
    ∃ c' calls, w'.caches[i]? = some (some c') ∧ History O (viewOf w i c) calls (viewOf w' i c') := by
  induction h with
  | refl => exact ⟨c, [], hc, .nil⟩
  | op j o h1 h2 h3 ih =>
    obtain ⟨c1, calls, h4, h5⟩ := ih
    have hp1 := h1.own hp
    obtain ⟨c2, h6, h7⟩ := step_history hO hp1 (hp1.op h2.discards h3) (.inl ⟨_, h3⟩) h4
    obtain ⟨h', h8⟩ := h7 h5
    exact ⟨c2, h', h6, h8⟩
  | opThrow j o h1 h2 h3 ih =>
    obtain ⟨c1, calls, h4, h5⟩ := ih
    have hp1 := h1.own hp
    obtain ⟨c2, h6, h7⟩ := step_history hO hp1 (hp1.opThrow h2.discards h3) (.inr ⟨_, h3⟩) h4
    obtain ⟨h', h8⟩ := h7 h5
    exact ⟨c2, h', h6, h8⟩
  | @create u u' kind ctor h1 h2 h3 ih =>
    obtain ⟨c1, calls, h4, h5⟩ := ih
    have hp1 := (h1.own hp).create h3
    unfold Impl.create at h3
    rw [h2] at h3
    injection h3 with _ h3
    have hlt : i < u.caches.length := (List.getElem?_eq_some_iff.1 h4).1
    have h6 : u'.caches[i]? = some (some c1) := by
      rw [← h3]
      show (u.caches ++ _)[i]? = _
      rw [List.getElem?_append_left hlt]
      exact h4
    refine ⟨c1, calls, h6, .elsewhere h5 ⟨hp1.reachable h6, rfl, ?_, ?_⟩⟩
    · rw [← h3]; exact Nat.le_refl _
    · rw [← h3]; exact Nat.le_refl _

/-- What is in the cache later was there before, or was put there in between. -/
theorem History.stamps (hO : NoListFault O) {s s' : St (Cache K V) K V} {calls : List (Call K V)} (h : Reachable O s)
    (hk : s.c.kind = .timed ttl res) (hh : History O s calls s') {x : MapNode K V} (hx : x ∈ elements s'.c) :
    (∃ y ∈ elements s.c, y.addr = x.addr ∧ y.key = x.key ∧ y.info.time = x.info.time) ∨
    (s.g.next ≤ x.addr ∧ ∃ n, s.g.ticks ≤ n ∧ n < s'.g.ticks ∧ x.info.time = O.clock n) := by
  have step : ∀ {s1 s2 : St (Cache K V) K V} {h1 : List (Call K V)} {op : Op K V} (x : MapNode K V), History O s h1 s1 →
      ((∃ r, Returns O op s1 r s2) ∨ ∃ e, Throws O op s1 e s2) →
      (∀ x ∈ elements s1.c, (∃ y ∈ elements s.c, y.addr = x.addr ∧ y.key = x.key ∧ y.info.time = x.info.time) ∨
        (s.g.next ≤ x.addr ∧ ∃ n, s.g.ticks ≤ n ∧ n < s1.g.ticks ∧ x.info.time = O.clock n)) → x ∈ elements s2.c →
      (∃ y ∈ elements s.c, y.addr = x.addr ∧ y.key = x.key ∧ y.info.time = x.info.time) ∨
        (s.g.next ≤ x.addr ∧ ∃ n, s.g.ticks ≤ n ∧ n < s2.g.ticks ∧ x.info.time = O.clock n) := by
    intro s1 s2 h1 op x hh1 hd ih hx
    have hr1 := hh1.reachable hO h
    have hg := hh1.grown hO h
    have hg2 : Grown s1 s2 := by
      rcases hd with ⟨r, hd⟩ | ⟨e, hd⟩
      · exact grown_returns hO hr1 hd
      · exact grown_throws hO hr1 hd
    have h2 : (∃ y ∈ elements s1.c, y.addr = x.addr ∧ y.key = x.key ∧ y.info.time = x.info.time) ∨
        ((∀ y ∈ elements s1.c, y.addr ≠ x.addr) ∧ s1.g.next ≤ x.addr ∧
          ∃ n, s1.g.ticks ≤ n ∧ n < s2.g.ticks ∧ x.info.time = O.clock n) := by
      rcases hd with ⟨r, hd⟩ | ⟨e, hd⟩
      · exact C39_time_stamps hO hr1 (hg.kind.trans hk) (e := .user) (.inl hd) hx
      · exact C39_time_stamps hO hr1 (hg.kind.trans hk) (r := .unit) (.inr hd) hx
    rcases h2 with ⟨y, hy, e1, e2, e3⟩ | ⟨_, h3, n, h4, h5, h6⟩
    · rcases ih y hy with ⟨z, hz, e4, e5, e6⟩ | ⟨h3, n, h4, h5, h6⟩
      · exact .inl ⟨z, hz, e4.trans e1, e5.trans e2, e6.trans e3⟩
      · exact .inr ⟨e1 ▸ h3, n, h4, Nat.lt_of_lt_of_le h5 hg2.ticks, by rw [← e3]; exact h6⟩
    · exact .inr ⟨Nat.le_trans hg.next h3, n, Nat.le_trans hg.ticks h4, h5, h6⟩
  induction hh generalizing x with
  | nil => exact .inl ⟨x, hx, rfl, rfl, rfl⟩
  | ok h1 hd ih => exact step x h1 (.inl ⟨_, hd⟩) (fun x hx => ih hx) hx
  | throw h1 hd ih => exact step x h1 (.inr ⟨_, hd⟩) (fun x hx => ih hx) hx
  | elsewhere h1 he ih =>
    rw [he.cache] at hx
    rcases ih hx with h2 | ⟨h2, n, h3, h4, h5⟩
    · exact .inl h2
    · exact .inr ⟨h2, n, h3, Nat.lt_of_lt_of_le h4 he.ticks, h5⟩

/-- The entries of a timed cache after a call path. -/
theorem CallPath.stamps (hO : NoListFault O) {w w' : World K V} (h : CallPath O w w') (hp : AllOwn O w) {i : Nat}
    {c c' : Cache K V} (hc : w.caches[i]? = some (some c)) (hc' : w'.caches[i]? = some (some c'))
    (hk : c.kind = .timed ttl res) {x : MapNode K V} (hx : x ∈ elements c') :
    (∃ y ∈ elements c, y.addr = x.addr ∧ y.key = x.key ∧ y.info.time = x.info.time) ∨
    (w.g.next ≤ x.addr ∧ ∃ n, w.g.ticks ≤ n ∧ n < w'.g.ticks ∧ x.info.time = O.clock n) := by
  obtain ⟨c1, calls, h1, h2⟩ := h.history hO hp hc
  rw [hc'] at h1
  injection h1 with h1
  injection h1 with h1
  subst h1
  exact h2.stamps hO (hp.reachable hc) hk hx

theorem CallPath.ticks (hO : NoListFault O) {w w' : World K V} (h : CallPath O w w') (hp : AllOwn O w) :
    w.g.ticks ≤ w'.g.ticks := by
  induction h with
  | refl => exact Nat.le_refl _
  | op j o h1 h2 h3 ih =>
    have hp1 := h1.own hp
    obtain ⟨d, _, h4, _⟩ := onCache_ok (show Impl.onCache j (Impl.step O o) _ = .ok _ _ from h3)
    obtain ⟨c2, h6, h7⟩ := step_history hO hp1 (hp1.op h2.discards h3) (.inl ⟨_, h3⟩) h4
    obtain ⟨h', h8⟩ := h7 .nil
    exact Nat.le_trans ih (h8.grown hO (hp1.reachable h4)).ticks
  | opThrow j o h1 h2 h3 ih =>
    have hp1 := h1.own hp
    obtain ⟨d, _, h4, _⟩ := onCache_threw (show Impl.onCache j (Impl.step O o) _ = .throw _ _ from h3)
    obtain ⟨c2, h6, h7⟩ := step_history hO hp1 (hp1.opThrow h2.discards h3) (.inr ⟨_, h3⟩) h4
    obtain ⟨h', h8⟩ := h7 .nil
    exact Nat.le_trans ih (h8.grown hO (hp1.reachable h4)).ticks
  | @create u u' kind ctor h1 h2 h3 ih =>
    unfold Impl.create at h3
    rw [h2] at h3
    injection h3 with _ h3
    rw [← h3]
    exact ih

/-! ### Statics along a path -/

/-- The static variables there were stay. -/
def StaticsStay (σ σ' : Memo K V) : Prop := ∀ τ i, σ.statics τ = some i → σ'.statics τ = some i

theorem MPath.kept (hO : NoListFault O) {σ σ' : Memo K V} (h : MReach O σ) (hm : MPath O σ σ') : StaticsStay σ σ' := by
  induction hm with
  | refl => exact fun _ _ h => h
  | newObject v _ he ih => cases he; exact ih
  | setObject a v _ he ih => cases he; exact ih
  | endObject a _ he ih => cases he; exact ih
  | wrap type fn args _ he ih => cases he; exact ih
  | @call τ τ' v d f k h1 he ih =>
    have := call_fine hO (closed_inv O) d f k τ ((h1.reach h).inv hO) False.elim
    rw [he] at this
    exact fun _ _ hi => this.2.1.statics _ _ (ih _ _ hi)
  | @callThrow τ τ' e d f k h1 he ih =>
    have := call_fine hO (closed_inv O) d f k τ ((h1.reach h).inv hO) False.elim
    rw [he] at this
    exact fun _ _ hi => this.2.statics _ _ (ih _ _ hi)

/-- A cache inside wrappers is the cache `i` of the world. -/
theorem MInv.index {σ : Memo K V} (h : MInv O σ) {τ : Nat} {c : Cache K V} (hc : σ.cacheOf τ = some c) :
    ∃ i, σ.statics τ = some i ∧ σ.world.caches[i]? = some (some c) := by
  cases hi : σ.statics τ with
  | none =>
    unfold Memo.cacheOf at hc
    rw [hi] at hc
    cases hc
  | some i =>
    obtain ⟨c0, h1, h2, _⟩ := h.cacheOf hi
    rw [hc] at h1
    injection h1 with h1
    subst h1
    exact ⟨i, rfl, h2⟩

theorem cacheOf_of {σ : Memo K V} {τ i : Nat} {c : Cache K V} (hi : σ.statics τ = some i)
    (hc : σ.world.caches[i]? = some (some c)) : σ.cacheOf τ = some c := by
  unfold Memo.cacheOf
  rw [hi]
  simp only [hc]

/-! ### Calls of functions that make no nested calls -/

/-- A call with an argument whose entry has expired, of a function that makes no nested calls: the entry stays, with its
time. -/
theorem leaf_call (hC : Calm O) {σ : Memo K V} (h : MInv O σ) {d f : Nat} {k : K} {x : Wrapper K V} {v : V}
    (hx : σ.wrappers[f]? = some x) {c : Cache K V} (hc : σ.cacheOf x.type = some c) (hk : c.kind = .timed ttl res)
    {y : MapNode K V} (hy : entryFor c k = some y) (he : elapsed O res y σ.world.g.ticks > ttl)
    (hl : x.fn σ.evals k = .ret v) :
    ∃ σ' c' y', Impl.callWrapper O (d + 1) f k σ = .ok v σ' ∧ σ'.evals = (f, k) :: σ.evals ∧ MInv O σ' ∧
      σ'.wrappers = σ.wrappers ∧ σ'.cacheOf x.type = some c' ∧ c'.kind = c.kind ∧ entryFor c' k = some y' ∧
      y'.addr = y.addr ∧ y'.info.time = y.info.time ∧ σ.world.g.ticks ≤ σ'.world.g.ticks := by
  have hO := hC.noListFault
  obtain ⟨i, h1, h2, h3⟩ := call_static (d := d) (k := k) h hx hc
  rw [h3]
  rcases rest_timed hO h (d := d) (f := f) (k := k) h1 hc hk with ⟨σ', z, h4, h5, _⟩ | ⟨_, σ1, c1, h4, h5, h6, h7, h8, h9⟩
  · rw [hy] at h4
    injection h4 with h4
    subst h4
    omega
  · have hi1 : σ1.statics x.type = some i := by rw [h4.statics]; exact h1
    obtain ⟨c2, g1, g2, _⟩ := h4.inv.cacheOf hi1
    rw [h4.self] at g1
    injection g1 with g1
    subst g1
    obtain ⟨w', c', h10, h11, h12⟩ := emplace_memo hO h4.inv hi1 h4.self k v
    rcases h12 with ⟨r, h12, h13⟩ | ⟨h12, _⟩
    · have h14 : Impl.onCache i (Impl.emplace O k v) σ1.world = .ok r w' := by
        unfold Impl.lift at h12
        cases ho : Impl.onCache i (Impl.emplace O k v) σ1.world <;> rw [ho] at h12
        · injection h12 with e1 e2
          injection e2 with e2
          rw [e1, e2]
        all_goals cases h12
      obtain ⟨c3, s', h15, h16, h17⟩ := onCache_ok h14
      rw [g2] at h15
      injection h15 with h15
      injection h15 with h15
      subst h15
      have h18 : entryFor c1 k = some y := by unfold entryFor; rw [h6]; exact hy
      obtain ⟨y', h19, h20, h21, h22, h23, h24⟩ := C41_stored_key_keeps_time (op := .emplace k v) (k := k) (v := v) hO
        (h4.inv.own.reachable g2) h18 (.inr rfl) (ret_ok_iff.2 ⟨r, h16, rfl⟩)
      have h25 : c' = s'.c := by
        obtain ⟨c4, h26, h27, _⟩ := h10.inv.cacheOf (τ := x.type) hi1
        rw [h10.self] at h26
        injection h26 with h26
        subst h26
        have h27 : w'.caches[i]? = some (some c') := h27
        rw [h17] at h27
        have h28 : (σ1.world.caches.set i (some s'.c))[i]? = some (some s'.c) := get_set_self g2
        rw [show (⟨σ1.world.caches.set i (some s'.c), s'.g⟩ : World K V).caches[i]? = _ from h28] at h27
        injection h27 with h27
        injection h27 with h27
        exact h27.symm
      subst h25
      have h26 := h10.logs σ1.evals ((x.type, k) :: σ1.done)
      have h30 : Impl.rest O d f k x i σ = .ok v { σ1 with world := w', done := (x.type, k) :: σ1.done } := by
        rw [h9, hl]
        have : Impl.evalBody (Impl.callWrapper O d) (.ret v) σ1 = .ok v σ1 := rfl
        rw [bind_ok this, bind_ok h12]
        rfl
      have h31 := travels_call (O := O) (d + 1) f k σ
      unfold Travels at h31
      rw [h3, h30] at h31
      refine ⟨_, s'.c, y', h30, h7, h26.inv, h26.wrappers.trans h4.wrappers, h26.self, h11.kind.trans h5.kind, h19,
        h20, h22, h31.ticks hO h.own⟩
    · exact absurd hC h12

end LRU
