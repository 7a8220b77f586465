import Verif.Spec.Wrap
import Verif.Proofs.Overloads
/-!
# The caches inside wrapped functions
-/

set_option linter.unusedSectionVars false
set_option autoImplicit false

namespace LRU

variable {K V : Type} [KeyEqual K] [DecidableEq K] [DecidableEq V] {O : Oracle K V}

theorem sim_back {α : Type} {m : Impl.CM K V α} {m' : Mid.CM K V α} {s : St (Cache K V) K V}
    {t t' : St (MCache K V) K V} (hs : Sim m m') (hr : Rel s t) {a : α} (h : m' t = .ok a t') :
    ∃ s', m s = .ok a s' ∧ Rel s' t' := by
  have h1 := hs s t hr trivial
  rw [h] at h1
  cases hm : m s with
  | ok b s' => rw [hm] at h1; obtain ⟨rfl, h2, _⟩ := h1; exact ⟨s', rfl, h2⟩
  | _ => rw [hm] at h1; exact h1.elim

theorem sim_back_throw {α : Type} {m : Impl.CM K V α} {m' : Mid.CM K V α} {s : St (Cache K V) K V}
    {t t' : St (MCache K V) K V} (hs : Sim m m') (hr : Rel s t) {e : Err} (h : m' t = .throw e t') :
    ∃ s', m s = .throw e s' ∧ Rel s' t' := by
  have h1 := hs s t hr trivial
  rw [h] at h1
  cases hm : m s with
  | throw b s' => rw [hm] at h1; obtain ⟨rfl, h2⟩ := h1; exact ⟨s', rfl, h2⟩
  | _ => rw [hm] at h1; exact h1.elim

/-- Capacity, class and registered observers are the same. -/
structure SameFrame (c c' : Cache K V) : Prop where
  capacity : c'.capacity = c.capacity
  kind : c'.kind = c.kind
  obs : c'.obs = c.obs

/-- Every cache of the world owns its contents. -/
abbrev AllOwn (O : Oracle K V) (w : World K V) : Prop := Prog O w (fun _ => true)

section world

variable {w w' : World K V} {i : Nat} {c : Cache K V} {k : K} {v : V}

theorem AllOwn.op (h : AllOwn O w) {op : Op K V} {r : Res K V} (hd : op.discards = false)
    (hs : Impl.wstep O (.op i op) w = .ok r w') : AllOwn O w' := by
  have := Prog.step _ h hs
  simpa [ownAfter, hd] using this

theorem AllOwn.opThrow (h : AllOwn O w) {op : Op K V} {e : Err} (hd : op.discards = false)
    (hs : Impl.wstep O (.op i op) w = .throw e w') : AllOwn O w' := by
  have := Prog.throw _ h hs
  simpa [ownAfter, hd] using this

theorem AllOwn.create (h : AllOwn O w) {kind : Kind} {ctor : Ctor K V} (hs : Impl.create O kind ctor w = .ok () w') :
    AllOwn O w' := by
  have := Prog.step (.create kind ctor) h (ret_ok_iff.2 ⟨(), hs, rfl⟩)
  have e : ownAfter w (fun _ => true) (.create kind ctor) = fun _ => true := by
    funext j
    show (if j = w.caches.length then true else true) = true
    split <;> rfl
  rwa [e] at this

/-- `find` on a cache without callbacks. -/
theorem find_world (hO : NoListFault O) (hp : AllOwn O w) (hc : w.caches[i]? = some (some c)) (ho : c.obs = {}) (k : K) :
    ∃ w' c', AllOwn O w' ∧ w'.caches = w.caches.set i (some c') ∧ SameFrame c c' ∧
      ((∃ x p w'', (asLru c).item k = some x ∧ Impl.onCache i (Impl.find O k) w = .ok (some p) w' ∧
          asLru c' = (asLru c).act (.use k) ∧ Impl.onCache i (Impl.read p) w' = .ok x.2 w'' ∧ w''.caches = w'.caches ∧
          AllOwn O w'') ∨
       ((c.kind = .basic → (asLru c).item k = none) ∧ Impl.onCache i (Impl.find O k) w = .ok none w' ∧
          asLru c' = asLru c)) := by
  obtain ⟨t, hr, ht⟩ := hp.view hO rfl hc
  have hto : t.c.obs = {} := by rw [← hr.rep.obs]; exact ho
  have h1 := find_out (O := O) ht k
  -- the call as a step of a program
  have prog : ∀ {r s'}, Impl.find O k (viewOf w i c) = .ok r s' →
      Impl.onCache i (Impl.find O k) w = .ok r ⟨w.caches.set i (some s'.c), s'.g⟩ ∧
      AllOwn O (⟨w.caches.set i (some s'.c), s'.g⟩ : World K V) := by
    intro r s' h
    have h2 : Impl.onCache i (Impl.find O k) w = .ok r ⟨w.caches.set i (some s'.c), s'.g⟩ := by rw [onCache_of hc, h]
    refine ⟨h2, hp.op (op := .find k) rfl ((onCache_ret w).trans (ret_ok_iff.2 ⟨r, h2, rfl⟩))⟩
  have frame : ∀ {s' : St (Cache K V) K V} {t' : St (MCache K V) K V}, Rel s' t' → t'.c.cap = t.c.cap →
      t'.c.kind = t.c.kind → t'.c.obs = t.c.obs → SameFrame c s'.c := by
    intro s' t' hr' e1 e2 e3
    exact ⟨by rw [hr'.rep.cap, e1, ← hr.rep.cap]; rfl, by rw [hr'.rep.kind, e2, ← hr.rep.kind]; rfl,
      by rw [hr'.rep.obs, e3, ← hr.rep.obs]; rfl⟩
  have hlru : asLru c = t.c.lru := hr.lru
  generalize hm : Mid.find O k t = o at h1
  cases h1 with
  | absent hf _ =>
    obtain ⟨s', h2, hr'⟩ := sim_back (find_sim O) hr hm
    obtain ⟨h3, h4⟩ := prog h2
    refine ⟨_, s'.c, h4, rfl, frame hr' rfl rfl rfl, .inr ⟨fun _ => by rw [hlru, lru_item, hf]; rfl, h3, ?_⟩⟩
    rw [hr'.lru, hlru]
  | expired e hf hx _ =>
    obtain ⟨s', h2, hr'⟩ := sim_back (find_sim O) hr hm
    obtain ⟨h3, h4⟩ := prog h2
    refine ⟨_, s'.c, h4, rfl, frame hr' rfl rfl rfl, .inr ⟨?_, h3, by rw [hr'.lru, hlru]⟩⟩
    intro hk
    have hk' : t.c.kind = .basic := by rw [← hr.rep.kind]; exact hk
    rw [hk'] at hx
    cases hx
  | hit e hf hx _ =>
    obtain ⟨s', h2, hr'⟩ := sim_back (find_sim O) hr hm
    obtain ⟨h3, h4⟩ := prog h2
    obtain ⟨he, hk⟩ := find_mem hf
    have hit : (asLru c).item k = some (e.key, e.val) := by rw [hlru, lru_item, hf]; rfl
    have hc' := get_set_self (x := some s'.c) hc
    obtain ⟨t2, hr2, ht2⟩ := h4.view hO rfl hc'
    -- reading through the iterator
    have hu : asLru s'.c = (asLru c).act (.use k) := by
      rw [hr'.lru, hlru, Lru.use_old (x := (e.key, e.val)) (by rw [lru_item, hf]; rfl), lru_others, ← ht.without_eq hf]
      simp [MCache.lru, MCache.touch, toEnd, without]
    have hmem : ∃ e2 ∈ t2.c.ents, e2.id = e.id ∧ e2.val = e.val := by
      have e1 : (elements s'.c) = (t.c.touch e).ents.map Ent.node := hr'.elements
      have e2 : (elements s'.c) = t2.c.ents.map Ent.node := hr2.elements
      have h5 : e.node ∈ t2.c.ents.map Ent.node := by
        rw [← e2, e1]
        exact List.mem_map.2 ⟨e, (toEnd_perm ht he).mem_iff.2 he, rfl⟩
      obtain ⟨e2, h6, h7⟩ := List.mem_map.1 h5
      exact ⟨e2, h6, congrArg MapNode.addr h7, congrArg (fun n : MapNode K V => n.info.value) h7⟩
    obtain ⟨e2, h6, h7, h8⟩ := hmem
    have h9 := read_own ht2 h6
    rw [h7] at h9
    obtain ⟨s2, h10, hr3⟩ := sim_back read_sim hr2 h9
    have h11 : Impl.onCache i (Impl.read e.id) (⟨w.caches.set i (some s'.c), s'.g⟩ : World K V) =
        .ok e2.val ⟨(w.caches.set i (some s'.c)).set i (some s2.c), s2.g⟩ := by rw [onCache_of hc', h10]
    have h12 : s2.c = s'.c := by
      have h13 := h10
      unfold Impl.read Impl.derefIt at h13
      have : (M.bind (fun s : St (Cache K V) K V => match s.c.map.find? (fun m => m.addr == e.id) with
          | some n => Out.ok n s
          | none => Out.ub) (fun n => M.pure n.info.value)) (viewOf ⟨w.caches.set i (some s'.c), s'.g⟩ i s'.c) = .ok e2.val s2 :=
        h13
      unfold M.bind at this
      split at this
      · next n s3 hs3 =>
        simp only at hs3
        split at hs3
        · injection hs3 with _ hs3
          injection this with _ this
          rw [← this, ← hs3]
          rfl
        · cases hs3
      all_goals cases this
    refine ⟨_, s'.c, h4, rfl, frame hr' rfl rfl rfl, .inl ⟨(e.key, e.val), e.id, _, hit, h3, hu, ?_, ?_,
      h4.op (op := .read e.id) rfl ((onCache_ret _).trans (ret_ok_iff.2 ⟨_, h11, rfl⟩))⟩⟩
    · rw [h11, h8]
    · show (w.caches.set i (some s'.c)).set i (some s2.c) = _
      rw [List.set_set, h12]
  | absentThrow n cb hf hn _ => rw [hto] at hn; simp at hn
  | expiredThrow e n cb hf hx hn _ => rw [hto] at hn; simp at hn
  | hitThrow e n cb hf hx hn _ => rw [hto] at hn; simp at hn

/-- `emplace` on a cache with a capacity. -/
theorem emplace_world (hO : NoListFault O) (hp : AllOwn O w) (hc : w.caches[i]? = some (some c))
    (hcap : c.capacity ≠ none) (k : K) (v : V) :
    ∃ w' c', AllOwn O w' ∧ w'.caches = w.caches.set i (some c') ∧ SameFrame c c' ∧
      ((∃ r, Impl.onCache i (Impl.emplace O k v) w = .ok r w' ∧ asLru c' = (asLru c).act (.put k v)) ∨
       (¬ Calm O ∧ ∃ e, Impl.onCache i (Impl.emplace O k v) w = .throw e w' ∧
          (asLru c' = asLru c ∨
            ∃ m x, O.fails .assign m = true ∧ (asLru c).item k = some x ∧ asLru c' = (asLru c).act (.put k (O.torn m x.2 v))))) := by
  obtain ⟨t, hr, ht⟩ := hp.view hO rfl hc
  have h1 := emplace_out ht hO k v
  have frame : ∀ {s' : St (Cache K V) K V} {t' : St (MCache K V) K V}, Rel s' t' → t'.c.cap = t.c.cap →
      t'.c.kind = t.c.kind → t'.c.obs = t.c.obs → SameFrame c s'.c := by
    intro s' t' hr' e1 e2 e3
    exact ⟨by rw [hr'.rep.cap, e1, ← hr.rep.cap]; rfl, by rw [hr'.rep.kind, e2, ← hr.rep.kind]; rfl,
      by rw [hr'.rep.obs, e3, ← hr.rep.obs]; rfl⟩
  have hlru : asLru c = t.c.lru := hr.lru
  have hframe : ∀ {r t'}, Mid.emplace O k v t = .ok r t' → t'.c.cap = t.c.cap ∧ t'.c.kind = t.c.kind ∧ t'.c.obs = t.c.obs := by
    intro r t' h
    rw [h] at h1
    generalize hg : Out.ok r t' = o at h1
    cases h1 with
    | unset _ => cases hg
    | fault => cases hg
    | updateFault => cases hg
    | _ => injection hg with h6 h7; subst h6 h7; exact ⟨rfl, rfl, rfl⟩
  cases hm : Mid.emplace O k v t with
  | ok r t' =>
    rw [hm] at h1
    obtain ⟨s', h2, hr'⟩ := sim_back (emplace_sim hO) hr hm
    obtain ⟨e1, e2, e3⟩ := hframe hm
    have h3 : Impl.onCache i (Impl.emplace O k v) w = .ok r ⟨w.caches.set i (some s'.c), s'.g⟩ := by rw [onCache_of hc, h2]
    refine ⟨_, s'.c, hp.op (op := .emplace k v) rfl ((onCache_ret w).trans (ret_ok_iff.2 ⟨r, h3, rfl⟩)), rfl,
      frame hr' e1 e2 e3, .inl ⟨r, h3, ?_⟩⟩
    rw [hr'.lru, hlru, h1.put ht]
  | throw e t' =>
    rw [hm] at h1
    obtain ⟨s', h2, hr'⟩ := sim_back_throw (emplace_sim hO) hr hm
    have h3 : Impl.onCache i (Impl.emplace O k v) w = .throw e ⟨w.caches.set i (some s'.c), s'.g⟩ := by
      rw [onCache_of hc, h2]
    have h4 := hp.opThrow (op := .emplace k v) rfl ((onCache_ret w).trans (ret_throw_iff.2 h3))
    generalize hg : Out.throw e t' = o at h1
    cases h1 with
    | fault g' site n _ _ _ _ hf =>
      injection hg with h6 h7
      subst h6 h7
      exact ⟨_, s'.c, h4, rfl, frame hr' rfl rfl rfl, .inr ⟨fun hC => (by rw [hC] at hf; cases hf), _, h3,
        .inl (by rw [hr'.lru, hlru])⟩⟩
    | updateFault g' e m n hf hc' _ hx =>
      injection hg with h6 h7
      subst h6 h7
      refine ⟨_, s'.c, h4, rfl, frame hr' rfl rfl rfl, .inr ⟨fun hC => (by rw [hC] at hx; cases hx), _, h3, .inr ?_⟩⟩
      have hi : t.c.lru.item k = some (e.key, e.val) := by rw [lru_item, hf]; rfl
      refine ⟨m, (e.key, e.val), hx, by rw [hlru]; exact hi, ?_⟩
      rw [hr'.lru, hlru, Lru.put_old (n := n) hc' hi, lru_others, ← ht.without_eq hf]
      simp [MCache.lru, without]
    | _ => cases hg
  | ub =>
    rw [hm] at h1
    generalize hg : (Out.ub : Out (St (MCache K V) K V) (Bool × Option Ptr)) = o at h1
    cases h1 with
    | unset hu => exact absurd ((hr.rep.cap).trans hu) hcap
    | _ => cases hg
  | _ => rw [hm] at h1; cases h1

/-- Construction of an empty cache. -/
theorem create_world (hp : AllOwn O w) (kind : Kind) {ctor : Ctor K V} (hct : Impl.ctorBody O ctor = pure 0) :
    ∃ w', Impl.create O kind ctor w = .ok () w' ∧ AllOwn O w' ∧
      w'.caches = w.caches ++ [some (Impl.emptyCache kind (Impl.ctorCapacity ctor))] := by
  have h : Impl.create O kind ctor w = .ok ()
      ⟨w.caches ++ [some (Impl.emptyCache kind (Impl.ctorCapacity ctor))], { w.g with ext := Impl.allNodes w.caches }⟩ := by
    unfold Impl.create
    rw [hct]
    rfl
  exact ⟨_, h, hp.create h, rfl⟩

end world

/-! ### States of programs with wrappers -/

/-- What always holds of the static caches. -/
structure MInv (O : Oracle K V) (σ : Memo K V) : Prop where
  own : AllOwn O σ.world
  cache : ∀ τ i, σ.statics τ = some i → ∃ c, σ.world.caches[i]? = some (some c) ∧ c.capacity ≠ none ∧ c.obs = {}
  inj : ∀ τ τ' i, σ.statics τ = some i → σ.statics τ' = some i → τ = τ'

/-- Only the cache of type `τ` changed; it is now `c'`. -/
structure Upd (O : Oracle K V) (σ σ' : Memo K V) (τ : Nat) (c' : Cache K V) : Prop where
  inv : MInv O σ'
  statics : σ'.statics = σ.statics
  self : σ'.cacheOf τ = some c'
  rest : ∀ τ', τ' ≠ τ → σ'.cacheOf τ' = σ.cacheOf τ'
  wrappers : σ'.wrappers = σ.wrappers
  mem : σ'.mem = σ.mem

theorem MInv.cacheOf {σ : Memo K V} (h : MInv O σ) {τ i : Nat} (hi : σ.statics τ = some i) :
    ∃ c, σ.cacheOf τ = some c ∧ σ.world.caches[i]? = some (some c) ∧ c.capacity ≠ none ∧ c.obs = {} := by
  obtain ⟨c, h1, h2, h3⟩ := h.cache τ i hi
  refine ⟨c, ?_, h1, h2, h3⟩
  unfold Memo.cacheOf
  rw [hi]
  simp only [h1]

theorem MInv.upd {σ : Memo K V} (h : MInv O σ) {τ i : Nat} (hi : σ.statics τ = some i) {c c' : Cache K V}
    (hc : σ.world.caches[i]? = some (some c)) {w' : World K V} (hw : AllOwn O w')
    (hs : w'.caches = σ.world.caches.set i (some c')) (hf : SameFrame c c') :
    Upd O σ { σ with world := w' } τ c' := by
  obtain ⟨c0, h1, h2, h3⟩ := h.cache τ i hi
  rw [hc] at h1
  injection h1 with h1
  injection h1 with h1
  subst h1
  have hself : w'.caches[i]? = some (some c') := by rw [hs]; exact get_set_self hc
  refine ⟨⟨hw, ?_, h.inj⟩, rfl, ?_, ?_, rfl, rfl⟩
  · intro τ' j hj
    by_cases he : i = j
    · subst he
      exact ⟨c', hself, by rw [hf.capacity]; exact h2, by rw [hf.obs]; exact h3⟩
    · obtain ⟨d, h4, h5⟩ := h.cache τ' j hj
      refine ⟨d, ?_, h5⟩
      show w'.caches[j]? = _
      rw [hs, get_set_other he]
      exact h4
  · unfold Memo.cacheOf
    simp only [hi, hself]
  · intro τ' hne
    unfold Memo.cacheOf
    simp only
    cases hj : σ.statics τ' with
    | none => rfl
    | some j =>
      have he : i ≠ j := by
        intro he
        subst he
        exact hne (h.inj _ _ _ hj hi)
      simp only [hs, get_set_other he]

/-- `m` acts on the caches. -/
theorem lift_ok {α : Type} {m : M (World K V) α} {σ : Memo K V} {a : α} {w : World K V} (h : m σ.world = .ok a w) :
    Impl.lift m σ = .ok a { σ with world := w } := by unfold Impl.lift; rw [h]

theorem lift_throw {α : Type} {m : M (World K V) α} {σ : Memo K V} {e : Err} {w : World K V}
    (h : m σ.world = .throw e w) : Impl.lift m σ = .throw e { σ with world := w } := by unfold Impl.lift; rw [h]

theorem find_memo (hO : NoListFault O) {σ : Memo K V} (h : MInv O σ) {τ i : Nat} (hi : σ.statics τ = some i)
    {c : Cache K V} (hc : σ.cacheOf τ = some c) (k : K) :
    (∃ x p w' w'' c', (asLru c).item k = some x ∧
      Impl.lift (Impl.onCache i (Impl.find O k)) σ = .ok (some p) { σ with world := w' } ∧
      Impl.lift (Impl.onCache i (Impl.read p)) { σ with world := w' } = .ok x.2 { σ with world := w'' } ∧
      Upd O σ { σ with world := w'' } τ c' ∧ SameFrame c c' ∧ asLru c' = (asLru c).act (.use k)) ∨
    (∃ w' c', (c.kind = .basic → (asLru c).item k = none) ∧
      Impl.lift (Impl.onCache i (Impl.find O k)) σ = .ok none { σ with world := w' } ∧
      Upd O σ { σ with world := w' } τ c' ∧ SameFrame c c' ∧ asLru c' = asLru c) := by
  obtain ⟨c0, h1, h2, h3, h4⟩ := h.cacheOf hi
  rw [hc] at h1
  injection h1 with h1
  subst h1
  obtain ⟨w', c', h5, h6, h7, h8⟩ := find_world hO h.own h2 h4 k
  rcases h8 with ⟨x, p, w'', h8, h9, h10, h11, h12, h13⟩ | ⟨h8, h9, h10⟩
  · exact .inl ⟨x, p, w', w'', c', h8, lift_ok h9, lift_ok h11, h.upd hi h2 h13 (h12.trans h6) h7, h7, h10⟩
  · exact .inr ⟨w', c', h8, lift_ok h9, h.upd hi h2 h5 h6 h7, h7, h10⟩

theorem emplace_memo (hO : NoListFault O) {σ : Memo K V} (h : MInv O σ) {τ i : Nat} (hi : σ.statics τ = some i)
    {c : Cache K V} (hc : σ.cacheOf τ = some c) (k : K) (v : V) :
    ∃ w' c', Upd O σ { σ with world := w' } τ c' ∧ SameFrame c c' ∧
      ((∃ r, Impl.lift (Impl.onCache i (Impl.emplace O k v)) σ = .ok r { σ with world := w' } ∧
          asLru c' = (asLru c).act (.put k v)) ∨
       (¬ Calm O ∧ ∃ e, Impl.lift (Impl.onCache i (Impl.emplace O k v)) σ = .throw e { σ with world := w' } ∧
          (asLru c' = asLru c ∨
            ∃ m x, O.fails .assign m = true ∧ (asLru c).item k = some x ∧ asLru c' = (asLru c).act (.put k (O.torn m x.2 v))))) := by
  obtain ⟨c0, h1, h2, h3, h4⟩ := h.cacheOf hi
  rw [hc] at h1
  injection h1 with h1
  subst h1
  obtain ⟨w', c', h5, h6, h7, h8⟩ := emplace_world hO h.own h2 h3 k v
  refine ⟨w', c', h.upd hi h2 h5 h6 h7, h7, ?_⟩
  rcases h8 with ⟨r, h8, h9⟩ | ⟨h8, e, h9, h10⟩
  · exact .inl ⟨r, lift_ok h8, h9⟩
  · exact .inr ⟨h8, e, lift_throw h9, h10⟩

/-- The cache of type `τ` was created; it is `c`, and empty. -/
structure New (O : Oracle K V) (σ σ' : Memo K V) (τ i : Nat) (c : Cache K V) : Prop where
  inv : MInv O σ'
  here : σ'.statics τ = some i
  statics : ∀ τ', τ' ≠ τ → σ'.statics τ' = σ.statics τ'
  self : σ'.cacheOf τ = some c
  empty : ∃ kind n, c = Impl.emptyCache kind n
  rest : ∀ τ', τ' ≠ τ → σ'.cacheOf τ' = σ.cacheOf τ'
  wrappers : σ'.wrappers = σ.wrappers
  mem : σ'.mem = σ.mem
  evals : σ'.evals = σ.evals
  done : σ'.done = σ.done

theorem alive_asks {mem : List (Option Int)} {args : CacheArgs} (h : args.Alive mem) : ∃ p, args.asks mem = some p := by
  cases args with
  | basic => exact ⟨_, rfl⟩
  | sized a => obtain ⟨n, hn⟩ := h; exact Option.isSome_iff_exists.1 (by simp only [CacheArgs.asks, hn, Option.isSome])
  | timed res d => obtain ⟨n, hn⟩ := h; exact Option.isSome_iff_exists.1 (by simp only [CacheArgs.asks, hn, Option.isSome])
  | timedSized res d a => obtain ⟨⟨n, hn⟩, m, hm⟩ := h; exact Option.isSome_iff_exists.1 (by simp only [CacheArgs.asks, hn, hm, Option.isSome])

theorem readRef_some {σ : Memo K V} {a : Nat} {v : Int} (h : σ.mem[a]? = some (some v)) :
    Impl.readRef a σ = .ok v σ := by unfold Impl.readRef; rw [h]

theorem readRef_gone {σ : Memo K V} {a : Nat} (h : ∀ v, σ.mem[a]? ≠ some (some v)) : Impl.readRef a σ = .ub := by
  unfold Impl.readRef
  split
  · next v hv => exact absurd hv (h v)
  · rfl

theorem construct_some {σ : Memo K V} (h : AllOwn O σ.world) {args : CacheArgs} {kind : Kind} {n : Nat}
    (ha : args.asks σ.mem = some (kind, n)) :
    ∃ w', Impl.construct O args σ = .ok () { σ with world := w' } ∧ AllOwn O w' ∧
        w'.caches = σ.world.caches ++ [some (Impl.emptyCache kind n)] := by
  cases args with
  | basic =>
    cases ha
    obtain ⟨w', h1, h2, h3⟩ := create_world h .basic (ctor := .default) rfl
    exact ⟨w', lift_ok h1, h2, h3⟩
  | sized a =>
    unfold CacheArgs.asks at ha
    simp only at ha
    split at ha
    · next m hm =>
      cases ha
      obtain ⟨w', h1, h2, h3⟩ := create_world h .basic (ctor := .sized (Impl.toSizeT m)) rfl
      exact ⟨w', (bind_ok (readRef_some hm)).trans (lift_ok h1), h2, h3⟩
    · cases ha
  | timed res d =>
    unfold CacheArgs.asks at ha
    simp only at ha
    split at ha
    · next t hm =>
      cases ha
      obtain ⟨w', h1, h2, h3⟩ := create_world h (timedKind t res) (ctor := .default) rfl
      exact ⟨w', (bind_ok (readRef_some hm)).trans (lift_ok h1), h2, h3⟩
    · cases ha
  | timedSized res d a =>
    unfold CacheArgs.asks at ha
    simp only at ha
    split at ha
    · next t m hm hn =>
      cases ha
      obtain ⟨w', h1, h2, h3⟩ := create_world h (timedKind t res) (ctor := .sized (Impl.toSizeT m)) rfl
      exact ⟨w', (bind_ok (readRef_some hm)).trans ((bind_ok (readRef_some hn)).trans (lift_ok h1)), h2, h3⟩
    · cases ha

theorem construct_none {σ : Memo K V} {args : CacheArgs} (ha : args.asks σ.mem = none) :
    Impl.construct O args σ = .ub := by
  cases args with
  | basic => cases ha
  | sized a =>
    refine bind_ub (readRef_gone (σ := σ) (a := a) ?_)
    intro v hv
    simp only [CacheArgs.asks, hv] at ha
    cases ha
  | timed res d =>
    refine bind_ub (readRef_gone (σ := σ) (a := d) ?_)
    intro v hv
    simp only [CacheArgs.asks, hv] at ha
    cases ha
  | timedSized res d a =>
    by_cases hd : ∃ v, σ.mem[d]? = some (some v)
    · obtain ⟨v, hd⟩ := hd
      refine (bind_ok (readRef_some hd)).trans (bind_ub (readRef_gone (σ := σ) (a := a) ?_))
      intro u hu
      simp only [CacheArgs.asks, hd, hu] at ha
      cases ha
    · exact bind_ub (readRef_gone (σ := σ) (a := d) (fun v hv => hd ⟨v, hv⟩))

/-- The static cache is there, is created, or cannot be created because a reference dangles. -/
theorem static_cases {σ : Memo K V} (h : MInv O σ) (x : Wrapper K V) :
    (∃ i, σ.statics x.type = some i ∧ Impl.staticCache O x σ = .ok i σ) ∨
    (σ.statics x.type = none ∧ ∃ i σ' kind n, x.args.asks σ.mem = some (kind, n) ∧ Impl.staticCache O x σ = .ok i σ' ∧
      New O σ σ' x.type i (Impl.emptyCache kind n)) ∨
    (σ.statics x.type = none ∧ x.args.asks σ.mem = none ∧ Impl.staticCache O x σ = .ub) := by
  unfold Impl.staticCache
  cases hs : σ.statics x.type with
  | some i => exact .inl ⟨i, rfl, rfl⟩
  | none =>
    refine .inr ?_
    cases ha : x.args.asks σ.mem with
    | none => exact .inr ⟨rfl, rfl, by unfold M.bind; simp only [construct_none ha]⟩
    | some p =>
      obtain ⟨kind, n⟩ := p
      obtain ⟨w', h2, h3, h4⟩ := construct_some h.own ha
      simp only [M.bind, h2]
      refine .inl ⟨trivial, σ.world.caches.length, _, kind, n, rfl, rfl, ?_⟩
      have hlt : ∀ τ j, σ.statics τ = some j → j < σ.world.caches.length := by
        intro τ j hj
        obtain ⟨c, hc, _⟩ := h.cache τ j hj
        exact (List.getElem?_eq_some_iff.1 hc).1
      have hnew : w'.caches[σ.world.caches.length]? = some (some (Impl.emptyCache kind n)) := by rw [h4]; simp
      have hold : ∀ j, j < σ.world.caches.length → w'.caches[j]? = σ.world.caches[j]? := by
        intro j hj
        rw [h4, List.getElem?_append_left hj]
      refine ⟨⟨h3, ?_, ?_⟩, by simp, ?_, ?_, ⟨kind, n, rfl⟩, ?_, rfl, rfl, rfl, rfl⟩
      · intro τ j hj
        simp only at hj
        by_cases he : τ = x.type
        · rw [if_pos he] at hj
          injection hj with hj
          subst hj
          exact ⟨_, hnew, by simp [Impl.emptyCache], rfl⟩
        · rw [if_neg he] at hj
          obtain ⟨c, h5, h6⟩ := h.cache τ j hj
          exact ⟨c, (hold j (hlt τ j hj)).trans h5, h6⟩
      · intro τ τ' j hj hj'
        simp only at hj hj'
        by_cases he : τ = x.type
        · by_cases he' : τ' = x.type
          · rw [he, he']
          · rw [if_pos he] at hj
            rw [if_neg he'] at hj'
            injection hj with hj
            exact absurd (hlt _ _ hj') (by omega)
        · by_cases he' : τ' = x.type
          · rw [if_neg he] at hj
            rw [if_pos he'] at hj'
            injection hj' with hj'
            exact absurd (hlt _ _ hj) (by omega)
          · rw [if_neg he] at hj
            rw [if_neg he'] at hj'
            exact h.inj _ _ _ hj hj'
      · intro τ he
        simp only [if_neg he]
      · unfold Memo.cacheOf
        simp only [if_pos, hnew]
      · intro τ he
        unfold Memo.cacheOf
        simp only [if_neg he]
        cases hj : σ.statics τ with
        | none => rfl
        | some j => simp only [hold j (hlt τ j hj)]

/-! ### What every call does, by induction on the depth of the recursion -/

/-- The body returns values with `P` only, provided that nested calls return values with `Q`; if `S`, it calls only the
first `n` wrappers. -/
def BodyOk (Q : Nat → K → V → Prop) (S : Prop) (n : Nat) (P : V → Prop) : Body K V → Prop
  | .ret u => P u
  | .throw _ => True
  | .call f k next => (S → f < n) ∧ (∀ v, Q f k v → BodyOk Q S n P (next (.ok v))) ∧ ∀ e, BodyOk Q S n P (next (.error e))

/-- `I` is kept by everything a call does; values returned have `Q`; if `S`, nothing is undefined. -/
structure Closed (O : Oracle K V) (I : Memo K V → Prop) (Q : Nat → K → V → Prop) (S : Prop) (n : Nat) : Prop where
  inv : ∀ σ, I σ → MInv O σ
  count : ∀ σ, I σ → n ≤ σ.wrappers.length
  safe : S → ∀ σ (f : Nat) (x : Wrapper K V), I σ → σ.wrappers[f]? = some x → σ.statics x.type ≠ none ∨ x.args.Alive σ.mem
  static : ∀ σ σ' (f : Nat) (x : Wrapper K V) i c, I σ → σ.wrappers[f]? = some x → σ.statics x.type = none → New O σ σ' x.type i c → I σ'
  hit : ∀ σ σ' (f : Nat) (x : Wrapper K V) k c c' y, I σ → σ.wrappers[f]? = some x → σ.cacheOf x.type = some c → (asLru c).item k = some y →
    Upd O σ σ' x.type c' → SameFrame c c' → asLru c' = (asLru c).act (.use k) → σ'.evals = σ.evals →
    σ'.done = (x.type, k) :: σ.done → I σ' ∧ Q f k y.2
  miss : ∀ σ σ' (f : Nat) (x : Wrapper K V) k c c', I σ → σ.wrappers[f]? = some x → σ.cacheOf x.type = some c →
    (c.kind = .basic → (asLru c).item k = none) →
    Upd O σ σ' x.type c' → SameFrame c c' → asLru c' = asLru c → σ'.evals = (f, k) :: σ.evals →
    σ'.done = σ.done → I σ'
  body : ∀ σ (f : Nat) (x : Wrapper K V) k h, I σ → σ.wrappers[f]? = some x → BodyOk Q S n (Q f k) (x.fn h k)
  store : ∀ σ σ' (f : Nat) (x : Wrapper K V) k v c c', I σ → σ.wrappers[f]? = some x → σ.cacheOf x.type = some c → Q f k v →
    Upd O σ σ' x.type c' → SameFrame c c' → asLru c' = (asLru c).act (.put k v) → σ'.evals = σ.evals →
    σ'.done = (x.type, k) :: σ.done → I σ'
  fail : ¬ Calm O → ∀ σ σ' (f : Nat) (x : Wrapper K V) k v c c', I σ → σ.wrappers[f]? = some x → σ.cacheOf x.type = some c →
    Q f k v → Upd O σ σ' x.type c' → SameFrame c c' → (asLru c' = asLru c ∨
      ∃ m y, O.fails .assign m = true ∧ (asLru c).item k = some y ∧ asLru c' = (asLru c).act (.put k (O.torn m y.2 v))) → σ'.evals = σ.evals →
    σ'.done = σ.done → I σ'

/-- An outcome that keeps to the rules; `G` is what additionally holds of the state afterwards. -/
def Fine (I : Memo K V → Prop) (G : Memo K V → Prop) (Q : V → Prop) (S : Prop) : Out (Memo K V) V → Prop
  | .ok v σ' => I σ' ∧ G σ' ∧ Q v
  | .throw _ σ' => I σ' ∧ G σ'
  | .ub => ¬ S
  | .terminate => False
  | .diverge => True

/-- Statics are never taken back, wrappers stay. -/
structure Later (σ σ' : Memo K V) : Prop where
  statics : ∀ τ i, σ.statics τ = some i → σ'.statics τ = some i
  wrappers : σ'.wrappers = σ.wrappers
  mem : σ'.mem = σ.mem

theorem Later.rfl' (σ : Memo K V) : Later σ σ := ⟨fun _ _ h => h, rfl, rfl⟩

theorem Later.trans {σ σ' σ'' : Memo K V} (h : Later σ σ') (h' : Later σ' σ'') : Later σ σ'' :=
  ⟨fun τ i hi => h'.statics τ i (h.statics τ i hi), h'.wrappers.trans h.wrappers, h'.mem.trans h.mem⟩

theorem Upd.later {σ σ' : Memo K V} {τ : Nat} {c : Cache K V} (h : Upd O σ σ' τ c) : Later σ σ' :=
  ⟨fun τ i hi => by rw [h.statics]; exact hi, h.wrappers, h.mem⟩

theorem New.later {σ σ' : Memo K V} {τ i : Nat} {c : Cache K V} (h : New O σ σ' τ i c) (hn : σ.statics τ = none) :
    Later σ σ' := by
  refine ⟨fun τ' j hj => ?_, h.wrappers, h.mem⟩
  rw [h.statics τ' (by rintro rfl; rw [hn] at hj; cases hj)]
  exact hj

/-- `Upd` does not look at the logs. -/
theorem Upd.logs {σ σ' : Memo K V} {τ : Nat} {c : Cache K V} (h : Upd O σ σ' τ c) (e d : List (Nat × K)) :
    Upd O σ { σ' with evals := e, done := d } τ c :=
  ⟨⟨h.inv.own, h.inv.cache, h.inv.inj⟩, h.statics, h.self, h.rest, h.wrappers, h.mem⟩

theorem Fine.mono {I G G' : Memo K V → Prop} {Q : V → Prop} {S : Prop} {o : Out (Memo K V) V} (h : Fine I G Q S o)
    (hG : ∀ σ', G σ' → G' σ') : Fine I G' Q S o := by
  cases o with
  | ok v σ' => exact ⟨h.1, hG _ h.2.1, h.2.2⟩
  | throw e σ' => exact ⟨h.1, hG _ h.2⟩
  | ub => exact h
  | terminate => exact h
  | diverge => trivial

theorem evalBody_fine {I : Memo K V → Prop} {Q : Nat → K → V → Prop} {S : Prop} {n : Nat} {P : V → Prop}
    {call : Nat → K → M (Memo K V) V} (hI : ∀ σ, I σ → n ≤ σ.wrappers.length)
    (hcall : ∀ f k σ, I σ → (S → f < σ.wrappers.length) → Fine I (Later σ) (Q f k) S (call f k σ)) :
    ∀ (b : Body K V) (σ : Memo K V), I σ → BodyOk Q S n P b → Fine I (Later σ) P S (Impl.evalBody call b σ) := by
  intro b
  induction b with
  | ret v => intro σ hσ hb; exact ⟨hσ, .rfl' σ, hb⟩
  | throw e => intro σ hσ hb; exact ⟨hσ, .rfl' σ⟩
  | call f k next ih =>
    intro σ hσ hb
    obtain ⟨h1, h2, h3⟩ := hb
    have h4 := hcall f k σ hσ (fun hS => Nat.lt_of_lt_of_le (h1 hS) (hI σ hσ))
    unfold Impl.evalBody
    cases ho : call f k σ with
    | ok v σ' =>
      rw [ho] at h4
      exact (ih _ σ' h4.1 (h2 v h4.2.2)).mono (fun _ h => h4.2.1.trans h)
    | throw e σ' =>
      rw [ho] at h4
      exact (ih _ σ' h4.1 (h3 e)).mono (fun _ h => h4.2.trans h)
    | ub => rw [ho] at h4; exact h4
    | terminate => rw [ho] at h4; exact h4
    | diverge => trivial

theorem getWrapper_some {σ : Memo K V} {f : Nat} {x : Wrapper K V} (h : σ.wrappers[f]? = some x) :
    Impl.getWrapper f σ = .ok x σ := by unfold Impl.getWrapper; rw [h]

theorem getWrapper_none {σ : Memo K V} {f : Nat} (h : σ.wrappers[f]? = none) :
    Impl.getWrapper f σ = .ub := by unfold Impl.getWrapper; rw [h]

/-- After the static variable is initialised. -/
def Impl.rest (O : Oracle K V) (depth f : Nat) (k : K) (self : Wrapper K V) (cache : Nat) : M (Memo K V) V := do
  let iterator ← Impl.lift (Impl.onCache cache (Impl.find O k))
  match iterator with
  | some p => do
    let value ← Impl.lift (Impl.onCache cache (Impl.read p))
    Impl.noteDone self.type k
    pure value
  | none => do
    let before ← Impl.noteEval f k
    let value ← Impl.evalBody (Impl.callWrapper O depth) (self.fn before k)
    let _ ← Impl.lift (Impl.onCache cache (Impl.emplace O k value))
    Impl.noteDone self.type k
    pure value

theorem callWrapper_succ {σ : Memo K V} {d f : Nat} {k : K} {x : Wrapper K V} (h : σ.wrappers[f]? = some x) :
    Impl.callWrapper O (d + 1) f k σ = (Impl.staticCache O x >>= Impl.rest O d f k x) σ := by
  unfold Impl.callWrapper
  exact bind_ok (getWrapper_some h)

/-- The call, once the cache is there: a hit, or a miss. -/
theorem rest_cases (hO : NoListFault O) {σ : Memo K V} (h : MInv O σ) {d f : Nat} {k : K} {x : Wrapper K V} {i : Nat}
    (hi : σ.statics x.type = some i) {c : Cache K V} (hc : σ.cacheOf x.type = some c) :
    (∃ σ' c' y, (asLru c).item k = some y ∧ Impl.rest O d f k x i σ = .ok y.2 σ' ∧ Upd O σ σ' x.type c' ∧
      SameFrame c c' ∧ asLru c' = (asLru c).act (.use k) ∧ σ'.evals = σ.evals ∧ σ'.done = (x.type, k) :: σ.done) ∨
    (∃ σ' c', (c.kind = .basic → (asLru c).item k = none) ∧ Upd O σ σ' x.type c' ∧ SameFrame c c' ∧
      asLru c' = asLru c ∧ σ'.evals = (f, k) :: σ.evals ∧ σ'.done = σ.done ∧
      Impl.rest O d f k x i σ = (Impl.evalBody (Impl.callWrapper O d) (x.fn σ.evals k) >>= fun value =>
        Impl.lift (Impl.onCache i (Impl.emplace O k value)) >>= fun _ =>
        Impl.noteDone x.type k >>= fun _ => pure value) σ') := by
  rcases find_memo hO h hi hc k with ⟨y, p, w', w'', c', h1, h2, h3, h4, h5, h6⟩ | ⟨w', c', h1, h2, h3, h4, h5⟩
  · refine .inl ⟨{ σ with world := w'', done := (x.type, k) :: σ.done }, c', y, h1, ?_, h4.logs _ _, h5, h6, rfl, rfl⟩
    unfold Impl.rest
    rw [bind_ok h2]
    simp only
    rw [bind_ok h3]
    rfl
  · refine .inr ⟨{ σ with world := w', evals := (f, k) :: σ.evals }, c', h1, h3.logs _ _, h4, h5, rfl, rfl, ?_⟩
    unfold Impl.rest
    rw [bind_ok h2]
    rfl

theorem rest_fine (hO : NoListFault O) {I : Memo K V → Prop} {Q : Nat → K → V → Prop} {S : Prop} {n : Nat}
    (hC : Closed O I Q S n) {d : Nat}
    (ih : ∀ f k σ, I σ → (S → f < σ.wrappers.length) → Fine I (Later σ) (Q f k) S (Impl.callWrapper O d f k σ))
    {f : Nat} {k : K} {x : Wrapper K V} {σ : Memo K V} (hσ : I σ) (hx : σ.wrappers[f]? = some x) {i : Nat}
    (hi : σ.statics x.type = some i) : Fine I (Later σ) (Q f k) S (Impl.rest O d f k x i σ) := by
  obtain ⟨c, hc, _⟩ := (hC.inv σ hσ).cacheOf hi
  rcases rest_cases hO (hC.inv σ hσ) (d := d) (f := f) (k := k) hi hc with
    ⟨σ', c', y, h1, h2, h3, h4, h5, h6, h7⟩ | ⟨σ1, c1, h1, h2, h3, h4, h5, h6, h7⟩
  · rw [h2]
    obtain ⟨h8, h9⟩ := hC.hit σ σ' f x k c c' y hσ hx hc h1 h3 h4 h5 h6 h7
    exact ⟨h8, h3.later, h9⟩
  · rw [h7]
    have hσ1 : I σ1 := hC.miss σ σ1 f x k c c1 hσ hx hc h1 h2 h3 h4 h5 h6
    have hb := evalBody_fine hC.count ih (x.fn σ.evals k) σ1 hσ1 (hC.body σ f x k σ.evals hσ hx)
    cases ho : Impl.evalBody (Impl.callWrapper O d) (x.fn σ.evals k) σ1 with
    | ok v σ2 =>
      rw [ho] at hb
      obtain ⟨hσ2, hl, hv⟩ := hb
      rw [bind_ok ho]
      have hl' : Later σ σ2 := h2.later.trans hl
      have hx2 : σ2.wrappers[f]? = some x := by rw [hl'.wrappers]; exact hx
      have hi2 := hl'.statics _ _ hi
      obtain ⟨c2, hc2, _⟩ := (hC.inv σ2 hσ2).cacheOf hi2
      obtain ⟨w', c', h8, h9, h10⟩ := emplace_memo hO (hC.inv σ2 hσ2) hi2 hc2 k v
      rcases h10 with ⟨r, h10, h11⟩ | ⟨h10, e, h11, h12⟩
      · rw [bind_ok h10]
        have h12 := h8.logs σ2.evals ((x.type, k) :: σ2.done)
        exact ⟨hC.store σ2 _ f x k v c2 c' hσ2 hx2 hc2 hv h12 h9 h11 rfl rfl, hl'.trans h12.later, hv⟩
      · rw [bind_throw h11]
        exact ⟨hC.fail h10 σ2 _ f x k v c2 c' hσ2 hx2 hc2 hv h8 h9 h12 rfl rfl, hl'.trans h8.later⟩
    | throw e σ2 =>
      rw [ho] at hb
      rw [bind_throw ho]
      exact ⟨hb.1, h2.later.trans hb.2⟩
    | ub => rw [ho] at hb; rw [bind_ub ho]; exact hb
    | terminate => rw [ho] at hb; exact hb.elim
    | diverge =>
      have : (Impl.evalBody (Impl.callWrapper O d) (x.fn σ.evals k) >>= fun value =>
        Impl.lift (Impl.onCache i (Impl.emplace O k value)) >>= fun _ =>
        Impl.noteDone x.type k >>= fun _ => pure value) σ1 = .diverge := by
        show M.bind _ _ _ = _
        unfold M.bind
        rw [ho]
      rw [this]
      trivial

/-- The rule for proving something about all calls of wrappers. -/
theorem call_fine (hO : NoListFault O) {I : Memo K V → Prop} {Q : Nat → K → V → Prop} {S : Prop} {n : Nat}
    (hC : Closed O I Q S n) : ∀ (d f : Nat) (k : K) (σ : Memo K V), I σ → (S → f < σ.wrappers.length) →
    Fine I (Later σ) (Q f k) S (Impl.callWrapper O d f k σ) := by
  intro d
  induction d with
  | zero => intro f k σ _ _; trivial
  | succ d ih =>
    intro f k σ hσ hf
    cases hx : σ.wrappers[f]? with
    | none =>
      have : Impl.callWrapper O (d + 1) f k σ = .ub := by
        unfold Impl.callWrapper
        exact bind_ub (getWrapper_none hx)
      rw [this]
      intro hS
      have := hf hS
      rw [List.getElem?_eq_none_iff] at hx
      omega
    | some x =>
      rw [callWrapper_succ hx]
      rcases static_cases (hC.inv σ hσ) x with ⟨i, h1, h2⟩ | ⟨h1, i, σ1, kind, m, h2, h3, h4⟩ | ⟨h1, h2, h3⟩
      · rw [bind_ok h2]
        exact rest_fine hO hC ih hσ hx h1
      · rw [bind_ok h3]
        have hx1 : σ1.wrappers[f]? = some x := by rw [h4.wrappers]; exact hx
        exact (rest_fine hO hC ih (hC.static σ σ1 f x i _ hσ hx h1 h4) hx1 h4.here).mono
          (fun _ h => (h4.later h1).trans h)
      · rw [bind_ub h3]
        intro hS
        rcases hC.safe hS σ f x hσ hx with h | h
        · exact h h1
        · obtain ⟨p, hp⟩ := alive_asks h
          rw [h2] at hp
          cases hp

end LRU
