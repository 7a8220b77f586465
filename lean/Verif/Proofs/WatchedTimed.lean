import Verif.Proofs.Seen
import Verif.Proofs.Watched
/-!
# Several watched caches of both classes: lemmas for `Props.WatchedTimed`
-/

set_option linter.unusedSectionVars false
set_option autoImplicit false

namespace LRU

variable {K V : Type} [KeyEqual K] [DecidableEq K] [DecidableEq V] {O : Oracle K V} {w w' : World K V} {wop : WOp K V}
  {i j : Nat} {c : Cache K V} {g g' : Museum K V} {types types' : List CacheType} {now : Int}

/-- The caches and statistics objects are those of the museum. -/
structure Displays (w : World K V) (g : Museum K V) (types : List CacheType) : Prop where
  types : w.HasTypes types
  maps : w.caches.map (Option.map asExhibit) = g.maps
  count : w.g.nextStat = g.journals.length
  journaled : ∀ i j, g.journals[i]? = some j → Journaled (w.g.stats i) j

theorem Displays.here (h : Displays w g types) (hc : w.caches[i]? = some (some c)) : g.map i = some (asExhibit c) := by
  unfold Museum.map
  rw [← h.maps, List.getElem?_map, hc]
  rfl

theorem Displays.gone (h : Displays w g types) (hn : ∀ c, w.caches[i]? ≠ some (some c)) : g.map i = none := by
  unfold Museum.map
  rw [← h.maps, List.getElem?_map]
  cases hx : w.caches[i]? with
  | none => rfl
  | some x =>
    cases x with
    | none => rfl
    | some c => exact absurd hx (hn c)

/-- The step tells what the textbook says, its callbacks are told what the textbook says, and it leaves the textbook's maps and
journals behind. -/
def HeardAt (O : Oracle K V) (types' : List CacheType) (now : Int) (wop : WOp K V) (w : World K V) (g : Museum K V) : Prop :=
  match g.reply now (.use wop) with
  | none => Impl.wstep O wop w = .ub
  | some (a, evs, g') =>
    match Impl.wstep O wop w with
    | .ok r w' => wop.news (.ok r w') = a ∧ w'.g.log = w.g.log ++ evs ∧ Displays w' g' types' ∧ a ≠ .says .terminated
    | .throw e w' => wop.news (.throw e w') = a ∧ w'.g.log = w.g.log ++ evs ∧ Displays w' g' types' ∧ a ≠ .says .terminated
    | .terminate => a = .says .terminated
    | .ub | .diverge => False

theorem HeardAt.undefined (h1 : g.reply now (.use wop) = none) (h2 : Impl.wstep O wop w = .ub) :
    HeardAt O types' now wop w g := by
  unfold HeardAt
  rw [h1]
  exact h2

theorem HeardAt.returns {a : News K V} {evs : List (Event K V)} {r : Res K V}
    (h1 : g.reply now (.use wop) = some (a, evs, g')) (h2 : Impl.wstep O wop w = .ok r w') (h3 : wop.news (.ok r w') = a)
    (h4 : w'.g.log = w.g.log ++ evs) (h5 : Displays w' g' types') (h6 : a ≠ .says .terminated) :
    HeardAt O types' now wop w g := by
  unfold HeardAt
  rw [h1, h2]
  exact ⟨h3, h4, h5, h6⟩

theorem HeardAt.throws {a : News K V} {evs : List (Event K V)} {e : Err}
    (h1 : g.reply now (.use wop) = some (a, evs, g')) (h2 : Impl.wstep O wop w = .throw e w')
    (h3 : wop.news (.throw e w') = a) (h4 : w'.g.log = w.g.log ++ evs) (h5 : Displays w' g' types')
    (h6 : a ≠ .says .terminated) : HeardAt O types' now wop w g := by
  unfold HeardAt
  rw [h1, h2]
  exact ⟨h3, h4, h5, h6⟩

/-! ### Steps that use no callbacks and statistics objects -/

theorem Displays.kept (h : Displays w g types) {cs : List (Option (Cache K V))} {ms : List (Option (Exhibit K V))}
    {gs : Shared K V} (hp : (⟨cs, gs⟩ : World K V).HasTypes types') (hm : cs.map (Option.map asExhibit) = ms)
    (hn : gs.nextStat = w.g.nextStat) (hs : gs.stats = w.g.stats) : Displays ⟨cs, gs⟩ ⟨ms, g.journals⟩ types' :=
  ⟨hp, hm, hn.trans h.count, fun i j hj => by rw [show (⟨cs, gs⟩ : World K V).g.stats = w.g.stats from hs]; exact h.journaled i j hj⟩

theorem Displays.set_self (h : Displays w g types) (hc : w.caches[i]? = some (some c)) :
    g.maps.set i (some (asExhibit c)) = g.maps := by
  refine set_get_self ?_
  rw [← h.maps, List.getElem?_map, hc]
  rfl

theorem exhibits_set {cs : List (Option (Cache K V))} {ms : List (Option (Exhibit K V))}
    (h : cs.map (Option.map asExhibit) = ms) (i : Nat) (x : Option (Cache K V)) :
    (cs.set i x).map (Option.map asExhibit) = ms.set i (x.map asExhibit) := by
  rw [List.map_set, h]

theorem two_exhibits_none {α : Type} (h : Displays w g types) (f : Exhibit K V → Exhibit K V → α)
    (hn : (∀ c, w.caches[i]? ≠ some (some c)) ∨ ∀ c, w.caches[j]? ≠ some (some c)) :
    ((g.map i).bind fun a => (g.map j).map fun b => f a b) = none := by
  rcases exists_or_not w i with ⟨a, ha⟩ | hi
  · rcases hn with hn | hn
    · exact absurd ha (hn a)
    · rw [h.here ha, h.gone hn]; rfl
  · rw [h.gone hi]; rfl

theorem StepAt.typesAfter {r : Res K V} (h : StepAt O types' now wop w) (hs : Impl.wstep O wop w = .ok r w') :
    w'.HasTypes types' := by
  unfold StepAt at h
  rw [hs] at h
  split at h
  · cases h
  · exact h.2.2.1

theorem asExhibit_under {a b : Cache K V} (h : a.kind.type.sameBase b.kind.type = true) :
    asExhibit { a with obs := b.obs, kind := b.kind } = (asExhibit a).into (asExhibit b) := by
  unfold asExhibit Exhibit.into
  rw [asBook_under h]
  rfl

theorem into_self (a : Exhibit K V) : a.into a = a := by
  obtain ⟨b, _, _, _, _, _⟩ := a
  cases b <;> rfl

/-- The step leaves two caches as they were. -/
theorem HeardAt.nothing {a : Cache K V} (h : Displays w g types) (ha : w.caches[i]? = some (some a))
    (hop : ∀ i o, wop ≠ .op i o) (hns : ∀ ks, wop ≠ .newStats ks)
    (h1 : g.reply now (.use wop) = some (.says .unit, [], (g.put i (asExhibit a)).put i (asExhibit a)))
    (h2 : Impl.wstep O wop w = .ok .unit w) : HeardAt O types now wop w g := by
  have : (g.put i (asExhibit a)).put i (asExhibit a) = g := by
    unfold Museum.put
    dsimp only
    rw [List.set_set, h.set_self ha]
  rw [this] at h1
  refine .returns h1 h2 ?_ (by simp) h (fun h => by cases h)
  cases wop <;> first | rfl | exact absurd rfl (hop _ _) | exact absurd rfl (hns _)

/-- The step changes two caches. -/
theorem HeardAt.exchange {a b : Cache K V} (h : Displays w g types)
    (hop : ∀ i o, wop ≠ .op i o) (hns : ∀ ks, wop ≠ .newStats ks)
    (h1 : g.reply now (.use wop) = some (.says .unit, [], (g.put i (asExhibit a)).put j (asExhibit b)))
    (h2 : Impl.wstep O wop w = .ok .unit ⟨(w.caches.set i (some a)).set j (some b), w.g⟩)
    (h3 : StepAt O types' now wop w) : HeardAt O types' now wop w g := by
  refine .returns h1 h2 ?_ (by simp) (h.kept (h3.typesAfter h2) (exhibits_set (exhibits_set h.maps i _) j _) rfl rfl)
    (fun h => by cases h)
  cases wop <;> first | rfl | exact absurd rfl (hop _ _) | exact absurd rfl (hns _)

theorem create_heard {kind : Kind} {ctor : Ctor K V} (hC : Calm O) (hw : Reach O (fun op => op.copies = false) w)
    (h : Displays w g types) (hp : PacedStep O now (.create kind ctor) w) :
    HeardAt O (types ++ [kind.type]) now (.create kind ctor) w g := by
  have hO := hC.noListFault
  have hat := create_step hC hw h.types hp
  obtain ⟨w', h1⟩ := C31_construction_returns hC hw kind ctor
  have h1 : Impl.wstep O (.create kind ctor) w = .ok .unit w' := h1
  have hcr : Impl.create O kind ctor w = .ok () w' := (ret_ok_iff.1 h1).elim fun _ h => h.1
  unfold Impl.create at hcr
  split at hcr <;> first | (cases hcr; done) | skip
  next n s1 hb =>
  injection hcr with _ hcr
  subst hcr
  have hq := ctorBody_q (O := O) ctor ⟨Impl.emptyCache kind (Impl.ctorCapacity ctor),
    { w.g with ext := Impl.allNodes w.caches }⟩
  rw [hb] at hq
  have hq : Silent _ s1 := hq
  have hobs : s1.c.obs = {} := hq.obs
  have hbook : asBook s1.c = .make now ctor kind := by
    have h2 := hat.2
    rw [h1] at h2
    have h2 : (⟨w.caches ++ [some s1.c], s1.g⟩ : World K V).library = w.library ++ [some (.make now ctor kind)] := h2.1
    rw [library_push] at h2
    have := List.append_cancel_left h2
    injection this with this
    injection this
  have hre := empty_reachable hw kind (Impl.ctorCapacity ctor) (O := O)
  obtain ⟨o, ho, hd⟩ := create_items hb
  have hlast : lastKey s1.c = (ctor.pairs.getLast?.map (·.1)).bind (asBook s1.c).storedKey := by
    have h3 : lastKey s1.c = (Option.or (ctor.pairs.getLast?.map (·.1)) none).bind (asBook s1.c).storedKey := by
      rcases ho with rfl | rfl
      · exact call_latest (now := now) hO hre (.inl rfl) rfl hd
      · exact call_latest (now := now) hO hre (.inl rfl) rfl hd
    rw [h3, Option.or_none]
  refine .returns rfl h1 rfl (by rw [List.append_nil]; exact hq.log) (h.kept (hat.typesAfter h1) ?_ hq.nextStat hq.stats)
    (fun h => by cases h)
  rw [List.map_append, h.maps]
  congr 1
  show [some (asExhibit s1.c)] = _
  unfold asExhibit Exhibit.bare
  rw [hlast, hbook, hobs]

/-- Steps on several caches. -/
theorem world_heardAt (hC : Calm O) (hw : Reach O (fun op => op.copies = false) w) (h : Displays w g types)
    (hop : wop.typed types = some types') (hp : PacedStep O now wop w) (hno : ∀ i o, wop ≠ .op i o) :
    HeardAt O types' now wop w g := by
  have hO := hC.noListFault
  have hat := step_at hC hw h.types hop hp
  have two : ∀ {i j : Nat}, (types[i]?.bind fun t => if types[j]? = some t then some types else none) = some types' →
      types' = types ∧ ∀ a b : Cache K V, w.caches[i]? = some (some a) → w.caches[j]? = some (some b) →
        a.kind.type = b.kind.type := by
    intro i j h'
    obtain ⟨t, h1, h2⟩ := Option.bind_eq_some_iff.1 h'
    split at h2
    · next h3 =>
      injection h2 with h2
      refine ⟨h2.symm, fun a b ha hb => ?_⟩
      have e1 := h.types.type i a ha
      have e2 := h.types.type j b hb
      rw [h1] at e1
      rw [h3] at e2
      injection e1 with e1
      injection e2 with e2
      rw [← e1, ← e2]
    · cases h2
  have base : ∀ {i j : Nat},
      (types[i]?.bind fun t => types[j]?.bind fun t' => if t.sameBase t' then some types else none) = some types' →
      types' = types ∧ ∀ a b : Cache K V, w.caches[i]? = some (some a) → w.caches[j]? = some (some b) →
        a.kind.type.sameBase b.kind.type = true := by
    intro i j h'
    obtain ⟨t, h1, h2⟩ := Option.bind_eq_some_iff.1 h'
    obtain ⟨t', h3, h4⟩ := Option.bind_eq_some_iff.1 h2
    split at h4
    · next h5 =>
      injection h4 with h4
      refine ⟨h4.symm, fun a b ha hb => ?_⟩
      have e1 := h.types.type i a ha
      have e2 := h.types.type j b hb
      rw [h1] at e1
      rw [h3] at e2
      injection e1 with e1
      injection e2 with e2
      rw [← e1, ← e2]
      exact h5
    · cases h4
  cases wop <;> first | (cases hop; done) | (exact absurd rfl (hno _ _)) | skip
  case create kind ctor =>
    cases hop
    exact create_heard hC hw h hp
  case destroy i =>
    rcases exists_or_not w i with ⟨c, hc⟩ | hn
    · have hs : Impl.wstep O (.destroy i) w = .ok .unit ⟨w.caches.set i none, w.g⟩ := by
        show Impl.ret _ _ w = _
        refine ret_ok (a := ()) ?_
        rw [bind_ok (getCache_some hc)]
        rfl
      refine .returns ?_ hs rfl (List.append_nil _).symm (h.kept (hat.typesAfter hs) (exhibits_set h.maps i none) rfl rfl)
        (fun h => by cases h)
      show (g.map i).map _ = _
      rw [h.here hc]; rfl
    · refine .undefined ?_ ?_
      · show (g.map i).map _ = none
        rw [h.gone hn]; rfl
      · exact bind_ub (bind_ub (getCache_none hn))
  case swap i j =>
    obtain ⟨rfl, ht⟩ := two hop
    rcases two_exist w i j with ⟨a, b, ha, hb⟩ | hn
    · have hreply : g.reply now (.use (.swap i j)) = some (.says .unit, [],
          (g.put i { asExhibit a with book := asBook b, latest := lastKey b }).put j
            { asExhibit b with book := asBook a, latest := lastKey a }) := by
        show ((g.map i).bind fun a => (g.map j).map fun b => _) = _
        rw [h.here ha, h.here hb]; rfl
      by_cases hij : i = j
      · subst hij
        rw [ha] at hb
        injection hb with hb
        injection hb with hb
        subst hb
        exact .nothing h ha hno (fun _ e => by cases e) hreply (C25_self_swap ha)
      · exact .exchange (a := { b with obs := a.obs }) (b := { a with obs := b.obs }) h hno (fun _ e => by cases e) hreply
          (swap_eq ha hb hij (type_sameType (ht a b ha hb))) hat
    · exact .undefined (two_exhibits_none h _ hn) (two_missing hn).1
  case swapBase i j =>
    obtain ⟨rfl, ht⟩ := base hop
    rcases two_exist w i j with ⟨a, b, ha, hb⟩ | hn
    · have hreply : g.reply now (.use (.swapBase i j)) = some (.says .unit, [],
          (g.put i ((asExhibit b).into (asExhibit a))).put j ((asExhibit a).into (asExhibit b))) := by
        show ((g.map i).bind fun a => (g.map j).map fun b => _) = _
        rw [h.here ha, h.here hb]; rfl
      by_cases hij : i = j
      · subst hij
        rw [ha] at hb
        injection hb with hb
        injection hb with hb
        subst hb
        rw [into_self] at hreply
        exact .nothing h ha hno (fun _ e => by cases e) hreply (baseSwap_self ha)
      · have hk := ht a b ha hb
        rw [← asExhibit_under hk, ← asExhibit_under (typeBase_comm hk)] at hreply
        exact .exchange h hno (fun _ e => by cases e) hreply (baseSwap_eq ha hb hij (type_sameBase hk)) hat
    · exact .undefined (two_exhibits_none h _ hn) (two_missing hn).2.2.2
  case moveAssign i j =>
    obtain ⟨rfl, ht⟩ := two hop
    rcases two_exist w i j with ⟨a, b, ha, hb⟩ | hn
    · have hreply : g.reply now (.use (.moveAssign i j)) = some (.says .unit, [],
          (g.put i { asExhibit a with book := asBook b, latest := lastKey b }).put j
            ((asExhibit a).into (asExhibit b))) := by
        show ((g.map i).bind fun a => (g.map j).map fun b => _) = _
        rw [h.here ha, h.here hb]; rfl
      by_cases hij : i = j
      · subst hij
        rw [ha] at hb
        injection hb with hb
        injection hb with hb
        subst hb
        rw [into_self] at hreply
        refine .nothing h ha hno (fun _ e => by cases e) hreply ?_
        show Impl.ret (Impl.moveAssign i i) _ w = _
        unfold Impl.moveAssign
        refine ret_ok (a := ()) ?_
        rw [bind_ok (getCache_some ha), bind_ok (getCache_some ha), if_pos (by simp)]
        rfl
      · have hk := ht a b ha hb
        rw [← asExhibit_under (sameBase_type hk)] at hreply
        exact .exchange (a := { b with obs := a.obs }) h hno (fun _ e => by cases e) hreply
          (moveAssign_eq ha hb hij (type_sameType hk)) hat
    · exact .undefined (two_exhibits_none h _ hn) (two_missing hn).2.1
  case moveCtor i =>
    rcases exists_or_not w i with ⟨c, hc⟩ | hn
    · have hs := moveCtor_eq (O := O) hc
      refine .returns (g' := ⟨g.maps.set i (some { asExhibit c with book := (asBook c).hollow, latest := none }) ++
        [some (.bare (asBook c) (lastKey c))], g.journals⟩) ?_ hs rfl (List.append_nil _).symm
        (h.kept (hat.typesAfter hs) ?_ rfl rfl) (fun h => by cases h)
      · show (g.map i).map _ = _
        rw [h.here hc]; rfl
      · rw [List.map_append, exhibits_set h.maps, ← asBook_hollow]
        rfl
    · refine .undefined ?_ ?_
      · show (g.map i).map _ = none
        rw [h.gone hn]; rfl
      · exact bind_ub (bind_ub (getCache_none hn))
  case eq i j =>
    obtain ⟨rfl, ht⟩ := base hop
    rcases two_exist w i j with ⟨a, b, ha, hb⟩ | hn
    · obtain ⟨r, h1, h2⟩ := C29_equality hO hw ha hb
      refine .returns (a := .says (.bool r)) (evs := []) (g' := g) ?_ h1 rfl (by simp) h (fun h => by cases h)
      show ((g.map i).bind fun a => (g.map j).map fun b => _) = _
      rw [h.here ha, h.here hb]
      have : (asBook a).same (asBook b) = r := by
        rw [asBook_same (ht a b ha hb), Bool.eq_iff_iff, decide_eq_true_iff, h2]
      rw [← this]
      rfl
    · exact .undefined (two_exhibits_none h _ hn) (two_missing hn).2.2.1

/-! ### Calls -/

theorem reply_offered {o : Op K V} (h : Displays w g types) (hc : w.caches[i]? = some (some c)) (hop : o.observes = false) :
    g.reply now (.use (.op i o)) =
      if c.capacity = none ∧ o.needsCapacity = true then none else some (g.call now i (asExhibit c) o) := by
  show (g.map i).bind _ = _
  rw [h.here hc, Option.bind_some, hop, show (asExhibit c).book.capacity = c.capacity from asBook_capacity c]
  rfl

/-- Only accesses answer that a key was not found. -/
theorem notFound_accessed {o : Op K V} {b : Book K V} (h : (b.reply now o).1 = .notFound) : o.accessed ≠ none := by
  intro ha
  cases b with
  | plain l =>
    have h : (l.reply o).1 = .notFound := h
    cases o <;> first | (cases ha; done) | (cases h; done) | skip
    case insert | emplace =>
      simp only [Lru.reply, Lru.storing] at h
      repeat' split at h
      all_goals cases h
    case front | back =>
      simp only [Lru.reply] at h
      split at h <;> cases h
  | timed T l =>
    have h : (TLru.reply l T now o).1 = .notFound := h
    cases o <;> first | (cases ha; done) | (cases h; done) | skip
    case insert | emplace =>
      simp only [TLru.reply, TLru.storing] at h
      repeat' split at h
      all_goals cases h

theorem offers_byKey {t : CacheType} {o : Op K V} (h : t.offers o = true) : o.byKey = true ∨ o.byKeyTimed = true := by
  cases t
  · exact .inl h
  · exact .inr h

theorem offers_observes {t : CacheType} {o : Op K V} (h : t.offers o = true) : o.observes = false := by
  cases t <;> cases o <;> first | rfl | cases h

theorem offers_configures {t : CacheType} {o : Op K V} (h : t.offers o = true) : o.configures = false := by
  cases t <;> cases o <;> first | rfl | cases h

/-- What a call that concerns keys and values leaves in callbacks and journals. -/
theorem call_displays {o : Op K V} {res : Except Err (Res K V)} {s' : St (Cache K V) K V} {t : CacheType} (hC : Calm O)
    (hw : Reach O (fun op => op.copies = false) w) (h : Displays w g types) (hc : w.caches[i]? = some (some c))
    (hop : t.offers o = true) (hpc : PacedCall O now o (viewOf w i c)) (hp : Performs O o (viewOf w i c) res s')
    (hT : (⟨w.caches.set i (some s'.c), s'.g⟩ : World K V).HasTypes types)
    (hl : asBook s'.c = ((asBook c).reply now o).2)
    (hnf : ∀ e, res = .error e → ((asBook c).reply now o).1 = .notFound) :
    s'.g.log = w.g.log ++ (g.call now i (asExhibit c) o).2.1 ∧
      Displays ⟨w.caches.set i (some s'.c), s'.g⟩ (g.call now i (asExhibit c) o).2.2 types ∧
      (res = .error .keyExpired → (g.call now i (asExhibit c) o).1 = .expired) ∧
      (res ≠ .error .keyExpired → (g.call now i (asExhibit c) o).1 = .says ((asBook c).reply now o).1 ∨
        res = .ok (.bool false) ∧ (((asBook c).reply now o).1 ≠ .notFound →
          (g.call now i (asExhibit c) o).1 = .says ((asBook c).reply now o).1)) := by
  have hO := hC.noListFault
  have hr := hw.reachable hc
  have hmaps : lastKey s'.c = (((asBook c).touches now o).or (lastKey c)).bind (asBook s'.c).storedKey → s'.c.obs = c.obs →
      (w.caches.set i (some s'.c)).map (Option.map asExhibit) = g.maps.set i (some ((asExhibit c).after now o)) := by
    intro h1 h2
    rw [exhibits_set h.maps]
    show g.maps.set i (some (asExhibit s'.c)) = _
    unfold asExhibit Exhibit.after
    rw [h1, h2, hl]
  cases ha : o.accessed with
  | none =>
    have hq := step_quietly (O := O) o (by rw [isAccess_accessed, ha]; rfl) (offers_configures hop) (viewOf w i c)
    cases res with
    | error e => exact absurd ha (notFound_accessed (hnf e rfl))
    | ok r =>
      have hp : Returns O o (viewOf w i c) r s' := hp
      rw [show Impl.step O o (viewOf w i c) = _ from hp] at hq
      have hq : Silent (viewOf w i c) s' := hq
      have hlast := call_latest (now := now) hO hr (offers_byKey hop) ha hp
      have hcall : g.call now i (asExhibit c) o =
          (.says ((asBook c).reply now o).1, [], g.put i ((asExhibit c).after now o)) := by
        unfold Museum.call
        rw [ha]
        rfl
      rw [hcall]
      exact ⟨by rw [List.append_nil]; exact hq.log, h.kept hT (hmaps hlast hq.obs) hq.nextStat hq.stats,
        fun h => (by cases h), fun _ => .inl rfl⟩
  | some k =>
    have hseen := access_seen hC hr (accessed_iff.1 ha) hpc hp
    have hmind := performs_minds hp (by rw [isAccess_accessed, ha]; rfl)
    have hobs : s'.c.obs = c.obs := hmind.obs
    have hmaps := hmaps hseen.latest hobs
    have hnext : s'.g.nextStat = w.g.nextStat := hmind.nextStat
    cases hov : (asExhibit c).overlooks now o with
    | true =>
      obtain ⟨h1, h2, h3⟩ := hseen.quiet hov
      have hcall : g.call now i (asExhibit c) o =
          (if ((asBook c).reply now o).1 = .notFound then .expired else .says ((asBook c).reply now o).1, [],
            g.put i ((asExhibit c).after now o)) := by
        unfold Museum.call
        rw [ha]
        dsimp only
        rw [if_pos hov]
        rfl
      rw [hcall]
      refine ⟨by rw [List.append_nil]; exact h1, h.kept hT hmaps hnext h2, fun he => if_pos (hnf _ he), fun he => ?_⟩
      rcases h3 with h3 | h3
      · exact absurd h3 he
      · exact .inr ⟨h3, fun hx => if_neg hx⟩
    | false =>
      obtain ⟨hrec, hne⟩ := hseen.loud hov
      have hlog : s'.g.log = w.g.log ++ (asExhibit c).announces now k := hrec.log
      cases ht : c.obs.stats with
      | none =>
        have hcall : g.call now i (asExhibit c) o = (.says ((asBook c).reply now o).1, (asExhibit c).announces now k,
            g.put i ((asExhibit c).after now o)) := by
          unfold Museum.call
          rw [ha]
          dsimp only
          rw [if_neg (by rw [hov]; exact fun h => by cases h)]
          split
          · next id hid => exact absurd (hid.symm.trans ht) (fun h => by cases h)
          · rfl
        rw [hcall]
        refine ⟨hlog, h.kept hT hmaps hnext ?_, fun he => absurd he hne, fun _ => .inl rfl⟩
        funext j
        exact hrec.others j (by rw [show (viewOf w i c).c.obs.stats = none from ht]; exact fun h => by cases h)
      | some id =>
        have hcall : g.call now i (asExhibit c) o = (.says ((asBook c).reply now o).1, (asExhibit c).announces now k,
            (g.put i ((asExhibit c).after now o)).note id (.access k ((asBook c).finds now k).isSome)) := by
          unfold Museum.call
          rw [ha]
          dsimp only
          rw [if_neg (by rw [hov]; exact fun h => by cases h)]
          split
          · next id' hid =>
            have : some id' = some id := hid.symm.trans ht
            injection this with this
            rw [this]
            rfl
          · next hid => exact absurd (hid.symm.trans ht) (fun h => by cases h)
        rw [hcall]
        refine ⟨hlog, ⟨hT, hmaps, ?_, ?_⟩, fun he => absurd he hne, fun _ => .inl rfl⟩
        · show s'.g.nextStat = (g.journals.modify id _).length
          rw [List.length_modify, hnext, h.count]
        · intro j jo hj
          have hj : (g.journals.modify id _)[j]? = some jo := hj
          rw [List.getElem?_modify] at hj
          cases hg : g.journals[j]? with
          | none => rw [hg] at hj; cases hj
          | some jo' =>
            rw [hg] at hj
            have hold := h.journaled j jo' hg
            have hj : (if id = j then Note.access k ((asBook c).finds now k).isSome :: jo' else jo') = jo := by
              injection hj
            by_cases hij : id = j
            · subst hij
              rw [if_pos rfl] at hj
              rw [← hj]
              exact hold.counted (hrec.counted id ht)
            · rw [if_neg hij] at hj
              rw [← hj]
              have : s'.g.stats j = w.g.stats j := hrec.others j (by
                rw [show (viewOf w i c).c.obs.stats = some id from ht]
                exact fun e => hij (by injection e))
              show Journaled (s'.g.stats j) jo'
              rw [this]
              exact hold

theorem news_of_offered {o : Op K V} {a : Ans K V} {r : Res K V} (hop : o.observes = false)
    (h : (WOp.op i o).told (.ok r w') = .says a) : (WOp.op i o).news (.ok r w') = .says a := by
  have key : (match (WOp.op i o).told (.ok r w') with
    | .says a => News.says a
    | .undefined => .undefined
    | .other => .other) = .says a := by rw [h]
  cases o <;> first | (cases hop; done) | exact key

theorem offered_heard {o : Op K V} {t : CacheType} (hC : Calm O) (hw : Reach O (fun op => op.copies = false) w)
    (h : Displays w g types) (ht : types[i]? = some t) (hop : t.offers o = true) (hp : PacedStep O now (.op i o) w) :
    HeardAt O types now (.op i o) w g := by
  have hO := hC.noListFault
  have hstep : Impl.wstep O (.op i o) w = Impl.onCache i (Impl.step O o) w := rfl
  rcases exists_or_not w i with ⟨c, hc⟩ | hn
  · have hr := hw.reachable hc
    have hlt : i < w.caches.length := (List.getElem?_eq_some_iff.1 hc).1
    have hty : t = c.kind.type := by
      have := h.types.type i c hc
      rw [ht] at this
      injection this
    subst hty
    have hreply := reply_offered (now := now) h hc (offers_observes hop)
    by_cases hbad : c.capacity = none ∧ o.needsCapacity = true
    · rw [if_pos hbad] at hreply
      exact .undefined hreply (by rw [hstep, onCache_eq hc, needsCapacity_ub hO hr hbad.1 hbad.2])
    · rw [if_neg hbad] at hreply
      have hpc : PacedCall O now o (viewOf w i c) := by
        unfold PacedStep at hp
        rw [hstep, onCache_eq hc] at hp
        unfold PacedCall
        cases hs : Impl.step O o (viewOf w i c) <;> rw [hs] at hp <;> first | exact hp | trivial
      obtain ⟨h1, h2⟩ := call_at hC hr hop hbad hpc
      have hk := step_kind (O := O) (s := viewOf w i c) (o := o)
      have hset : ∀ s' : St (Cache K V) K V, s'.c.kind = c.kind →
          (⟨w.caches.set i (some s'.c), s'.g⟩ : World K V).HasTypes types := by
        intro s' hk'
        refine HasTypes_set h.types (fun d hd => ?_) _
        injection hd with hd
        rw [← hd, hk']
        exact ht
      have hon := onCache_eq hc (Impl.step O o)
      cases hs : Impl.step O o (viewOf w i c) with
      | ok r s' =>
        rw [hs] at hon h1 h2 hk
        have h1 : r.ans s'.c = some ((asBook c).reply now o).1 := h1
        have h2 : asBook s'.c = ((asBook c).reply now o).2 := h2
        obtain ⟨h3, h4, -, h6⟩ := call_displays (res := .ok r) hC hw h hc hop hpc hs (hset s' hk) h2 (fun e h => by cases h)
        have hfst : (g.call now i (asExhibit c) o).1 = .says ((asBook c).reply now o).1 := by
          rcases h6 (fun h => by cases h) with h6 | ⟨h6, h7⟩
          · exact h6
          · refine h7 (fun h8 => ?_)
            injection h6 with h6
            rw [h6, h8] at h1
            injection h1 with h1
            cases h1
        refine .returns (a := (g.call now i (asExhibit c) o).1) (evs := (g.call now i (asExhibit c) o).2.1)
          (g' := (g.call now i (asExhibit c) o).2.2) hreply (hstep.trans hon) ?_ h3 h4 ?_
        · rw [hfst]
          refine news_of_offered (offers_observes hop) ?_
          simp only [WOp.told]
          rw [show (w.caches.set i (some s'.c))[i]? = some (some s'.c) by simp [hlt]]
          simp only [h1]
        · rw [hfst]
          intro h
          injection h with h
          rw [h] at h1
          exact Res.ans_ne_terminated _ _ h1
      | throw e s' =>
        rw [hs] at hon h1 h2 hk
        have h2 : asBook s'.c = ((asBook c).reply now o).2 := h2
        have h1' : Ans.notFound = ((asBook c).reply now o).1 := by
          cases e <;> first | (cases h1; done) | (injection h1)
        have h3 : e = .keyNotFound ∨ e = .keyExpired := by
          cases e <;> first | exact .inl rfl | exact .inr rfl | (cases h1; done)
        obtain ⟨h4, h5, h6, h7⟩ := call_displays (res := .error e) hC hw h hc hop hpc hs (hset s' hk) h2 (fun _ _ => h1'.symm)
        refine .throws (a := (g.call now i (asExhibit c) o).1) (evs := (g.call now i (asExhibit c) o).2.1)
          (g' := (g.call now i (asExhibit c) o).2.2) hreply (hstep.trans hon) ?_ h4 h5 ?_
        · rcases h3 with rfl | rfl
          · rcases h7 (fun h => by cases h) with h7 | ⟨h7, -⟩
            · rw [h7, ← h1']
              cases o <;> rfl
            · cases h7
          · rw [h6 rfl]
            cases o <;> rfl
        · rcases h3 with rfl | rfl
          · rcases h7 (fun h => by cases h) with h7 | ⟨h7, -⟩
            · rw [h7, ← h1']
              exact fun h => by cases h
            · cases h7
          · rw [h6 rfl]
            exact fun h => by cases h
      | terminate =>
        rw [hs] at hon h1 h2
        have h2 : ((asBook c).reply now o).1 = .terminated := h2
        have hacc : o.accessed = none := by
          cases b : asBook c <;> rw [b] at h2
          all_goals
            cases o <;> first | rfl | (cases h2; done) | skip
            all_goals
              simp only [Book.reply, Lru.reply, TLru.reply] at h2
              split at h2 <;> cases h2
        unfold HeardAt
        rw [hreply, hstep, hon]
        show (g.call now i (asExhibit c) o).1 = _
        unfold Museum.call
        rw [hacc]
        exact congrArg News.says h2
      | ub => rw [hs] at h2; exact h2.elim
      | diverge => rw [hs] at h2; exact h2.elim
  · refine .undefined ?_ ?_
    · show (g.map i).bind _ = none
      rw [h.gone hn]; rfl
    · show Impl.onCache i _ w = .ub
      unfold Impl.onCache
      split
      · next c hc => exact absurd hc (hn c)
      · rfl

theorem Displays.opened (h : Displays w g types) {cs : List (Option (Cache K V))} {ms : List (Option (Exhibit K V))} {gs : Shared K V}
    {ks : List K} (hp : (⟨cs, gs⟩ : World K V).HasTypes types) (hm : cs.map (Option.map asExhibit) = ms)
    (hn : gs.nextStat = w.g.nextStat + 1)
    (hs : ∀ i, gs.stats i = if i = w.g.nextStat then Statistics.ofKeys ks else w.g.stats i) :
    Displays ⟨cs, gs⟩ ⟨ms, g.journals ++ [ks.reverse.map .watch]⟩ types := by
  refine ⟨hp, hm, ?_, fun i j hj => ?_⟩
  · show gs.nextStat = (g.journals ++ _).length
    rw [hn, h.count, List.length_append]
    rfl
  · have hj : (g.journals ++ [ks.reverse.map .watch])[i]? = some j := hj
    show Journaled (gs.stats i) j
    rw [hs]
    by_cases hlt : i < g.journals.length
    · rw [List.getElem?_append_left hlt] at hj
      rw [if_neg (by rw [h.count]; omega)]
      exact h.journaled i j hj
    · rw [List.getElem?_append_right (by omega)] at hj
      have hi : i = g.journals.length := by
        cases hm : i - g.journals.length with
        | zero => omega
        | succ n => rw [hm] at hj; cases hj
      subst hi
      rw [Nat.sub_self] at hj
      injection hj with hj
      rw [if_pos h.count.symm, ← hj]
      exact Journaled.new ks

theorem observes_heardAt {o : Op K V} (h : Displays w g types) (hop : o.observes = true) : HeardAt O types now (.op i o) w g := by
  rcases exists_or_not w i with ⟨c, hc⟩ | hn
  · have hk := h.types.type i c hc
    have hreply : g.reply now (.use (.op i o)) = some ((g.observe i (asExhibit c) o).1, [], (g.observe i (asExhibit c) o).2) := by
      show (g.map i).bind _ = _
      rw [h.here hc, Option.bind_some, if_pos hop]
    have hon := onCache_eq hc (Impl.step O o)
    have hset : ∀ (d : Cache K V) (gs : Shared K V), types[i]? = some d.kind.type →
        (⟨w.caches.set i (some d), gs⟩ : World K V).HasTypes types :=
      fun d gs hd => HasTypes_set h.types (fun e he => by injection he with he; rw [← he]; exact hd) _
    have hlt : i < w.caches.length := (List.getElem?_eq_some_iff.1 hc).1
    have hself : w.caches.set i (some c) = w.caches := set_get_self hc
    have told_unit : ∀ (d : Cache K V) (gs : Shared K V),
        (WOp.op i o).told (.ok .unit ⟨w.caches.set i (some d), gs⟩) = .says .unit := by
      intro d gs
      unfold WOp.told
      simp only [List.getElem?_set_self hlt]
      rfl
    have news_unit : ∀ (d : Cache K V) (gs : Shared K V),
        (WOp.op i o).news (.ok .unit ⟨w.caches.set i (some d), gs⟩) = .says .unit := by
      intro d gs
      have := told_unit d gs
      cases o <;> first | (cases hop; done) | (simp only [WOp.news, this])
    cases o <;> first | (cases hop; done) | skip
    case monitor id =>
      exact .returns hreply hon (news_unit _ _) (List.append_nil _).symm (h.kept (hset _ _ hk) (exhibits_set h.maps i _) rfl rfl)
        (fun h => by cases h)
    case monitorNew ks =>
      refine .returns hreply hon ?_ (List.append_nil _).symm ?_ (fun h => by cases h)
      · show News.object (some w.g.nextStat) = .object (some g.journals.length)
        rw [h.count]
      · refine h.opened (hset _ _ hk) ?_ rfl (fun _ => rfl)
        rw [exhibits_set h.maps]
        show g.maps.set i (some ⟨_, _, some w.g.nextStat, _, _, _⟩) = _
        rw [h.count]
        rfl
    case stopMonitoring =>
      exact .returns hreply hon (news_unit _ _) (List.append_nil _).symm (h.kept (hset _ _ hk) (exhibits_set h.maps i _) rfl rfl)
        (fun h => by cases h)
    case isMonitoring =>
      refine .returns hreply hon ?_ (List.append_nil _).symm (h.kept (hset _ _ hk) ?_ rfl rfl) (fun h => by cases h)
      · unfold WOp.news WOp.told
        simp only [List.getElem?_set_self hlt]
        rfl
      · rw [exhibits_set h.maps]
        exact h.set_self hc
    case stats =>
      cases ht : c.obs.stats with
      | none =>
        have hs : Impl.step O .stats (viewOf w i c) = .throw .notMonitoring (viewOf w i c) := by
          refine bind_throw ?_
          unfold Impl.stats
          rw [bind_ok (m := Impl.getObs) (a := c.obs) (s' := viewOf w i c) rfl, ht]
          rfl
        rw [hs] at hon
        refine .throws hreply hon ?_ (List.append_nil _).symm (h.kept (hset _ _ hk) ?_ rfl rfl) ?_
        · show News.notMonitoring = (match (asExhibit c).tally with | some id => .object (some id) | none => .notMonitoring)
          rw [show (asExhibit c).tally = none from ht]
        · rw [exhibits_set h.maps]
          exact h.set_self hc
        · show (match (asExhibit c).tally with | some id => News.object (some id) | none => .notMonitoring) ≠ _
          rw [show (asExhibit c).tally = none from ht]
          exact fun h => by cases h
      | some id =>
        have hs : Impl.step O .stats (viewOf w i c) = .ok (.nat id) (viewOf w i c) := by
          refine ret_ok (a := id) ?_
          unfold Impl.stats
          rw [bind_ok (m := Impl.getObs) (a := c.obs) (s' := viewOf w i c) rfl, ht]
          rfl
        rw [hs] at hon
        refine .returns hreply hon ?_ (List.append_nil _).symm (h.kept (hset _ _ hk) ?_ rfl rfl) ?_
        · show News.object (some id) = (match (asExhibit c).tally with | some id => .object (some id) | none => .notMonitoring)
          rw [show (asExhibit c).tally = some id from ht]
        · rw [exhibits_set h.maps]
          exact h.set_self hc
        · show (match (asExhibit c).tally with | some id => News.object (some id) | none => .notMonitoring) ≠ _
          rw [show (asExhibit c).tally = some id from ht]
          exact fun h => by cases h
    case sharedStats =>
      refine .returns hreply hon ?_ (List.append_nil _).symm (h.kept (hset _ _ hk) ?_ rfl rfl) (fun h => by cases h)
      · rfl
      · rw [exhibits_set h.maps]
        exact h.set_self hc
    all_goals
      exact .returns hreply hon (news_unit _ _) (List.append_nil _).symm (h.kept (hset _ _ hk) (exhibits_set h.maps i _) rfl rfl)
        (fun h => by cases h)
  · refine .undefined ?_ ?_
    · show (g.map i).bind _ = none
      rw [h.gone hn]; rfl
    · show Impl.onCache i _ w = .ub
      unfold Impl.onCache
      split
      · next c hc => exact absurd hc (hn c)
      · rfl

/-! ### Statistics objects -/

theorem Displays.noted (h : Displays w g types) {id : Nat} {j : Journal K} {st : Statistics K} {n : Note K} (hj : g.journals[id]? = some j)
    (ht : Journaled st (n :: j)) :
    Displays ⟨w.caches, { w.g with stats := fun i => if i = id then st else w.g.stats i }⟩ (g.note id n) types := by
  refine ⟨⟨h.types.length, h.types.type⟩, h.maps, ?_, fun i jo hi => ?_⟩
  · show w.g.nextStat = (g.journals.modify id _).length
    rw [List.length_modify, h.count]
  · have hi : (g.journals.modify id _)[i]? = some jo := hi
    rw [List.getElem?_modify] at hi
    show Journaled (if i = id then st else w.g.stats i) jo
    by_cases hid : i = id
    · subst hid
      rw [hj] at hi
      have hi : some (if i = i then n :: j else j) = some jo := hi
      injection hi with hi
      rw [if_pos rfl] at hi
      rw [if_pos rfl, ← hi]
      exact ht
    · rw [if_neg hid]
      cases hg : g.journals[i]? with
      | none => rw [hg] at hi; cases hi
      | some jo' =>
        rw [hg] at hi
        have hi : some (if id = i then n :: jo' else jo') = some jo := hi
        injection hi with hi
        rw [if_neg (fun e : id = i => hid e.symm)] at hi
        rw [← hi]
        exact h.journaled i jo' hg

theorem stat_heardAt {id : Nat} {o : SOp K} (h : Displays w g types) (hid : id < g.journals.length) :
    HeardAt O types now (.stat id o) w g := by
  obtain ⟨j, hj⟩ : ∃ j, g.journals[id]? = some j := ⟨_, List.getElem?_eq_getElem hid⟩
  have ht := h.journaled id j hj
  have hreply : g.reply now (.use (.stat id o)) = some ((g.instruct id j o).1, [], (g.instruct id j o).2) := by
    show g.journals[id]?.map _ = _
    rw [hj]; rfl
  have hok : ∀ st, Impl.statStep (w.g.stats id) o = .ok st → Impl.wstep O (.stat id o) w =
      .ok .unit ⟨w.caches, { w.g with stats := fun i => if i = id then st else w.g.stats i }⟩ := by
    intro st hst
    refine ret_ok (a := ()) ?_
    unfold Impl.stat
    rw [hst]
  have herr : ∀ e, Impl.statStep (w.g.stats id) o = .error e → Impl.wstep O (.stat id o) w = .throw e w := by
    intro e hst
    refine bind_throw ?_
    unfold Impl.stat
    rw [hst]
  cases o with
  | monitor k =>
    exact .returns hreply (hok _ rfl) rfl (List.append_nil _).symm (h.noted hj (ht.watch k)) (fun h => by cases h)
  | unmonitorAll =>
    exact .returns hreply (hok _ rfl) rfl (List.append_nil _).symm (h.noted hj ht.unwatchAll) (fun h => by cases h)
  | unmonitor k =>
    cases hr : j.record k with
    | none =>
      have hi : g.instruct id j (.unmonitor k) = (.unmonitored, g) := by unfold Museum.instruct; simp [hr]
      rw [hi] at hreply
      refine .throws hreply (herr .unmonitoredKey ?_) rfl (List.append_nil _).symm h (fun h => by cases h)
      show Statistics.unmonitor _ _ = _
      unfold Statistics.unmonitor
      rw [ht.record, hr]
    | some r =>
      have hi : g.instruct id j (.unmonitor k) = (.says .unit, g.note id (.unwatch k)) := by unfold Museum.instruct; simp [hr]
      rw [hi] at hreply
      refine .returns hreply (hok _ ?_) rfl (List.append_nil _).symm (h.noted hj (ht.unwatch k)) (fun h => by cases h)
      show Statistics.unmonitor _ _ = _
      unfold Statistics.unmonitor
      rw [ht.record, hr]
  | resetKey k =>
    cases hr : j.record k with
    | none =>
      have hi : g.instruct id j (.resetKey k) = (.unmonitored, g) := by unfold Museum.instruct; simp [hr]
      rw [hi] at hreply
      refine .throws hreply (herr .unmonitoredKey ?_) rfl (List.append_nil _).symm h (fun h => by cases h)
      show Statistics.resetKey _ _ = _
      unfold Statistics.resetKey
      rw [ht.record, hr]
    | some r =>
      have hi : g.instruct id j (.resetKey k) = (.says .unit, g.note id (.reset k)) := by unfold Museum.instruct; simp [hr]
      rw [hi] at hreply
      refine .returns hreply (hok _ ?_) rfl (List.append_nil _).symm (h.noted hj (ht.reset k)) (fun h => by cases h)
      show Statistics.resetKey _ _ = _
      unfold Statistics.resetKey
      rw [ht.record, hr]

theorem newStats_heardAt {ks : List K} (h : Displays w g types) : HeardAt O types now (.newStats ks) w g := by
  refine .returns (r := .nat w.g.nextStat) (w' := _) rfl rfl ?_ (List.append_nil _).symm
    (h.opened ⟨h.types.length, h.types.type⟩ h.maps rfl (fun _ => rfl)) (fun h => by cases h)
  show News.object (some w.g.nextStat) = .object (some g.journals.length)
  rw [h.count]

/-! ### Programs -/

theorem step_heardAt (hC : Calm O) (hw : Reach O (fun op => op.copies = false) w) (h : Displays w g types)
    (hop : (Deed.use wop).typed types = some types') (hp : PacedStep O now wop w)
    (hid : ∀ id, (Deed.use wop).mentions = some id → id < g.journals.length) : HeardAt O types' now wop w g := by
  cases wop
  case op i o =>
    obtain ⟨t, h1, h2⟩ := Option.bind_eq_some_iff.1
      (show (types[i]?.bind fun t => if t.offers o || o.observes then some types else none) = some types' from hop)
    split at h2
    · next h3 =>
      cases h2
      cases hk : t.offers o with
      | true => exact offered_heard hC hw h h1 hk hp
      | false =>
        rw [hk, Bool.false_or] at h3
        exact observes_heardAt h h3
    · cases h2
  case newStats => cases hop; exact newStats_heardAt h
  case stat id o => cases hop; exact stat_heardAt h (hid id rfl)
  all_goals exact world_heardAt hC hw h hop hp (fun i o e => by cases e)

theorem admissible_no_copy (h : (Deed.use wop).typed types = some types') : wop.copies = false := by
  cases wop <;> first | rfl | cases h

/-- How many statistics objects there are after a step. -/
theorem reply_journalsAt {d : Deed K V} {a : News K V} {evs : List (Event K V)} (h : g.reply now d = some (a, evs, g')) :
    g'.journals.length = g.journals.length + d.makes := by
  have hn : ∀ (x : Museum K V) (id : Nat) (n : Note K), (x.note id n).journals.length = x.journals.length :=
    fun x id n => List.length_modify ..
  have ho : ∀ (x : Museum K V) (ks : List K), (x.open ks).journals.length = x.journals.length + 1 :=
    fun x ks => by show (x.journals ++ _).length = _; rw [List.length_append]; rfl
  have hinj : ∀ {x : News K V × List (Event K V) × Museum K V}, some x = some (a, evs, g') → g' = x.2.2 := by
    intro x hx
    injection hx with hx
    rw [hx]
  cases d with
  | ask id q =>
    have h : g.journals[id]?.map _ = _ := h
    cases hj : g.journals[id]? with
    | none => rw [hj] at h; cases h
    | some j =>
      rw [hj] at h
      rw [hinj h]
      rfl
  | use op =>
    cases op with
    | create kind ctor => rw [hinj h]; rfl
    | newStats ks => rw [hinj h]; exact ho _ _
    | copyCtor | copyAssign => cases h
    | stat id o =>
      have h : g.journals[id]?.map _ = _ := h
      cases hj : g.journals[id]? with
      | none => rw [hj] at h; cases h
      | some j =>
        rw [hj] at h
        rw [hinj h]
        show (g.instruct id j o).2.journals.length = _
        cases o <;> unfold Museum.instruct <;> dsimp only <;> first | exact hn _ _ _ | (split <;> first | exact hn _ _ _ | rfl)
    | destroy i =>
      have h : (g.map i).map _ = _ := h
      cases hm : g.map i with
      | none => rw [hm] at h; cases h
      | some m => rw [hm] at h; rw [hinj h]; rfl
    | moveCtor i =>
      have h : (g.map i).map _ = _ := h
      cases hm : g.map i with
      | none => rw [hm] at h; cases h
      | some m => rw [hm] at h; rw [hinj h]; rfl
    | swap i j =>
      have h : ((g.map i).bind fun a => (g.map j).map fun b => _) = _ := h
      cases hm : g.map i with
      | none => rw [hm] at h; cases h
      | some m =>
        cases hm' : g.map j with
        | none => rw [hm, hm'] at h; cases h
        | some m' => rw [hm, hm'] at h; rw [hinj h]; rfl
    | swapBase i j =>
      have h : ((g.map i).bind fun a => (g.map j).map fun b => _) = _ := h
      cases hm : g.map i with
      | none => rw [hm] at h; cases h
      | some m =>
        cases hm' : g.map j with
        | none => rw [hm, hm'] at h; cases h
        | some m' => rw [hm, hm'] at h; rw [hinj h]; rfl
    | moveAssign i j =>
      have h : ((g.map i).bind fun a => (g.map j).map fun b => _) = _ := h
      cases hm : g.map i with
      | none => rw [hm] at h; cases h
      | some m =>
        cases hm' : g.map j with
        | none => rw [hm, hm'] at h; cases h
        | some m' => rw [hm, hm'] at h; rw [hinj h]; rfl
    | eq i j =>
      have h : ((g.map i).bind fun a => (g.map j).map fun b => _) = _ := h
      cases hm : g.map i with
      | none => rw [hm] at h; cases h
      | some m =>
        cases hm' : g.map j with
        | none => rw [hm, hm'] at h; cases h
        | some m' => rw [hm, hm'] at h; rw [hinj h]; rfl
    | op i o =>
      have h : (g.map i).bind _ = _ := h
      cases hm : g.map i with
      | none => rw [hm] at h; cases h
      | some m =>
        rw [hm, Option.bind_some] at h
        cases hobs : o.observes with
        | true =>
          rw [if_pos hobs] at h
          rw [hinj h]
          cases o <;> first | (cases hobs; done) | rfl | exact ho _ _
        | false =>
          rw [if_neg (by rw [hobs]; exact fun h => by cases h)] at h
          split at h
          · cases h
          · rw [hinj h]
            have hmk : (Deed.use (.op i o) : Deed K V).makes = 0 := by cases o <;> first | rfl | cases hobs
            rw [hmk]
            unfold Museum.call
            dsimp only
            split
            · rfl
            · split
              · rfl
              · dsimp only
                split
                · exact hn _ _ _
                · rfl

theorem Museum.hears_cons {d : Deed K V} {ds : List (Deed K V × Int)} {a : News K V} {evs : List (Event K V)}
    (h : g.reply now d = some (a, evs, g')) (ha : a ≠ .says .terminated) :
    g.hears ((d, now) :: ds) = (a, evs) :: g'.hears ds := by
  rw [Museum.hears, h]
  split
  · next h => cases h
  · next h =>
    injection h with h
    injection h with h
    exact absurd h ha
  · next h =>
    injection h with h
    injection h with h1 h
    injection h with h2 h3
    rw [h1, h2, h3]

theorem hearsAt_eq (hC : Calm O) (ds : List (Deed K V × Int)) (hw : Reach O (fun op => op.copies = false) w)
    (h : Displays w g types) (hds : admissible types g.journals.length (ds.map Prod.fst) = true) (hp : w.PacedDeeds O ds) :
    w.hears O (ds.map Prod.fst) = g.hears ds := by
  induction ds generalizing w g types with
  | nil => rw [List.map_nil, World.hears, Museum.hears]
  | cons x ds ih =>
    obtain ⟨d, now⟩ := x
    rw [List.map_cons] at hds ⊢
    rw [admissible, Bool.and_eq_true] at hds
    obtain ⟨h2, h3⟩ := hds
    have hid : ∀ id, d.mentions = some id → id < g.journals.length := by
      intro id hd
      rw [show (d, now).fst = d from rfl, hd] at h2
      simpa using h2
    cases hty : d.typed types with
    | none => rw [show (d, now).fst = d from rfl, hty] at h3; cases h3
    | some types' =>
    rw [show (d, now).fst = d from rfl, hty] at h3
    have h3 : admissible types' (g.journals.length + d.makes) (ds.map Prod.fst) = true := h3
    cases d with
    | ask id q =>
      cases hty
      obtain ⟨j, hj⟩ : ∃ j, g.journals[id]? = some j := ⟨_, List.getElem?_eq_getElem (hid id rfl)⟩
      have ht : ((w.g.stats id).tell q : News K V) = j.answer q := (h.journaled id j hj).tell (hw.states id) q
      have hreply : g.reply now (.ask id q) = some (j.answer q, [], g) := by
        show g.journals[id]?.map _ = _
        rw [hj]; rfl
      have hne : (j.answer q : News K V) ≠ .says .terminated := by
        cases q <;> first | (exact fun h => by cases h) | skip
        intro he
        have he : (match j.record _ with | some r => News.record r | none => .unmonitored) = _ := he
        split at he <;> cases he
      rw [World.hears, Museum.hears_cons hreply hne, ht, ih hw h h3 hp]
    | use op =>
      unfold World.PacedDeeds at hp
      have hp1 : PacedStep O now op w := by
        unfold PacedStep
        cases hs : Impl.wstep O op w <;> rw [hs] at hp <;> first | exact hp.1 | trivial
      have hstep := step_heardAt hC hw h hty hp1 hid
      unfold HeardAt at hstep
      rw [World.hears]
      cases hrep : g.reply now (.use op) with
      | none =>
        rw [hrep] at hstep
        have hstep : Impl.wstep O op w = .ub := hstep
        rw [hstep, Museum.hears, hrep]
        show [(op.news (.ub : Out (World K V) (Res K V)), ([] : List (Event K V)))] = [(News.undefined, [])]
        rw [news_ub]
      | some x =>
        obtain ⟨a, evs, g'⟩ := x
        rw [hrep] at hstep
        have hj := reply_journalsAt hrep
        cases hs : Impl.wstep O op w with
        | ok r w' =>
          rw [hs] at hstep hp
          obtain ⟨h4, h5, h6, h7⟩ := hstep
          rw [Museum.hears_cons hrep h7, ← ih (.step op hw (admissible_no_copy hty) hs) h6 (by rw [hj]; exact h3) hp.2]
          simp only [h4, h5, List.drop_left]
        | throw e w' =>
          rw [hs] at hstep hp
          obtain ⟨h4, h5, h6, h7⟩ := hstep
          rw [Museum.hears_cons hrep h7, ← ih (.throw op hw (admissible_no_copy hty) hs) h6 (by rw [hj]; exact h3) hp.2]
          simp only [h4, h5, List.drop_left]
        | terminate =>
          rw [hs] at hstep
          have hstep : a = .says .terminated := hstep
          subst hstep
          rw [Museum.hears, hrep]
          show [(op.news (.terminate : Out (World K V) (Res K V)), ([] : List (Event K V)))] = [(News.says .terminated, [])]
          rw [news_terminate]
        | ub => rw [hs] at hstep; exact hstep.elim
        | diverge => rw [hs] at hstep; exact hstep.elim

theorem displays_init : Displays (Impl.initWorld : World K V) ⟨[], []⟩ [] :=
  ⟨⟨rfl, fun i c h => (by cases i <;> cases h)⟩, rfl, rfl, fun i j h => (by cases i <;> cases h)⟩

end LRU
