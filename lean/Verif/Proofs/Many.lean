import Verif.Spec.Many
import Verif.Proofs.Machine
import Verif.Props.World
import Verif.Props.Copies
/-!
# Several caches: lemmas for `Props.Many`
-/

set_option linter.unusedSectionVars false
set_option autoImplicit false

namespace LRU

variable {K V : Type} [KeyEqual K] [DecidableEq K] [DecidableEq V] {O : Oracle K V} {s s' : St (Cache K V) K V}
  {op : Op K V} {w w' : World K V} {wop : WOp K V} {i j : Nat} {c : Cache K V}

/-! ### Calls on a cache without capacity -/

theorem Prog.reach {own : Nat → Bool} (h : Prog O w own) : Reach O (fun _ => True) w := by
  induction h with
  | init => exact .init
  | step op _ hs ih => exact .step op ih trivial hs
  | throw op _ hs ih => exact .throw op ih trivial hs

theorem unset_elements (h : Reachable O s) (hc : s.c.capacity = none) : elements s.c = [] := by
  obtain ⟨w, own, i, c, hw, _, hi, rfl⟩ := h
  have : c.map = [] := C01_unset_is_empty hw.reach hi hc
  show c.order.filterMap (fun l => c.map.find? (fun n => n.addr == l.ref)) = []
  rw [this]
  simp

theorem call_faithful_unset (hC : Calm O) (h : Reachable O s) (hb : s.c.kind = .basic) (hc : s.c.capacity = none)
    (hop : op.byKey = true) (hn : op.needsCapacity = false) : AnswersLike O op s := by
  have hO := hC.noListFault
  have he := unset_elements h hc
  have refine' := fun {op r s'} (hd : Returns O op s r s') => call_returns_refines hO hC.noAssignFault h hd
  obtain ⟨t, hr, ht⟩ := h.rel hO
  have hl : s.c.map.length = 0 := by rw [hr.map_length, ← hr.count, count, he]; rfl
  have hsize : Impl.size s = .ok 0 s := by
    show Out.ok s.c.map.length s = _
    rw [hl]
  cases op <;> first | (cases hop; done) | (cases hn; done) | skip
  case contains k => exact access_faithful hC h hb (.inl rfl)
  case find k => exact access_faithful hC h hb (.inr (.inl rfl))
  case lookup k => exact access_faithful hC h hb (.inr (.inr rfl))
  case insertRange l =>
    cases l with
    | nil => exact .returns (r := .nat 0) rfl rfl rfl
    | cons => cases hn
  case insertRangeMove l =>
    cases l with
    | nil => exact .returns (r := .nat 0) rfl rfl rfl
    | cons => cases hn
  case erase k =>
    obtain ⟨b, s', hd, h1, _⟩ := C09_erase_key hO h k
    refine .returns hd ?_ (refine' hd)
    show some (Ans.bool b) = some (Ans.bool ((asLru s.c).item k).isSome)
    rw [asLru_item]
    congr 2
    rw [Bool.eq_iff_iff, h1]
    unfold Stored entryFor
    rw [Option.isSome_map, List.find?_isSome]
  case clear =>
    have hd : Returns O .clear s .unit ⟨⟨[], [], none, s.c.capacity, s.c.kind, s.c.obs⟩, s.g⟩ := rfl
    exact .returns hd rfl (refine' hd)
  case shrink m =>
    obtain ⟨s', hd, _⟩ := C11_shrink_keeps_most_recent hO h m
    exact .returns hd rfl (refine' hd)
  case setCapacity m =>
    obtain ⟨s', hd, _⟩ := C12_capacity_keeps_most_recent hO h m
    exact .returns hd rfl (refine' hd)
  case size => exact .returns (bind_ok hsize) (by simp [Res.ans, Lru.reply, asLru, entries, he]) rfl
  case isEmpty =>
    refine .returns (s' := s) (r := .bool true) (bind_ok (a := true) ?_) (by simp [Res.ans, Lru.reply, asLru, entries, he]) rfl
    unfold Impl.isEmpty
    rw [bind_ok hsize]
    rfl
  case front =>
    unfold AnswersLike
    rw [(C14_empty_cache_terminates hO h he).1]
    exact ⟨by simp [Out.ans, Lru.reply, asLru, entries, he], trivial⟩
  case back =>
    unfold AnswersLike
    rw [(C14_empty_cache_terminates hO h he).2]
    exact ⟨by simp [Out.ans, Lru.reply, asLru, entries, he], trivial⟩

theorem needsCapacity_ub (hO : NoListFault O) (h : Reachable O s) (hc : s.c.capacity = none)
    (hn : op.needsCapacity = true) : Impl.step O op s = .ub := by
  refine (C33_preconditions_are_exact hO h).1.2 ?_
  cases op <;> first | cases hn | skip
  all_goals unfold Safe
  case insertRange l => cases l <;> first | (cases hn; done) | simp [hc]
  case insertRangeMove l => cases l <;> first | (cases hn; done) | simp [hc]
  all_goals simp [hc]

/-! ### Steps -/

theorem shelf_map (w : World K V) (i : Nat) :
    w.shelf.lru i = match w.caches[i]? with | some (some c) => some (asLru c) | _ => none := by
  unfold Shelf.lru World.shelf
  rw [List.getElem?_map]
  cases w.caches[i]? with
  | none => rfl
  | some x => cases x <;> rfl

theorem shelf_some (h : w.caches[i]? = some (some c)) : w.shelf.lru i = some (asLru c) := by
  rw [shelf_map, h]

theorem shelf_none (h : ∀ c, w.caches[i]? ≠ some (some c)) : w.shelf.lru i = none := by
  rw [shelf_map]
  split
  · next c hc => exact absurd hc (h c)
  · rfl

theorem getCache_some (h : w.caches[i]? = some (some c)) : Impl.getCache i w = .ok c w := by
  unfold Impl.getCache
  rw [h]

theorem getCache_none (h : ∀ c : Cache K V, w.caches[i]? ≠ some (some c)) : Impl.getCache i w = .ub := by
  unfold Impl.getCache
  split
  · next c hc => exact absurd hc (h c)
  · rfl

theorem exists_or_not (w : World K V) (i : Nat) :
    (∃ c, w.caches[i]? = some (some c)) ∨ ∀ c, w.caches[i]? ≠ some (some c) := by
  by_cases h : ∃ c, w.caches[i]? = some (some c)
  · exact .inl h
  · exact .inr fun c hc => h ⟨c, hc⟩

/-- All caches are plain. -/
def World.Plain (w : World K V) : Prop := ∀ (i : Nat) (c : Cache K V), w.caches[i]? = some (some c) → c.kind = .basic

/-- The step tells what the textbook says, and leaves the textbook's maps behind. -/
def StepLike (O : Oracle K V) (wop : WOp K V) (w : World K V) : Prop :=
  match w.shelf.reply wop with
  | none => Impl.wstep O wop w = .ub
  | some (a, sh) =>
    wop.told (Impl.wstep O wop w) = .says a ∧
    match Impl.wstep O wop w with
    | .ok _ w' | .throw _ w' => w'.shelf = sh ∧ w'.Plain ∧ a ≠ .terminated
    | .terminate => a = .terminated
    | .ub | .diverge => False

theorem shelf_set (w : World K V) (i : Nat) (x : Option (Cache K V)) (g : Shared K V) :
    (⟨w.caches.set i x, g⟩ : World K V).shelf = w.shelf.set i (x.map asLru) := by
  unfold World.shelf
  rw [List.map_set]

theorem Plain_set (h : w.Plain) {x : Option (Cache K V)} (hx : ∀ c, x = some c → c.kind = .basic) (g : Shared K V) :
    (⟨w.caches.set i x, g⟩ : World K V).Plain := by
  intro j c hj
  by_cases hij : i = j
  · subst hij
    have hlt : i < w.caches.length := by
      have := (List.getElem?_eq_some_iff.1 hj).1
      simpa using this
    rw [show (⟨w.caches.set i x, g⟩ : World K V).caches[i]? = some x by simp [hlt]] at hj
    injection hj with hj
    exact hx c hj
  · rw [show (⟨w.caches.set i x, g⟩ : World K V).caches[j]? = w.caches[j]? by simp [hij]] at hj
    exact h j c hj

theorem Plain_push (h : w.Plain) {c : Cache K V} (hc : c.kind = .basic) (g : Shared K V) :
    (⟨w.caches ++ [some c], g⟩ : World K V).Plain := by
  intro j d hj
  by_cases hl : j < w.caches.length
  · rw [show (⟨w.caches ++ [some c], g⟩ : World K V).caches[j]? = w.caches[j]? from List.getElem?_append_left hl] at hj
    exact h j d hj
  · have hj : (w.caches ++ [some c])[j]? = some (some d) := hj
    rw [List.getElem?_append_right (by omega)] at hj
    cases hm : j - w.caches.length with
    | zero =>
      rw [hm] at hj
      injection hj with hj
      injection hj with hj
      rw [← hj]
      exact hc
    | succ n =>
      rw [hm] at hj
      cases hj

theorem told_plain {r : Res K V} {a : Ans K V} (hop : ∀ i o, wop ≠ .op i o)
    (h : (r = .unit ∧ a = .unit) ∨ ∃ b, r = .bool b ∧ a = .bool b) : wop.told (.ok r w') = .says a := by
  unfold WOp.told
  cases wop <;> first | (exact absurd rfl (hop _ _)) | skip
  all_goals
    rcases h with ⟨rfl, rfl⟩ | ⟨b, rfl, rfl⟩ <;> rfl

theorem StepLike.done {r : Res K V} {a : Ans K V} {sh : Shelf K V} (hop : ∀ i o, wop ≠ .op i o)
    (h1 : w.shelf.reply wop = some (a, sh)) (h2 : Impl.wstep O wop w = .ok r w')
    (h3 : (r = .unit ∧ a = .unit) ∨ ∃ b, r = .bool b ∧ a = .bool b) (h4 : w'.shelf = sh) (h5 : w'.Plain) : StepLike O wop w := by
  unfold StepLike
  rw [h1, h2]
  refine ⟨told_plain hop h3, h4, h5, ?_⟩
  rcases h3 with ⟨_, rfl⟩ | ⟨_, _, rfl⟩ <;> exact fun h => by cases h

theorem StepLike.undefined (h1 : w.shelf.reply wop = none) (h2 : Impl.wstep O wop w = .ub) : StepLike O wop w := by
  unfold StepLike
  rw [h1]
  exact h2

/-- A step on two caches, one of which does not exist. -/
theorem two_missing (h : (∀ c, w.caches[i]? ≠ some (some c)) ∨ ∀ c, w.caches[j]? ≠ some (some c)) :
    Impl.wstep O (.swap i j) w = .ub ∧ Impl.wstep O (.moveAssign i j) w = .ub ∧ Impl.wstep O (.eq i j) w = .ub ∧
      Impl.wstep O (.swapBase i j) w = .ub := by
  have key : ∀ {α : Type} (f : Cache K V → Cache K V → M (World K V) α),
      (Impl.getCache i >>= fun a => Impl.getCache j >>= fun b => f a b) w = .ub := by
    intro α f
    rcases exists_or_not w i with ⟨a, ha⟩ | hn
    · rcases h with h | h
      · exact absurd ha (h a)
      · rw [bind_ok (getCache_some ha), bind_ub (getCache_none h)]
    · exact bind_ub (getCache_none hn)
  exact ⟨bind_ub (key _), bind_ub (key _), bind_ub (key _), bind_ub (key _)⟩

theorem two_none {α : Type} (f : Lru K V → Lru K V → α) (h : (∀ c, w.caches[i]? ≠ some (some c)) ∨ ∀ c, w.caches[j]? ≠ some (some c)) :
    ((w.shelf.lru i).bind fun a => (w.shelf.lru j).map fun b => f a b) = none := by
  rcases exists_or_not w i with ⟨a, ha⟩ | hn
  · rcases h with h | h
    · exact absurd ha (h a)
    · rw [shelf_some ha, shelf_none h]; rfl
  · rw [shelf_none hn]; rfl

theorem two_exist (w : World K V) (i j : Nat) :
    (∃ a b, w.caches[i]? = some (some a) ∧ w.caches[j]? = some (some b)) ∨
      ((∀ c, w.caches[i]? ≠ some (some c)) ∨ ∀ c, w.caches[j]? ≠ some (some c)) := by
  rcases exists_or_not w i with ⟨a, ha⟩ | h
  · rcases exists_or_not w j with ⟨b, hb⟩ | h
    · exact .inl ⟨a, b, ha, hb⟩
    · exact .inr (.inr h)
  · exact .inr (.inl h)

theorem set_get_self {α : Type} {l : List α} {i : Nat} {x : α} (h : l[i]? = some x) : l.set i x = l := by
  apply List.ext_getElem?
  intro j
  by_cases hij : i = j
  · subst hij
    rw [List.getElem?_set_self (List.getElem?_eq_some_iff.1 h).1, h]
  · rw [List.getElem?_set_ne hij]

theorem shelf_getElem (h : w.caches[i]? = some (some c)) : w.shelf[i]? = some (some (asLru c)) := by
  unfold World.shelf
  rw [List.getElem?_map, h]
  rfl

theorem exchange_like {a b : Cache K V} (hp : w.Plain) (ha : w.caches[i]? = some (some a))
    (hb : w.caches[j]? = some (some b))
    (hwop : wop = .swap i j ∨ wop = .moveAssign i j ∨ wop = .swapBase i j) : StepLike O wop w := by
  have hka := hp i a ha
  have hkb := hp j b hb
  have ht : Impl.sameType a.kind b.kind = true := by rw [hka, hkb]; rfl
  have hreply : w.shelf.reply wop = some (.unit, (w.shelf.set i (some (asLru b))).set j (some (asLru a))) := by
    have : ((w.shelf.lru i).bind fun a => (w.shelf.lru j).map fun b =>
        ((.unit, (w.shelf.set i (some b)).set j (some a)) : Ans K V × Shelf K V)) =
          some (.unit, (w.shelf.set i (some (asLru b))).set j (some (asLru a))) := by
      rw [shelf_some ha, shelf_some hb]; rfl
    rcases hwop with rfl | rfl | rfl <;> exact this
  have hop : ∀ i o, wop ≠ .op i o := by rcases hwop with rfl | rfl | rfl <;> intro i o h <;> cases h
  by_cases hij : i = j
  · subst hij
    rw [ha] at hb
    injection hb with hb
    injection hb with hb
    subst hb
    have hs : Impl.wstep O wop w = .ok .unit w := by
      rcases hwop with rfl | rfl | rfl
      · exact C25_self_swap ha
      · show Impl.ret (Impl.moveAssign i i) _ w = _
        unfold Impl.moveAssign
        refine ret_ok (a := ()) ?_
        rw [bind_ok (getCache_some ha), bind_ok (getCache_some ha), if_pos (by simp)]
        rfl
      · exact baseSwap_self ha
    refine .done hop hreply hs (.inl ⟨rfl, rfl⟩) ?_ hp
    rw [List.set_set, set_get_self (shelf_getElem ha)]
  · have hfin : ∀ b' a' : Cache K V, asLru b' = asLru b → asLru a' = asLru a → b'.kind = .basic → a'.kind = .basic →
        Impl.wstep O wop w = .ok .unit ⟨(w.caches.set i (some b')).set j (some a'), w.g⟩ → StepLike O wop w := by
      intro b' a' h1 h2 h3 h4 hs
      refine .done hop hreply hs (.inl ⟨rfl, rfl⟩) ?_ ?_
      · rw [← h1, ← h2]
        unfold World.shelf
        rw [List.map_set, List.map_set]
        rfl
      · exact Plain_set (w := ⟨w.caches.set i (some b'), w.g⟩)
          (Plain_set hp (fun c hc => by injection hc with hc; rw [← hc]; exact h3) _)
          (fun c hc => by injection hc with hc; rw [← hc]; exact h4) _
    rcases hwop with rfl | rfl | rfl
    · exact hfin { b with obs := a.obs } { a with obs := b.obs } rfl rfl hkb hka (swap_eq ha hb hij ht)
    · exact hfin { b with obs := a.obs } { a with obs := b.obs, kind := b.kind } rfl rfl hkb hkb
        (moveAssign_eq ha hb hij ht)
    · exact hfin { b with obs := a.obs, kind := a.kind } { a with obs := b.obs, kind := b.kind } rfl rfl hka hkb
        (baseSwap_eq ha hb hij (sameType_base ht))

theorem Reach.reachable (hw : Reach O (fun op => op.copies = false) w) (hc : w.caches[i]? = some (some c)) :
    Reachable O (viewOf w i c) := ⟨w, _, i, c, hw.prog, rfl, hc, rfl⟩

theorem onCache_eq (hc : w.caches[i]? = some (some c)) (m : Impl.CM K V (Res K V)) :
    Impl.onCache i m w = match m (viewOf w i c) with
      | .ok a s => .ok a ⟨w.caches.set i (some s.c), s.g⟩
      | .throw e s => .throw e ⟨w.caches.set i (some s.c), s.g⟩
      | .ub => .ub
      | .terminate => .terminate
      | .diverge => .diverge := by
  unfold Impl.onCache viewOf
  rw [hc]
  simp only
  cases m _ <;> rfl

theorem call_like {o : Op K V} (hC : Calm O) (hw : Reach O (fun op => op.copies = false) w) (hp : w.Plain)
    (hop : o.byKey = true) : StepLike O (.op i o) w := by
  have hO := hC.noListFault
  rcases exists_or_not w i with ⟨c, hc⟩ | hn
  · have hr := hw.reachable hc
    have hk := hp i c hc
    have hlt : i < w.caches.length := (List.getElem?_eq_some_iff.1 hc).1
    by_cases hbad : c.capacity = none ∧ o.needsCapacity = true
    · refine .undefined ?_ ?_
      · show (w.shelf.lru i).bind _ = none
        rw [shelf_some hc]
        exact if_pos hbad
      · show Impl.onCache i _ w = .ub
        rw [onCache_eq hc, needsCapacity_ub hO hr hbad.1 hbad.2]
    · have hreply : w.shelf.reply (.op i o) =
          some (((asLru c).reply o).1, w.shelf.set i (some ((asLru c).reply o).2)) := by
        show (w.shelf.lru i).bind _ = _
        rw [shelf_some hc]
        exact if_neg hbad
      have hlike : AnswersLike O o (viewOf w i c) := by
        cases hcap : c.capacity with
        | none =>
          refine call_faithful_unset hC hr hk hcap hop ?_
          cases hn : o.needsCapacity with
          | false => rfl
          | true => exact absurd ⟨hcap, hn⟩ hbad
        | some n =>
          exact call_faithful hC hr hk (show c.capacity ≠ none by rw [hcap]; exact fun h => by cases h) hop
      obtain ⟨h1, h2⟩ := hlike
      have hstep : Impl.wstep O (.op i o) w = Impl.onCache i (Impl.step O o) w := rfl
      unfold StepLike
      rw [hreply, hstep, onCache_eq hc]
      cases hs : Impl.step O o (viewOf w i c) with
      | ok r s' =>
        rw [hs] at h1 h2
        have h1 : r.ans s'.c = some ((asLru c).reply o).1 := h1
        have h2 : asLru s'.c = ((asLru c).reply o).2 := h2
        refine ⟨?_, ?_, ?_, fun h => ?_⟩
        · simp only [WOp.told]
          rw [show (w.caches.set i (some s'.c))[i]? = some (some s'.c) by simp [hlt]]
          simp only [h1]
        · rw [shelf_set, ← h2]; rfl
        · refine Plain_set hp (fun d hd => ?_) _
          injection hd with hd
          rw [← hd]
          exact (performs_kind (res := .ok r) hs).trans hk
        · rw [h] at h1
          exact Res.ans_ne_terminated _ _ h1
      | throw e s' =>
        rw [hs] at h1 h2
        cases e <;> first | (cases h1; done) | skip
        have h2 : asLru s'.c = ((asLru c).reply o).2 := h2
        have h1 : some Ans.notFound = some ((asLru c).reply o).1 := h1
        injection h1 with h1
        refine ⟨?_, ?_, ?_, fun h => ?_⟩
        · rw [← h1]; rfl
        · rw [shelf_set, ← h2]; rfl
        · refine Plain_set hp (fun d hd => ?_) _
          injection hd with hd
          rw [← hd]
          exact (performs_kind (res := .error _) hs).trans hk
        · rw [h] at h1; cases h1
      | terminate =>
        rw [hs] at h1
        have h1 : some Ans.terminated = some ((asLru c).reply o).1 := h1
        injection h1 with h1
        exact ⟨by rw [← h1]; rfl, h1.symm⟩
      | ub => rw [hs] at h2; exact h2.elim
      | diverge => rw [hs] at h2; exact h2.elim
  · refine .undefined ?_ ?_
    · show (w.shelf.lru i).bind _ = none
      rw [shelf_none hn]; rfl
    · show Impl.onCache i _ w = .ub
      unfold Impl.onCache
      split
      · next c hc => exact absurd hc (hn c)
      · rfl

theorem compared_basic (l : List (MapNode K V)) (m : List (MapNode K V)) :
    l.map (compared .basic) = m.map (compared .basic) ↔ l.map MapNode.pair = m.map MapNode.pair := by
  have : (compared .basic : MapNode K V → _) = (fun p : K × V => (p.1, p.2, (none : Option Int))) ∘ MapNode.pair := rfl
  rw [this, ← List.map_map, ← List.map_map]
  refine ⟨fun h => ?_, fun h => by rw [h]⟩
  refine (List.map_inj_right ?_).1 h
  rintro ⟨a, b⟩ ⟨c, d⟩ h
  simp only [Prod.mk.injEq, and_true] at h
  rw [h.1, h.2]

theorem step_like (hC : Calm O) (hw : Reach O (fun op => op.copies = false) w) (hp : w.Plain) (hop : wop.plain = true) :
    StepLike O wop w := by
  have hO := hC.noListFault
  cases wop <;> first | (cases hop; done) | skip
  case create kind ctor =>
    cases kind with
    | timed => cases hop
    | basic =>
      obtain ⟨w', h1⟩ := C31_construction_returns hC hw .basic ctor
      obtain ⟨c, h2, h3, h4, h5, -⟩ := C31_constructors hO hw h1
      refine .done (by intro i o h; cases h) rfl h1 (.inl ⟨rfl, rfl⟩) ?_ ?_
      · rw [Lru.storeAll_run, show (List.map (fun p => Act.put p.1 p.2) ctor.pairs) = puts ctor.pairs from rfl, ← h5]
        unfold World.shelf
        rw [h2, List.map_append]
        rfl
      · rw [show w' = ⟨w.caches ++ [some c], w'.g⟩ by rw [← h2]]
        exact Plain_push hp h3 _
  case destroy i =>
    rcases exists_or_not w i with ⟨c, hc⟩ | hn
    · refine .done (w' := ⟨w.caches.set i none, w.g⟩) (by intro i o h; cases h) ?_ ?_ (.inl ⟨rfl, rfl⟩) rfl ?_
      · show (w.shelf.lru i).map _ = _
        rw [shelf_some hc, Option.map_some, shelf_set]
        rfl
      · show Impl.ret _ _ w = _
        refine ret_ok (a := ()) ?_
        rw [bind_ok (getCache_some hc)]
        rfl
      · exact Plain_set hp (fun c h => by cases h) _
    · refine .undefined ?_ ?_
      · show (w.shelf.lru i).map _ = none
        rw [shelf_none hn]; rfl
      · exact bind_ub (bind_ub (getCache_none hn))
  case op i o => exact call_like hC hw hp hop
  case swap i j =>
    rcases two_exist w i j with ⟨a, b, ha, hb⟩ | h
    · exact exchange_like hp ha hb (.inl rfl)
    · exact .undefined (two_none _ h) (two_missing h).1
  case swapBase i j =>
    rcases two_exist w i j with ⟨a, b, ha, hb⟩ | h
    · exact exchange_like hp ha hb (.inr (.inr rfl))
    · exact .undefined (two_none _ h) (two_missing h).2.2.2
  case moveCtor i =>
    rcases exists_or_not w i with ⟨c, hc⟩ | hn
    · refine .done (by intro i o h; cases h) ?_ (moveCtor_eq hc) (.inl ⟨rfl, rfl⟩) rfl ?_
      · show (w.shelf.lru i).map _ = _
        rw [shelf_some hc, Option.map_some]
        unfold World.shelf
        rw [List.map_append, List.map_set]
        rfl
      · refine Plain_push (w := ⟨w.caches.set i _, w.g⟩) (c := { c with obs := {} })
          (Plain_set hp ?_ w.g) (hp i c hc) _
        intro d hd
        injection hd with hd
        rw [← hd]
        exact hp i c hc
    · refine .undefined ?_ ?_
      · show (w.shelf.lru i).map _ = none
        rw [shelf_none hn]; rfl
      · exact bind_ub (bind_ub (getCache_none hn))
  case moveAssign i j =>
    rcases two_exist w i j with ⟨a, b, ha, hb⟩ | h
    · exact exchange_like hp ha hb (.inr (.inl rfl))
    · exact .undefined (two_none _ h) (two_missing h).2.1
  case eq i j =>
    rcases two_exist w i j with ⟨a, b, ha, hb⟩ | h
    · obtain ⟨r, h1, h2⟩ := C29_equality hO hw ha hb
      rw [hp i a ha, compared_basic] at h2
      refine .done (by intro i o h; cases h) ?_ h1 (.inr ⟨r, rfl, rfl⟩) rfl hp
      show (w.shelf.lru i).bind _ = _
      rw [shelf_some ha, shelf_some hb]
      have : decide ((asLru a).items = (asLru b).items) = r := by
        rw [Bool.eq_iff_iff, decide_eq_true_iff, h2]
        rfl
      rw [← this]
      rfl
    · exact .undefined (two_none _ h) (two_missing h).2.2.1

theorem plain_copies (h : wop.plain = true) : wop.copies = false := by
  cases wop <;> first | rfl | cases h

theorem Shelf.tells_cons {sh sh' : Shelf K V} {a : Ans K V} {ops : List (WOp K V)} (h : sh.reply wop = some (a, sh'))
    (ha : a ≠ .terminated) : sh.tells (wop :: ops) = .says a :: sh'.tells ops := by
  rw [Shelf.tells, h]
  cases a <;> first | rfl | exact absurd rfl ha

theorem tells_eq (hC : Calm O) (ops : List (WOp K V)) (hw : Reach O (fun op => op.copies = false) w) (hp : w.Plain)
    (hops : ∀ op ∈ ops, op.plain = true) : w.tells O ops = w.shelf.tells ops := by
  induction ops generalizing w with
  | nil => rfl
  | cons op ops ih =>
    have hop := hops op (by simp)
    have hops' := fun op' (ho : op' ∈ ops) => hops op' (by simp [ho])
    have h := step_like hC hw hp hop
    unfold StepLike at h
    rw [World.tells]
    cases hrep : w.shelf.reply op with
    | none =>
      rw [hrep] at h
      have h : Impl.wstep O op w = .ub := h
      rw [h, Shelf.tells, hrep]
      rfl
    | some x =>
      obtain ⟨a, sh⟩ := x
      rw [hrep] at h
      obtain ⟨h1, h2⟩ := h
      rw [h1]
      cases hs : Impl.wstep O op w with
      | ok r w' =>
        rw [hs] at h2
        obtain ⟨h3, h4, h5⟩ := h2
        rw [Shelf.tells_cons hrep h5, ← h3, ← ih (.step op hw (plain_copies hop) hs) h4 hops']
      | throw e w' =>
        rw [hs] at h2
        obtain ⟨h3, h4, h5⟩ := h2
        rw [Shelf.tells_cons hrep h5, ← h3, ← ih (.throw op hw (plain_copies hop) hs) h4 hops']
      | terminate =>
        rw [hs] at h2
        have h2 : a = .terminated := h2
        subst h2
        rw [Shelf.tells, hrep]
      | ub => rw [hs] at h2; exact h2.elim
      | diverge => rw [hs] at h2; exact h2.elim

end LRU
