import Verif.Proofs.Journal
import Verif.Proofs.Many
/-!
# Several watched caches: lemmas for `Props.Watched`
-/

set_option linter.unusedSectionVars false
set_option autoImplicit false

namespace LRU

variable {K V : Type} [KeyEqual K] [DecidableEq K] [DecidableEq V] {O : Oracle K V} {w w' : World K V} {wop : WOp K V}
  {i j : Nat} {c : Cache K V} {g g' : Gallery K V}

/-- A cache as a watched map. -/
def asWatched (c : Cache K V) : Watched K V := ⟨asLru c, c.obs.stats, c.obs.hitCbs, c.obs.missCbs, c.obs.accCbs⟩

/-- The caches and statistics objects are those of the gallery. -/
structure Shows (w : World K V) (g : Gallery K V) : Prop where
  plain : w.Plain
  maps : w.caches.map (Option.map asWatched) = g.maps
  count : w.g.nextStat = g.journals.length
  journaled : ∀ i j, g.journals[i]? = some j → Journaled (w.g.stats i) j

theorem Shows.here (h : Shows w g) (hc : w.caches[i]? = some (some c)) : g.map i = some (asWatched c) := by
  unfold Gallery.map
  rw [← h.maps, List.getElem?_map, hc]
  rfl

theorem Shows.gone (h : Shows w g) (hn : ∀ c, w.caches[i]? ≠ some (some c)) : g.map i = none := by
  unfold Gallery.map
  rw [← h.maps, List.getElem?_map]
  cases hx : w.caches[i]? with
  | none => rfl
  | some x =>
    cases x with
    | none => rfl
    | some c => exact absurd hx (hn c)

theorem Shows.shelf (h : Shows w g) : w.shelf = g.maps.map (Option.map Watched.lru) := by
  rw [← h.maps, List.map_map]
  unfold World.shelf
  congr 1
  funext x
  cases x <;> rfl

/-- The step tells what the textbook says, its callbacks are told what the textbook says, and it leaves the textbook's maps and
journals behind. -/
def Heard (O : Oracle K V) (wop : WOp K V) (w : World K V) (g : Gallery K V) : Prop :=
  match g.reply (.use wop) with
  | none => Impl.wstep O wop w = .ub
  | some (a, evs, g') =>
    match Impl.wstep O wop w with
    | .ok r w' => wop.news (.ok r w') = a ∧ w'.g.log = w.g.log ++ evs ∧ Shows w' g' ∧ a ≠ .says .terminated
    | .throw e w' => wop.news (.throw e w') = a ∧ w'.g.log = w.g.log ++ evs ∧ Shows w' g' ∧ a ≠ .says .terminated
    | .terminate => a = .says .terminated
    | .ub | .diverge => False

theorem Heard.undefined (h1 : g.reply (.use wop) = none) (h2 : Impl.wstep O wop w = .ub) : Heard O wop w g := by
  unfold Heard
  rw [h1]
  exact h2

theorem Heard.returns {a : News K V} {evs : List (Event K V)} {r : Res K V} (h1 : g.reply (.use wop) = some (a, evs, g'))
    (h2 : Impl.wstep O wop w = .ok r w') (h3 : wop.news (.ok r w') = a) (h4 : w'.g.log = w.g.log ++ evs) (h5 : Shows w' g')
    (h6 : a ≠ .says .terminated) : Heard O wop w g := by
  unfold Heard
  rw [h1, h2]
  exact ⟨h3, h4, h5, h6⟩

theorem Heard.throws {a : News K V} {evs : List (Event K V)} {e : Err} (h1 : g.reply (.use wop) = some (a, evs, g'))
    (h2 : Impl.wstep O wop w = .throw e w') (h3 : wop.news (.throw e w') = a) (h4 : w'.g.log = w.g.log ++ evs)
    (h5 : Shows w' g') (h6 : a ≠ .says .terminated) : Heard O wop w g := by
  unfold Heard
  rw [h1, h2]
  exact ⟨h3, h4, h5, h6⟩

theorem news_of_told {a : Ans K V} {out : Out (World K V) (Res K V)} (hop : wop.plain = true) (h : wop.told out = .says a) :
    wop.news out = .says a := by
  have key : (match wop.told out with
    | .says a => News.says a
    | .undefined => .undefined
    | .other => .other) = .says a := by rw [h]
  unfold WOp.news
  split <;> first | (exfalso; cases hop; done) | (exfalso; cases h; done) | exact key

/-! ### Steps that use no callbacks and statistics objects -/

theorem Shows.kept (h : Shows w g) {cs : List (Option (Cache K V))} {ms : List (Option (Watched K V))} {gs : Shared K V}
    (hp : (⟨cs, gs⟩ : World K V).Plain) (hm : cs.map (Option.map asWatched) = ms) (hn : gs.nextStat = w.g.nextStat)
    (hs : gs.stats = w.g.stats) : Shows ⟨cs, gs⟩ ⟨ms, g.journals⟩ :=
  ⟨hp, hm, hn.trans h.count, fun i j hj => by rw [show (⟨cs, gs⟩ : World K V).g.stats = w.g.stats from hs]; exact h.journaled i j hj⟩

theorem Shows.set_self (h : Shows w g) (hc : w.caches[i]? = some (some c)) : g.maps.set i (some (asWatched c)) = g.maps := by
  refine set_get_self ?_
  rw [← h.maps, List.getElem?_map, hc]
  rfl

theorem maps_set {cs : List (Option (Cache K V))} {ms : List (Option (Watched K V))} (h : cs.map (Option.map asWatched) = ms)
    (i : Nat) (x : Option (Cache K V)) : (cs.set i x).map (Option.map asWatched) = ms.set i (x.map asWatched) := by
  rw [List.map_set, h]

theorem two_maps_none {α : Type} (h : Shows w g) (f : Watched K V → Watched K V → α)
    (hn : (∀ c, w.caches[i]? ≠ some (some c)) ∨ ∀ c, w.caches[j]? ≠ some (some c)) :
    ((g.map i).bind fun a => (g.map j).map fun b => f a b) = none := by
  rcases exists_or_not w i with ⟨a, ha⟩ | hi
  · rcases hn with hn | hn
    · exact absurd ha (hn a)
    · rw [h.here ha, h.gone hn]; rfl
  · rw [h.gone hi]; rfl

/-- Steps on several caches. -/
theorem world_heard (hC : Calm O) (hw : Reach O (fun op => op.copies = false) w) (h : Shows w g) (hop : wop.plain = true)
    (hno : ∀ i o, wop ≠ .op i o) : Heard O wop w g := by
  have hO := hC.noListFault
  have hlike := step_like hC hw h.plain hop
  unfold StepLike at hlike
  cases hrep : w.shelf.reply wop with
  | none =>
    rw [hrep] at hlike
    have hub : Impl.wstep O wop w = .ub := hlike
    refine .undefined ?_ hub
    cases wop <;> first | (exact absurd rfl (hno _ _)) | (cases hop; done) | skip
    case create kind ctor => cases kind <;> cases hrep
    case destroy i =>
      rcases exists_or_not w i with ⟨c, hc⟩ | hn
      · have hrep : (w.shelf.lru i).map _ = none := hrep
        rw [shelf_some hc] at hrep
        cases hrep
      · show (g.map i).map _ = none
        rw [h.gone hn]; rfl
    case swap i j =>
      rcases two_exist w i j with ⟨a, b, ha, hb⟩ | hn
      · have hrep : ((w.shelf.lru i).bind _) = none := hrep
        rw [shelf_some ha, shelf_some hb] at hrep
        cases hrep
      · exact two_maps_none h _ hn
    case swapBase i j =>
      rcases two_exist w i j with ⟨a, b, ha, hb⟩ | hn
      · have hrep : ((w.shelf.lru i).bind _) = none := hrep
        rw [shelf_some ha, shelf_some hb] at hrep
        cases hrep
      · exact two_maps_none h _ hn
    case moveCtor i =>
      rcases exists_or_not w i with ⟨c, hc⟩ | hn
      · have hrep : (w.shelf.lru i).map _ = none := hrep
        rw [shelf_some hc] at hrep
        cases hrep
      · show (g.map i).map _ = none
        rw [h.gone hn]; rfl
    case moveAssign i j =>
      rcases two_exist w i j with ⟨a, b, ha, hb⟩ | hn
      · have hrep : ((w.shelf.lru i).bind _) = none := hrep
        rw [shelf_some ha, shelf_some hb] at hrep
        cases hrep
      · exact two_maps_none h _ hn
    case eq i j =>
      rcases two_exist w i j with ⟨a, b, ha, hb⟩ | hn
      · have hrep : ((w.shelf.lru i).bind _) = none := hrep
        rw [shelf_some ha, shelf_some hb] at hrep
        cases hrep
      · exact two_maps_none h _ hn
  | some x =>
    obtain ⟨a, sh⟩ := x
    rw [hrep] at hlike
    obtain ⟨h1, h2⟩ := hlike
    cases hs : Impl.wstep O wop w with
    | ub => rw [hs] at h2; exact h2.elim
    | diverge => rw [hs] at h2; exact h2.elim
    | terminate =>
      rw [hs] at h2
      have h2 : a = .terminated := h2
      subst h2
      exfalso
      cases wop <;> first | (exact absurd rfl (hno _ _)) | (cases hop; done) | skip
      case create kind ctor => cases kind <;> cases hrep
      case destroy i =>
        have hrep : (w.shelf.lru i).map _ = some _ := hrep
        cases hl : w.shelf.lru i <;> rw [hl] at hrep <;> cases hrep
      case swap i j =>
        have hrep : ((w.shelf.lru i).bind fun a => (w.shelf.lru j).map _) = some _ := hrep
        cases hl : w.shelf.lru i <;> cases hl' : w.shelf.lru j <;> rw [hl] at hrep <;>
          first | (cases hrep; done) | (simp only [Option.bind_some, hl'] at hrep; cases hrep)
      case swapBase i j =>
        have hrep : ((w.shelf.lru i).bind fun a => (w.shelf.lru j).map _) = some _ := hrep
        cases hl : w.shelf.lru i <;> cases hl' : w.shelf.lru j <;> rw [hl] at hrep <;>
          first | (cases hrep; done) | (simp only [Option.bind_some, hl'] at hrep; cases hrep)
      case moveCtor i =>
        have hrep : (w.shelf.lru i).map _ = some _ := hrep
        cases hl : w.shelf.lru i <;> rw [hl] at hrep <;> cases hrep
      case moveAssign i j =>
        have hrep : ((w.shelf.lru i).bind fun a => (w.shelf.lru j).map _) = some _ := hrep
        cases hl : w.shelf.lru i <;> cases hl' : w.shelf.lru j <;> rw [hl] at hrep <;>
          first | (cases hrep; done) | (simp only [Option.bind_some, hl'] at hrep; cases hrep)
      case eq i j =>
        have hrep : ((w.shelf.lru i).bind fun a => (w.shelf.lru j).map _) = some _ := hrep
        cases hl : w.shelf.lru i <;> cases hl' : w.shelf.lru j <;> rw [hl] at hrep <;>
          first | (cases hrep; done) | (simp only [Option.bind_some, hl'] at hrep; cases hrep)
    | throw e w' =>
      exfalso
      have hp : WPerforms O wop w (.error e) w' := hs
      have he := hp.effect
      rw [hs] at h1
      cases he <;> first | (exact hno _ _ rfl) | (cases hop; done) | skip
      next kind ctor s' hbody =>
        cases kind with
        | timed => cases hop
        | basic =>
          obtain ⟨w', h3⟩ := C31_construction_returns hC hw .basic ctor
          have h3 : Impl.wstep O (.create .basic ctor) w = .ok .unit w' := h3
          rw [hs] at h3
          cases h3
    | ok r w' =>
      have hp : WPerforms O wop w (.ok r) w' := hs
      have he := hp.effect
      rw [hs] at h1 h2
      obtain ⟨h3, h4, h5⟩ := h2
      have hnews := news_of_told hop h1
      cases he <;> first | (exact absurd rfl (hno _ _)) | (cases hop; done) | skip
      next kind ctor n s' hbody =>
        have hq := ctorBody_q (O := O) ctor ⟨Impl.emptyCache kind (Impl.ctorCapacity ctor),
          { w.g with ext := Impl.allNodes w.caches }⟩
        rw [hbody] at hq
        have hq : Silent _ s' := hq
        have ha : a = .unit := by
          have : Option.some ((Ans.unit, w.shelf ++ [some ((⟨some ctor.promised, []⟩ : Lru K V).storeAll ctor.pairs).2])) =
            some (a, sh) := hrep
          injection this with this
          exact (congrArg Prod.fst this).symm
        have hsh : w.shelf ++ [some ((⟨some ctor.promised, []⟩ : Lru K V).storeAll ctor.pairs).2] = sh := by
          have : Option.some ((Ans.unit, w.shelf ++ [some ((⟨some ctor.promised, []⟩ : Lru K V).storeAll ctor.pairs).2])) =
            some (a, sh) := hrep
          injection this with this
          exact congrArg Prod.snd this
        subst ha
        refine .returns rfl hs hnews (by rw [List.append_nil]; exact hq.log) ?_ (fun h => by cases h)
        refine h.kept h4 ?_ hq.nextStat hq.stats
        rw [List.map_append, h.maps]
        congr 1
        have hlru : asLru s'.c = ((⟨some ctor.promised, []⟩ : Lru K V).storeAll ctor.pairs).2 := by
          rw [← hsh] at h3
          unfold World.shelf at h3
          rw [List.map_append] at h3
          have := List.append_cancel_left h3
          simpa using this
        have hobs : s'.c.obs = {} := hq.obs
        show [some (asWatched s'.c)] = _
        unfold asWatched
        rw [hlru, hobs]
      next i c hc =>
        refine .returns (a := .says .unit) (evs := []) ?_ hs ?_ (by simp) (h.kept h4 (maps_set h.maps i none) rfl rfl)
          (fun h => by cases h)
        · show (g.map i).map _ = _
          rw [h.here hc]; rfl
        · exact news_of_told hop rfl
      next i j a b ha hb hij ht =>
        refine .returns (a := .says .unit) (evs := []) ?_ hs (news_of_told hop rfl) (by simp)
          (h.kept h4 (maps_set (maps_set h.maps i _) j _) rfl rfl) (fun h => by cases h)
        show ((g.map i).bind fun a => (g.map j).map fun b => _) = _
        rw [h.here ha, h.here hb]
        rfl
      next i j a b ha hb hij =>
        have hij : i = j := by
          rcases hij with hij | hij
          · exact hij
          · rw [h.plain i a ha, h.plain j b hb] at hij; cases hij
        subst hij
        rw [ha] at hb
        injection hb with hb
        injection hb with hb
        subst hb
        refine .returns (a := .says .unit) (evs := []) ?_ hs (news_of_told hop rfl) (by simp) h (fun h => by cases h)
        show ((g.map i).bind fun a => (g.map i).map fun b => _) = _
        rw [h.here ha]
        show some (News.says Ans.unit, ([] : List (Event K V)), (g.put i (asWatched a)).put i (asWatched a)) = _
        congr 3
        unfold Gallery.put
        rw [List.set_set, h.set_self ha]
      next i j a b ha hb hij ht =>
        refine .returns (a := .says .unit) (evs := []) ?_ hs (news_of_told hop rfl) (by simp)
          (h.kept h4 (maps_set (maps_set h.maps i _) j _) rfl rfl) (fun h => by cases h)
        show ((g.map i).bind fun a => (g.map j).map fun b => _) = _
        rw [h.here ha, h.here hb]
        rfl
      next i j a b ha hb hij =>
        have hij : i = j := by
          rcases hij with hij | hij
          · exact hij
          · rw [h.plain i a ha, h.plain j b hb] at hij; cases hij
        subst hij
        rw [ha] at hb
        injection hb with hb
        injection hb with hb
        subst hb
        refine .returns (a := .says .unit) (evs := []) ?_ hs (news_of_told hop rfl) (by simp) h (fun h => by cases h)
        show ((g.map i).bind fun a => (g.map i).map fun b => _) = _
        rw [h.here ha]
        show some (News.says Ans.unit, ([] : List (Event K V)), (g.put i (asWatched a)).put i (asWatched a)) = _
        congr 3
        unfold Gallery.put
        rw [List.set_set, h.set_self ha]
      next i b hb =>
        refine .returns (a := .says .unit) (evs := []) ?_ hs (news_of_told hop rfl) (by simp)
          (h.kept (ms := g.maps.set i (some { asWatched b with lru := ⟨none, []⟩ }) ++
            [some ⟨asLru b, none, [], [], []⟩]) h4 ?_ rfl rfl) (fun h => by cases h)
        · show (g.map i).map _ = _
          rw [h.here hb]; rfl
        · rw [List.map_append, maps_set h.maps]
          rfl
      next i j a b ha hb hij ht =>
        refine .returns (a := .says .unit) (evs := []) ?_ hs (news_of_told hop rfl) (by simp)
          (h.kept h4 (maps_set (maps_set h.maps i _) j _) rfl rfl) (fun h => by cases h)
        show ((g.map i).bind fun a => (g.map j).map fun b => _) = _
        rw [h.here ha, h.here hb]
        rfl
      next i j a b ha hb hij =>
        have hij : i = j := by
          rcases hij with hij | hij
          · exact hij
          · rw [h.plain i a ha, h.plain j b hb] at hij; cases hij
        subst hij
        rw [ha] at hb
        injection hb with hb
        injection hb with hb
        subst hb
        refine .returns (a := .says .unit) (evs := []) ?_ hs (news_of_told hop rfl) (by simp) h (fun h => by cases h)
        show ((g.map i).bind fun a => (g.map i).map fun b => _) = _
        rw [h.here ha]
        show some (News.says Ans.unit, ([] : List (Event K V)), (g.put i (asWatched a)).put i (asWatched a)) = _
        congr 3
        unfold Gallery.put
        rw [List.set_set, h.set_self ha]
      next i x ha =>
        refine .returns (a := .says a) (evs := []) ?_ hs hnews (by simp) h (fun h => h5 (by injection h))
        show ((g.map i).bind fun a => (g.map i).map fun b => _) = _
        have hrep : ((w.shelf.lru i).bind fun a => (w.shelf.lru i).map fun b => _) = _ := hrep
        rw [shelf_some ha] at hrep
        rw [h.here ha]
        injection hrep with hrep
        obtain rfl : _ = a := congrArg Prod.fst hrep
        rfl
      next i j x y r ha hb hij heq =>
        refine .returns (a := .says a) (evs := []) ?_ hs hnews (by simp) h (fun h => h5 (by injection h))
        show ((g.map i).bind fun a => (g.map j).map fun b => _) = _
        have hrep : ((w.shelf.lru i).bind fun a => (w.shelf.lru j).map fun b => _) = _ := hrep
        rw [shelf_some ha, shelf_some hb] at hrep
        rw [h.here ha, h.here hb]
        injection hrep with hrep
        obtain rfl : _ = a := congrArg Prod.fst hrep
        rfl

/-! ### Calls -/

theorem reply_byKey {o : Op K V} (h : Shows w g) (hc : w.caches[i]? = some (some c)) (hop : o.byKey = true) :
    g.reply (.use (.op i o)) =
      if c.capacity = none ∧ o.needsCapacity = true then none else some (g.call i (asWatched c) o) := by
  have hno : o.observes = false := by cases o <;> first | rfl | cases hop
  show (g.map i).bind _ = _
  rw [h.here hc, Option.bind_some, hno]
  rfl

/-- The callbacks due for an access. -/
theorem due_announces (c : Cache K V) (k : K) : dueCallbacks c.obs k (stored? c k) = (asWatched c).announces k := by
  unfold Watched.announces stored?
  rw [show (asWatched c).lru.item k = (entryFor c k).map MapNode.pair from asLru_item c k]
  cases entryFor c k <;> rfl

/-- What a call that concerns keys and values leaves in callbacks and journals. -/
theorem call_shows {o : Op K V} {res : Except Err (Res K V)} {s' : St (Cache K V) K V} (hO : NoListFault O)
    (hw : Reach O (fun op => op.copies = false) w) (h : Shows w g) (hc : w.caches[i]? = some (some c))
    (hop : o.byKey = true) (hp : Performs O o (viewOf w i c) res s') (hu : res ≠ .error .user)
    (hl : asLru s'.c = ((asLru c).reply o).2) :
    s'.g.log = w.g.log ++ (g.call i (asWatched c) o).2.1 ∧
      Shows ⟨w.caches.set i (some s'.c), s'.g⟩ (g.call i (asWatched c) o).2.2 := by
  have hk := h.plain i c hc
  have hplain : (⟨w.caches.set i (some s'.c), s'.g⟩ : World K V).Plain := by
    refine Plain_set h.plain (fun d hd => ?_) _
    injection hd with hd
    rw [← hd]
    exact (performs_kind hp).trans hk
  cases ha : o.accessed with
  | none =>
    have hcfg : o.configures = false := by cases o <;> first | rfl | cases hop
    have hq := step_quietly (O := O) o (by rw [isAccess_accessed, ha]; rfl) hcfg (viewOf w i c)
    have hq : Silent (viewOf w i c) s' := by
      cases res with
      | ok r =>
        have hp : Impl.step O o (viewOf w i c) = .ok r s' := hp
        rw [hp] at hq
        exact hq
      | error e =>
        have hp : Impl.step O o (viewOf w i c) = .throw e s' := hp
        rw [hp] at hq
        exact hq
    have hcall : g.call i (asWatched c) o =
        (.says ((asLru c).reply o).1, [], g.put i { asWatched c with lru := ((asLru c).reply o).2 }) := by
      unfold Gallery.call
      rw [ha]
      rfl
    rw [hcall]
    refine ⟨by rw [List.append_nil]; exact hq.log, h.kept hplain ?_ hq.nextStat hq.stats⟩
    rw [maps_set h.maps, ← hl]
    have hobs : s'.c.obs = c.obs := hq.obs
    show g.maps.set i (some (asWatched s'.c)) = _
    unfold asWatched
    rw [hobs]
  | some k =>
    obtain ⟨-, h2, hobs, -⟩ := (hw.reachable hc).registers hO hk (accessed_iff.1 ha) hp
    obtain ⟨hrec, -⟩ := h2 hu
    have hmind := performs_minds hp (by rw [isAccess_accessed, ha]; rfl)
    have hobs : s'.c.obs = c.obs := hobs
    have hitem : ((asWatched c).lru.item k).isSome = (entryFor c k).isSome := by
      rw [show (asWatched c).lru.item k = (entryFor c k).map MapNode.pair from asLru_item c k, Option.isSome_map]
    have hmaps : (w.caches.set i (some s'.c)).map (Option.map asWatched) =
        g.maps.set i (some { asWatched c with lru := ((asLru c).reply o).2 }) := by
      rw [maps_set h.maps, ← hl]
      show g.maps.set i (some (asWatched s'.c)) = _
      unfold asWatched
      rw [hobs]
    have hlog : s'.g.log = w.g.log ++ (asWatched c).announces k := by
      rw [← due_announces]
      exact hrec.log
    have hnext : s'.g.nextStat = w.g.nextStat := hmind.nextStat
    cases ht : c.obs.stats with
    | none =>
      have hcall : g.call i (asWatched c) o = (.says ((asLru c).reply o).1, (asWatched c).announces k,
          g.put i { asWatched c with lru := ((asLru c).reply o).2 }) := by
        unfold Gallery.call
        rw [ha]
        dsimp only
        split
        · next id hid => exact absurd (hid.symm.trans ht) (fun h => by cases h)
        · rfl
      rw [hcall]
      refine ⟨hlog, h.kept hplain hmaps hnext ?_⟩
      funext j
      exact hrec.others j (by rw [show (viewOf w i c).c.obs.stats = none from ht]; exact fun h => by cases h)
    | some id =>
      have hcall : g.call i (asWatched c) o = (.says ((asLru c).reply o).1, (asWatched c).announces k,
          (g.put i { asWatched c with lru := ((asLru c).reply o).2 }).note id
            (.access k ((asWatched c).lru.item k).isSome)) := by
        unfold Gallery.call
        rw [ha]
        dsimp only
        split
        · next id' hid =>
          have : some id' = some id := hid.symm.trans ht
          injection this with this
          rw [this]
          rfl
        · next hid => exact absurd (hid.symm.trans ht) (fun h => by cases h)
      rw [hcall]
      refine ⟨hlog, hplain, hmaps, ?_, ?_⟩
      · show s'.g.nextStat = (g.journals.modify id _).length
        rw [List.length_modify, hnext, h.count]
      · intro j jo hj
        have hj : (g.journals.modify id _)[j]? = some jo := hj
        rw [List.getElem?_modify] at hj
        cases hg : g.journals[j]? with
        | none => rw [hg] at hj; cases hj
        | some jo' =>
          rw [hg] at hj
          have hold := h.journaled j jo' hg
          by_cases hij : id = j
          · subst hij
            have hj : (if id = id then Note.access k ((asWatched c).lru.item k).isSome :: jo' else jo') = jo := by
              injection hj
            rw [if_pos rfl] at hj
            rw [← hj, hitem]
            exact hold.counted (hrec.counted id ht)
          · have hj : (if id = j then Note.access k ((asWatched c).lru.item k).isSome :: jo' else jo') = jo := by
              injection hj
            rw [if_neg hij] at hj
            rw [← hj]
            have : s'.g.stats j = w.g.stats j := hrec.others j (by
              rw [show (viewOf w i c).c.obs.stats = some id from ht]
              exact fun e => hij (by injection e))
            show Journaled (s'.g.stats j) jo'
            rw [this]
            exact hold

theorem byKey_heard {o : Op K V} (hC : Calm O) (hw : Reach O (fun op => op.copies = false) w) (h : Shows w g)
    (hop : o.byKey = true) : Heard O (.op i o) w g := by
  have hO := hC.noListFault
  have hplain : (WOp.op i o : WOp K V).plain = true := hop
  have hlike := step_like hC hw h.plain hplain
  unfold StepLike at hlike
  rcases exists_or_not w i with ⟨c, hc⟩ | hn
  · have hrep : w.shelf.reply (.op i o) = if c.capacity = none ∧ o.needsCapacity = true then none else
        some (((asLru c).reply o).1, w.shelf.set i (some ((asLru c).reply o).2)) := by
      show (w.shelf.lru i).bind _ = _
      rw [shelf_some hc]
      rfl
    have hreply := reply_byKey h hc hop
    by_cases hbad : c.capacity = none ∧ o.needsCapacity = true
    · rw [hrep, if_pos hbad] at hlike
      rw [if_pos hbad] at hreply
      exact .undefined hreply hlike
    · rw [hrep, if_neg hbad] at hlike
      rw [if_neg hbad] at hreply
      obtain ⟨h1, h2⟩ := hlike
      have hlt : i < w.caches.length := (List.getElem?_eq_some_iff.1 hc).1
      have hlru : ∀ s' : St (Cache K V) K V, (⟨w.caches.set i (some s'.c), s'.g⟩ : World K V).shelf =
          w.shelf.set i (some ((asLru c).reply o).2) → asLru s'.c = ((asLru c).reply o).2 := by
        intro s' hs
        rw [shelf_set] at hs
        have hs := congrArg (·[i]?) hs
        have hl : i < w.shelf.length := by unfold World.shelf; rw [List.length_map]; exact hlt
        simp only [List.getElem?_set_self hl, Option.map_some] at hs
        injection hs with hs
        injection hs
      have hfst : (g.call i (asWatched c) o).1 = .says ((asLru c).reply o).1 := by
        unfold Gallery.call
        cases o.accessed <;> rfl
      have hstep : Impl.wstep O (.op i o) w = Impl.onCache i (Impl.step O o) w := rfl
      have hon := onCache_eq hc (Impl.step O o)
      cases hs : Impl.step O o (viewOf w i c) with
      | ok r s' =>
        rw [hs] at hon
        have hs' : Impl.wstep O (.op i o) w = .ok r ⟨w.caches.set i (some s'.c), s'.g⟩ := hstep.trans hon
        rw [hs'] at h1 h2
        obtain ⟨h3, -, h5⟩ := h2
        obtain ⟨h6, h7⟩ := call_shows (res := .ok r) hO hw h hc hop hs (fun h => by cases h) (hlru s' h3)
        refine .returns (a := (g.call i (asWatched c) o).1) (evs := (g.call i (asWatched c) o).2.1)
          (g' := (g.call i (asWatched c) o).2.2) hreply hs' ?_ h6 h7 ?_
        · rw [hfst]; exact news_of_told hplain h1
        · rw [hfst]; exact fun h => h5 (by injection h)
      | throw e s' =>
        rw [hs] at hon
        have hs' : Impl.wstep O (.op i o) w = .throw e ⟨w.caches.set i (some s'.c), s'.g⟩ := hstep.trans hon
        rw [hs'] at h1 h2
        obtain ⟨h3, -, h5⟩ := h2
        have he : e ≠ .user := by
          rintro rfl
          cases h1
        obtain ⟨h6, h7⟩ := call_shows (res := .error e) hO hw h hc hop hs (fun h => he (by injection h)) (hlru s' h3)
        refine .throws (a := (g.call i (asWatched c) o).1) (evs := (g.call i (asWatched c) o).2.1)
          (g' := (g.call i (asWatched c) o).2.2) hreply hs' ?_ h6 h7 ?_
        · rw [hfst]; exact news_of_told hplain h1
        · rw [hfst]; exact fun h => h5 (by injection h)
      | terminate =>
        rw [hs] at hon
        have hs' : Impl.wstep O (.op i o) w = .terminate := hstep.trans hon
        rw [hs'] at h2
        have h2 : ((asLru c).reply o).1 = .terminated := h2
        unfold Heard
        rw [hreply, hs']
        show (g.call i (asWatched c) o).1 = _
        rw [hfst, h2]
      | ub =>
        rw [hs] at hon
        rw [hstep.trans hon] at h2
        exact h2.elim
      | diverge =>
        rw [hs] at hon
        rw [hstep.trans hon] at h2
        exact h2.elim
  · refine .undefined ?_ ?_
    · show (g.map i).bind _ = none
      rw [h.gone hn]; rfl
    · have hrep : w.shelf.reply (.op i o) = none := by
        show (w.shelf.lru i).bind _ = none
        rw [shelf_none hn]; rfl
      rw [hrep] at hlike
      exact hlike

theorem Shows.opened (h : Shows w g) {cs : List (Option (Cache K V))} {ms : List (Option (Watched K V))} {gs : Shared K V}
    {ks : List K} (hp : (⟨cs, gs⟩ : World K V).Plain) (hm : cs.map (Option.map asWatched) = ms)
    (hn : gs.nextStat = w.g.nextStat + 1)
    (hs : ∀ i, gs.stats i = if i = w.g.nextStat then Statistics.ofKeys ks else w.g.stats i) :
    Shows ⟨cs, gs⟩ ⟨ms, g.journals ++ [ks.reverse.map .watch]⟩ := by
  refine ⟨hp, hm, ?_, fun i j hj => ?_⟩
  · show gs.nextStat = (g.journals ++ _).length
    rw [hn, h.count, List.length_append]
    rfl
  · have hj : (g.journals ++ [ks.reverse.map .watch])[i]? = some j := hj
    show Journaled (gs.stats i) j
    rw [hs]
    by_cases hlt : i < g.journals.length
    · rw [List.getElem?_append_left hlt] at hj
      rw [if_neg (by rw [h.count]; omega)]
      exact h.journaled i j hj
    · rw [List.getElem?_append_right (by omega)] at hj
      have hi : i = g.journals.length := by
        cases hm : i - g.journals.length with
        | zero => omega
        | succ n => rw [hm] at hj; cases hj
      subst hi
      rw [Nat.sub_self] at hj
      injection hj with hj
      rw [if_pos h.count.symm, ← hj]
      exact Journaled.new ks

theorem observes_heard {o : Op K V} (h : Shows w g) (hop : o.observes = true) : Heard O (.op i o) w g := by
  rcases exists_or_not w i with ⟨c, hc⟩ | hn
  · have hk := h.plain i c hc
    have hreply : g.reply (.use (.op i o)) = some ((g.observe i (asWatched c) o).1, [], (g.observe i (asWatched c) o).2) := by
      show (g.map i).bind _ = _
      rw [h.here hc, Option.bind_some, if_pos hop]
    have hon := onCache_eq hc (Impl.step O o)
    have hset : ∀ (d : Cache K V) (gs : Shared K V), d.kind = .basic → (⟨w.caches.set i (some d), gs⟩ : World K V).Plain :=
      fun d gs hd => Plain_set h.plain (fun e he => by injection he with he; rw [← he]; exact hd) _
    have hlt : i < w.caches.length := (List.getElem?_eq_some_iff.1 hc).1
    have hself : w.caches.set i (some c) = w.caches := set_get_self hc
    have told_unit : ∀ (d : Cache K V) (gs : Shared K V),
        (WOp.op i o).told (.ok .unit ⟨w.caches.set i (some d), gs⟩) = .says .unit := by
      intro d gs
      unfold WOp.told
      simp only [List.getElem?_set_self hlt]
      rfl
    have news_unit : ∀ (d : Cache K V) (gs : Shared K V),
        (WOp.op i o).news (.ok .unit ⟨w.caches.set i (some d), gs⟩) = .says .unit := by
      intro d gs
      have := told_unit d gs
      cases o <;> first | (cases hop; done) | (simp only [WOp.news, this])
    cases o <;> first | (cases hop; done) | skip
    case monitor id =>
      exact .returns hreply hon (news_unit _ _) (List.append_nil _).symm (h.kept (hset _ _ hk) (maps_set h.maps i _) rfl rfl)
        (fun h => by cases h)
    case monitorNew ks =>
      refine .returns hreply hon ?_ (List.append_nil _).symm ?_ (fun h => by cases h)
      · show News.object (some w.g.nextStat) = .object (some g.journals.length)
        rw [h.count]
      · refine h.opened (hset _ _ hk) ?_ rfl (fun _ => rfl)
        rw [maps_set h.maps]
        show g.maps.set i (some ⟨_, some w.g.nextStat, _, _, _⟩) = _
        rw [h.count]
        rfl
    case stopMonitoring =>
      exact .returns hreply hon (news_unit _ _) (List.append_nil _).symm (h.kept (hset _ _ hk) (maps_set h.maps i _) rfl rfl)
        (fun h => by cases h)
    case isMonitoring =>
      refine .returns hreply hon ?_ (List.append_nil _).symm (h.kept (hset _ _ hk) ?_ rfl rfl) (fun h => by cases h)
      · unfold WOp.news WOp.told
        simp only [List.getElem?_set_self hlt]
        rfl
      · rw [maps_set h.maps]
        exact h.set_self hc
    case stats =>
      cases ht : c.obs.stats with
      | none =>
        have hs : Impl.step O .stats (viewOf w i c) = .throw .notMonitoring (viewOf w i c) := by
          refine bind_throw ?_
          unfold Impl.stats
          rw [bind_ok (m := Impl.getObs) (a := c.obs) (s' := viewOf w i c) rfl, ht]
          rfl
        rw [hs] at hon
        refine .throws hreply hon ?_ (List.append_nil _).symm (h.kept (hset _ _ hk) ?_ rfl rfl) ?_
        · show News.notMonitoring = (match (asWatched c).tally with | some id => .object (some id) | none => .notMonitoring)
          rw [show (asWatched c).tally = none from ht]
        · rw [maps_set h.maps]
          exact h.set_self hc
        · show (match (asWatched c).tally with | some id => News.object (some id) | none => .notMonitoring) ≠ _
          rw [show (asWatched c).tally = none from ht]
          exact fun h => by cases h
      | some id =>
        have hs : Impl.step O .stats (viewOf w i c) = .ok (.nat id) (viewOf w i c) := by
          refine ret_ok (a := id) ?_
          unfold Impl.stats
          rw [bind_ok (m := Impl.getObs) (a := c.obs) (s' := viewOf w i c) rfl, ht]
          rfl
        rw [hs] at hon
        refine .returns hreply hon ?_ (List.append_nil _).symm (h.kept (hset _ _ hk) ?_ rfl rfl) ?_
        · show News.object (some id) = (match (asWatched c).tally with | some id => .object (some id) | none => .notMonitoring)
          rw [show (asWatched c).tally = some id from ht]
        · rw [maps_set h.maps]
          exact h.set_self hc
        · show (match (asWatched c).tally with | some id => News.object (some id) | none => .notMonitoring) ≠ _
          rw [show (asWatched c).tally = some id from ht]
          exact fun h => by cases h
    case sharedStats =>
      refine .returns hreply hon ?_ (List.append_nil _).symm (h.kept (hset _ _ hk) ?_ rfl rfl) (fun h => by cases h)
      · rfl
      · rw [maps_set h.maps]
        exact h.set_self hc
    all_goals
      exact .returns hreply hon (news_unit _ _) (List.append_nil _).symm (h.kept (hset _ _ hk) (maps_set h.maps i _) rfl rfl)
        (fun h => by cases h)
  · refine .undefined ?_ ?_
    · show (g.map i).bind _ = none
      rw [h.gone hn]; rfl
    · show Impl.onCache i _ w = .ub
      unfold Impl.onCache
      split
      · next c hc => exact absurd hc (hn c)
      · rfl

/-! ### Statistics objects -/

theorem Shows.noted (h : Shows w g) {id : Nat} {j : Journal K} {st : Statistics K} {n : Note K} (hj : g.journals[id]? = some j)
    (ht : Journaled st (n :: j)) :
    Shows ⟨w.caches, { w.g with stats := fun i => if i = id then st else w.g.stats i }⟩ (g.note id n) := by
  refine ⟨h.plain, h.maps, ?_, fun i jo hi => ?_⟩
  · show w.g.nextStat = (g.journals.modify id _).length
    rw [List.length_modify, h.count]
  · have hi : (g.journals.modify id _)[i]? = some jo := hi
    rw [List.getElem?_modify] at hi
    show Journaled (if i = id then st else w.g.stats i) jo
    by_cases hid : i = id
    · subst hid
      rw [hj] at hi
      have hi : some (if i = i then n :: j else j) = some jo := hi
      injection hi with hi
      rw [if_pos rfl] at hi
      rw [if_pos rfl, ← hi]
      exact ht
    · rw [if_neg hid]
      cases hg : g.journals[i]? with
      | none => rw [hg] at hi; cases hi
      | some jo' =>
        rw [hg] at hi
        have hi : some (if id = i then n :: jo' else jo') = some jo := hi
        injection hi with hi
        rw [if_neg (fun e : id = i => hid e.symm)] at hi
        rw [← hi]
        exact h.journaled i jo' hg

theorem stat_heard {id : Nat} {o : SOp K} (h : Shows w g) (hid : id < g.journals.length) : Heard O (.stat id o) w g := by
  obtain ⟨j, hj⟩ : ∃ j, g.journals[id]? = some j := ⟨_, List.getElem?_eq_getElem hid⟩
  have ht := h.journaled id j hj
  have hreply : g.reply (.use (.stat id o)) = some ((g.instruct id j o).1, [], (g.instruct id j o).2) := by
    show g.journals[id]?.map _ = _
    rw [hj]; rfl
  have hok : ∀ st, Impl.statStep (w.g.stats id) o = .ok st → Impl.wstep O (.stat id o) w =
      .ok .unit ⟨w.caches, { w.g with stats := fun i => if i = id then st else w.g.stats i }⟩ := by
    intro st hst
    refine ret_ok (a := ()) ?_
    unfold Impl.stat
    rw [hst]
  have herr : ∀ e, Impl.statStep (w.g.stats id) o = .error e → Impl.wstep O (.stat id o) w = .throw e w := by
    intro e hst
    refine bind_throw ?_
    unfold Impl.stat
    rw [hst]
  cases o with
  | monitor k =>
    exact .returns hreply (hok _ rfl) rfl (List.append_nil _).symm (h.noted hj (ht.watch k)) (fun h => by cases h)
  | unmonitorAll =>
    exact .returns hreply (hok _ rfl) rfl (List.append_nil _).symm (h.noted hj ht.unwatchAll) (fun h => by cases h)
  | unmonitor k =>
    cases hr : j.record k with
    | none =>
      have hi : g.instruct id j (.unmonitor k) = (.unmonitored, g) := by unfold Gallery.instruct; simp [hr]
      rw [hi] at hreply
      refine .throws hreply (herr .unmonitoredKey ?_) rfl (List.append_nil _).symm h (fun h => by cases h)
      show Statistics.unmonitor _ _ = _
      unfold Statistics.unmonitor
      rw [ht.record, hr]
    | some r =>
      have hi : g.instruct id j (.unmonitor k) = (.says .unit, g.note id (.unwatch k)) := by unfold Gallery.instruct; simp [hr]
      rw [hi] at hreply
      refine .returns hreply (hok _ ?_) rfl (List.append_nil _).symm (h.noted hj (ht.unwatch k)) (fun h => by cases h)
      show Statistics.unmonitor _ _ = _
      unfold Statistics.unmonitor
      rw [ht.record, hr]
  | resetKey k =>
    cases hr : j.record k with
    | none =>
      have hi : g.instruct id j (.resetKey k) = (.unmonitored, g) := by unfold Gallery.instruct; simp [hr]
      rw [hi] at hreply
      refine .throws hreply (herr .unmonitoredKey ?_) rfl (List.append_nil _).symm h (fun h => by cases h)
      show Statistics.resetKey _ _ = _
      unfold Statistics.resetKey
      rw [ht.record, hr]
    | some r =>
      have hi : g.instruct id j (.resetKey k) = (.says .unit, g.note id (.reset k)) := by unfold Gallery.instruct; simp [hr]
      rw [hi] at hreply
      refine .returns hreply (hok _ ?_) rfl (List.append_nil _).symm (h.noted hj (ht.reset k)) (fun h => by cases h)
      show Statistics.resetKey _ _ = _
      unfold Statistics.resetKey
      rw [ht.record, hr]

theorem newStats_heard {ks : List K} (h : Shows w g) : Heard O (.newStats ks) w g := by
  refine .returns (r := .nat w.g.nextStat) (w' := _) rfl rfl ?_ (List.append_nil _).symm
    (h.opened h.plain h.maps rfl (fun _ => rfl)) (fun h => by cases h)
  show News.object (some w.g.nextStat) = .object (some g.journals.length)
  rw [h.count]

/-! ### Programs -/

theorem step_heard (hC : Calm O) (hw : Reach O (fun op => op.copies = false) w) (h : Shows w g)
    (hop : (Deed.use wop).plain = true) (hid : ∀ id, (Deed.use wop).mentions = some id → id < g.journals.length) :
    Heard O wop w g := by
  cases wop
  case op i o =>
    cases hk : o.byKey with
    | true => exact byKey_heard hC hw h hk
    | false =>
      refine observes_heard h ?_
      have : (o.byKey || o.observes) = true := hop
      rwa [hk, Bool.false_or] at this
  case newStats => exact newStats_heard h
  case stat id o => exact stat_heard h (hid id rfl)
  all_goals exact world_heard hC hw h hop (fun i o e => by cases e)

theorem plain_no_copy (h : (Deed.use wop).plain = true) : wop.copies = false := by
  cases wop <;> first | rfl | cases h

/-- How many statistics objects there are after a step. -/
theorem reply_journals {d : Deed K V} {a : News K V} {evs : List (Event K V)} (h : g.reply d = some (a, evs, g')) :
    g'.journals.length = g.journals.length + d.makes := by
  have hn : ∀ (x : Gallery K V) (id : Nat) (n : Note K), (x.note id n).journals.length = x.journals.length :=
    fun x id n => List.length_modify ..
  have ho : ∀ (x : Gallery K V) (ks : List K), (x.open ks).journals.length = x.journals.length + 1 :=
    fun x ks => by show (x.journals ++ _).length = _; rw [List.length_append]; rfl
  have hinj : ∀ {x : News K V × List (Event K V) × Gallery K V}, some x = some (a, evs, g') → g' = x.2.2 := by
    intro x hx
    injection hx with hx
    rw [hx]
  cases d with
  | ask id q =>
    have h : g.journals[id]?.map _ = _ := h
    cases hj : g.journals[id]? with
    | none => rw [hj] at h; cases h
    | some j =>
      rw [hj] at h
      rw [hinj h]
      rfl
  | use op =>
    cases op with
    | create kind ctor => rw [hinj h]; rfl
    | newStats ks => rw [hinj h]; exact ho _ _
    | copyCtor | copyAssign => cases h
    | stat id o =>
      have h : g.journals[id]?.map _ = _ := h
      cases hj : g.journals[id]? with
      | none => rw [hj] at h; cases h
      | some j =>
        rw [hj] at h
        rw [hinj h]
        show (g.instruct id j o).2.journals.length = _
        cases o <;> unfold Gallery.instruct <;> dsimp only <;> first | exact hn _ _ _ | (split <;> first | exact hn _ _ _ | rfl)
    | destroy i =>
      have h : (g.map i).map _ = _ := h
      cases hm : g.map i with
      | none => rw [hm] at h; cases h
      | some m => rw [hm] at h; rw [hinj h]; rfl
    | moveCtor i =>
      have h : (g.map i).map _ = _ := h
      cases hm : g.map i with
      | none => rw [hm] at h; cases h
      | some m => rw [hm] at h; rw [hinj h]; rfl
    | swap i j =>
      have h : ((g.map i).bind fun a => (g.map j).map fun b => _) = _ := h
      cases hm : g.map i with
      | none => rw [hm] at h; cases h
      | some m =>
        cases hm' : g.map j with
        | none => rw [hm, hm'] at h; cases h
        | some m' => rw [hm, hm'] at h; rw [hinj h]; rfl
    | swapBase i j =>
      have h : ((g.map i).bind fun a => (g.map j).map fun b => _) = _ := h
      cases hm : g.map i with
      | none => rw [hm] at h; cases h
      | some m =>
        cases hm' : g.map j with
        | none => rw [hm, hm'] at h; cases h
        | some m' => rw [hm, hm'] at h; rw [hinj h]; rfl
    | moveAssign i j =>
      have h : ((g.map i).bind fun a => (g.map j).map fun b => _) = _ := h
      cases hm : g.map i with
      | none => rw [hm] at h; cases h
      | some m =>
        cases hm' : g.map j with
        | none => rw [hm, hm'] at h; cases h
        | some m' => rw [hm, hm'] at h; rw [hinj h]; rfl
    | eq i j =>
      have h : ((g.map i).bind fun a => (g.map j).map fun b => _) = _ := h
      cases hm : g.map i with
      | none => rw [hm] at h; cases h
      | some m =>
        cases hm' : g.map j with
        | none => rw [hm, hm'] at h; cases h
        | some m' => rw [hm, hm'] at h; rw [hinj h]; rfl
    | op i o =>
      have h : (g.map i).bind _ = _ := h
      cases hm : g.map i with
      | none => rw [hm] at h; cases h
      | some m =>
        rw [hm, Option.bind_some] at h
        cases hobs : o.observes with
        | true =>
          rw [if_pos hobs] at h
          rw [hinj h]
          cases o <;> first | (cases hobs; done) | rfl | exact ho _ _
        | false =>
          rw [if_neg (by rw [hobs]; exact fun h => by cases h)] at h
          split at h
          · cases h
          · rw [hinj h]
            have hmk : (Deed.use (.op i o) : Deed K V).makes = 0 := by cases o <;> first | rfl | cases hobs
            rw [hmk]
            unfold Gallery.call
            dsimp only
            split
            · rfl
            · split
              · exact hn _ _ _
              · rfl

theorem Gallery.hears_cons {d : Deed K V} {ds : List (Deed K V)} {a : News K V} {evs : List (Event K V)}
    (h : g.reply d = some (a, evs, g')) (ha : a ≠ .says .terminated) : g.hears (d :: ds) = (a, evs) :: g'.hears ds := by
  rw [Gallery.hears, h]
  split
  · next h => cases h
  · next h =>
    injection h with h
    injection h with h
    exact absurd h ha
  · next h =>
    injection h with h
    injection h with h1 h
    injection h with h2 h3
    subst h1 h2 h3
    rfl

theorem news_ub (op : WOp K V) : op.news .ub = .undefined := by
  cases op <;> first | rfl | skip
  next o => cases o <;> rfl

theorem news_terminate (op : WOp K V) : op.news .terminate = .says .terminated := by
  cases op <;> first | rfl | skip
  next o => cases o <;> rfl

theorem hears_eq (hC : Calm O) (ds : List (Deed K V)) (hw : Reach O (fun op => op.copies = false) w) (h : Shows w g)
    (hds : wellNamed g.journals.length ds = true) : w.hears O ds = g.hears ds := by
  induction ds generalizing w g with
  | nil => rw [World.hears, Gallery.hears]
  | cons d ds ih =>
    rw [wellNamed, Bool.and_eq_true, Bool.and_eq_true] at hds
    obtain ⟨⟨h1, h2⟩, h3⟩ := hds
    have hid : ∀ id, d.mentions = some id → id < g.journals.length := by
      intro id hd
      rw [hd] at h2
      simpa using h2
    cases d with
    | ask id q =>
      obtain ⟨j, hj⟩ : ∃ j, g.journals[id]? = some j := ⟨_, List.getElem?_eq_getElem (hid id rfl)⟩
      have ht : ((w.g.stats id).tell q : News K V) = j.answer q := (h.journaled id j hj).tell (hw.states id) q
      have hreply : g.reply (.ask id q) = some (j.answer q, [], g) := by
        show g.journals[id]?.map _ = _
        rw [hj]; rfl
      have hne : (j.answer q : News K V) ≠ .says .terminated := by
        cases q <;> first | (exact fun h => by cases h) | skip
        intro he
        have he : (match j.record _ with | some r => News.record r | none => .unmonitored) = _ := he
        split at he <;> cases he
      rw [World.hears, Gallery.hears_cons hreply hne, ht, ih hw h h3]
    | use op =>
      have hstep := step_heard hC hw h h1 hid
      unfold Heard at hstep
      rw [World.hears]
      cases hrep : g.reply (.use op) with
      | none =>
        rw [hrep] at hstep
        have hstep : Impl.wstep O op w = .ub := hstep
        rw [hstep, Gallery.hears, hrep]
        show [(op.news (.ub : Out (World K V) (Res K V)), ([] : List (Event K V)))] = [(News.undefined, [])]
        rw [news_ub]
      | some x =>
        obtain ⟨a, evs, g'⟩ := x
        rw [hrep] at hstep
        cases hs : Impl.wstep O op w with
        | ok r w' =>
          rw [hs] at hstep
          obtain ⟨h4, h5, h6, h7⟩ := hstep
          rw [Gallery.hears_cons hrep h7, ← ih (.step op hw (plain_no_copy h1) hs) h6 (by rw [reply_journals hrep]; exact h3)]
          simp only [h4, h5, List.drop_left]
        | throw e w' =>
          rw [hs] at hstep
          obtain ⟨h4, h5, h6, h7⟩ := hstep
          rw [Gallery.hears_cons hrep h7, ← ih (.throw op hw (plain_no_copy h1) hs) h6 (by rw [reply_journals hrep]; exact h3)]
          simp only [h4, h5, List.drop_left]
        | terminate =>
          rw [hs] at hstep
          have hstep : a = .says .terminated := hstep
          subst hstep
          rw [Gallery.hears, hrep]
          show [(op.news (.terminate : Out (World K V) (Res K V)), ([] : List (Event K V)))] = [(News.says .terminated, [])]
          rw [news_terminate]
        | ub => rw [hs] at hstep; exact hstep.elim
        | diverge => rw [hs] at hstep; exact hstep.elim

theorem shows_init : Shows (Impl.initWorld : World K V) ⟨[], []⟩ :=
  ⟨fun i c h => (by cases i <;> cases h), rfl, rfl, fun i j h => (by cases i <;> cases h)⟩

end LRU
