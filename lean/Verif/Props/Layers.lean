import Verif.Proofs.LayersLoad
import Verif.Proofs.LayersOne
import Verif.Props.Reenter
/-!
# Callbacks that use other caches (C89)

`F i` says what the callbacks of cache `i` do: public calls on any live cache. The theorems hold for every `F` unless they
say otherwise. The claim that callbacks are harmless as long as they leave their own cache alone is false: see the end.
-/

set_option autoImplicit false
set_option linter.unusedSectionVars false

namespace LRU

variable {K V : Type} [KeyEqual K] [DecidableEq K] [DecidableEq V] {O : Oracle K V} {F : Nat → Event K V → WScript K V}
variable {w w' : World K V} {own : Nat → Bool} {i j : Nat} {c : Cache K V} {k : K} {op : Op K V} {rank : Nat → Nat}

/-! ### The caches stay well-formed -/

/-- C89. Whatever callbacks do to whichever caches, after every call that returned or threw the size of each cache (that
holds no copy) is at most its capacity, keys are distinct, and the map and the list hold the same entries. -/
theorem C89_well_formed (hO : NoListFault O) (h : LProg O F w own) (hi : own i = true)
    (hc : w.caches[i]? = some (some c)) :
    (∀ n, c.capacity = some n → count c ≤ n) ∧
    (elements c).Pairwise (fun a b => keq a.key b.key = false) ∧
    c.map.Perm (elements c) ∧ (c.map.map (·.addr)).Nodup ∧
    c.order.map (·.ref) = (elements c).map (·.addr) ∧ (c.order.map (·.addr)).Nodup ∧
    c.map.length = count c ∧ c.order.length = count c := by
  obtain ⟨t, hr, ht⟩ := h.view hO hi hc
  have hel : elements c = t.c.ents.map Ent.node := hr.elements
  have hco : count c = t.c.ents.length := hr.count
  have hord : c.order = _ := hr.rep.order
  refine ⟨?_, ?_, ?_, ?_, ?_, ?_, ?_, ?_⟩
  · intro n hn
    rw [hco]
    exact ht.awf.bound n (by rw [← hr.rep.cap]; exact hn)
  · rw [hel, List.pairwise_map]; exact ht.awf.keys
  · rw [hel]; exact hr.rep.map
  · have := (hr.rep.map.map (·.addr)).nodup_iff
    refine this.2 ?_
    rw [List.map_map]; exact ht.awf.ids
  · rw [hel, hord, List.map_map, List.map_map]; rfl
  · rw [hord, List.map_map]; exact ht.awf.slots
  · rw [hco]; exact hr.map_length
  · rw [hord, List.length_map, hco]

/-- C89. No cache is left in a broken state: with callbacks that do nothing every call whose preconditions hold goes on to
return or throw. -/
theorem C89_calls_complete (hO : NoListFault O) (h : LProg O F w own) (hi : own i = true)
    (hc : w.caches[i]? = some (some c)) (hs : Safe c op) (hn : ¬ Terminates c op) :
    Completes (Impl.step O op (viewOf w i c)) := by
  obtain ⟨t, hr, ht⟩ := h.view hO hi hc
  exact step_completes hO hr ht hs hn

/-- C89. Callbacks that use the cache they are registered with and no other: what C65 says of a single cache holds of each
cache of the program (the two models agree). -/
theorem C89_one_cache (hO : NoListFault O) (h : LProg O F w own) {G : Event K V → Script K V}
    (hG : ∀ e, F i e = WScript.on i (G e)) (hc : w.caches[i]? = some (some c)) (d : Nat) :
    Impl.stepL O F d [] i op w =
      match Impl.stepR O G d [] op (viewOf w i c) with
      | .ok r s => .ok r ⟨w.caches.set i (some s.c), s.g⟩
      | .throw e s => .throw e ⟨w.caches.set i (some s.c), s.g⟩
      | .ub => .ub
      | .terminate => .terminate
      | .diverge => .diverge := by
  obtain ⟨t, hr⟩ := (h.inv hO).pair.rel hc
  rw [stepL_one hG hc hr.bounded d op, onCache_of hc]
  cases Impl.stepR O G d [] op (viewOf w i c) <;> rfl

/-- C89. Callbacks that do nothing: the calls are those of `step`, on each cache. -/
theorem C89_idle (hO : NoListFault O) (h : LProg O F w own) (hF : ∀ e, F i e = .done) (hi : own i = true)
    (hc : w.caches[i]? = some (some c)) (hn : c.capacity ≠ none) (d : Nat) :
    Impl.stepL O F (d + 2) [] i op w = Impl.onCache i (Impl.step O op) w := by
  obtain ⟨t, hr, ht⟩ := h.view hO hi hc
  have h1 : Impl.stepR O (fun _ => .done) (d + 2) [] op (viewOf w i c) = Impl.step O op (viewOf w i c) :=
    stepR_quiet (F := fun _ => .done) (c := c) (fun _ => trivial) hn (hr.firm ht) op (viewOf w i c) rfl
  rw [stepL_one (G := fun _ => .done) hF hc hr.bounded (d + 2) op, onCache_of hc, onCache_of hc, h1]

/-- C89. How a call ends does not depend on the bound on nested calls, once it is high enough for the call to end. -/
theorem C89_outcome_unique {d d' : Nat} (h : Impl.stepL O F d [] i op w ≠ .diverge)
    (h' : Impl.stepL O F d' [] i op w ≠ .diverge) : Impl.stepL O F d [] i op w = Impl.stepL O F d' [] i op w := by
  rcases Nat.le_total d d' with hd | hd
  · obtain ⟨e, rfl⟩ := Nat.exists_eq_add_of_le hd
    exact (stepL_depth e h).symm
  · obtain ⟨e, rfl⟩ := Nat.exists_eq_add_of_le hd
    exact stepL_depth e h'

/-! ### Caches in layers -/

/-- C89. If the callbacks of each cache use only that cache and caches below it, a call leaves every other cache on the
same level and above as it was. -/
theorem C89_other_caches_unchanged (hO : NoListFault O) (h : LProg O F w own) (hT : Tiered rank F)
    {res : Except Err (Res K V)} (hp : LPerforms O F i op w res w') (hj : j ≠ i) (hr : rank i ≤ rank j) :
    w'.caches[j]? = w.caches[j]? := by
  obtain ⟨d, hp⟩ := hp
  have h1 := stepL_tiered (U := fun _ => true) hO (fun i _ e => (hT i e).mono fun _ _ h => ⟨rfl, h⟩) d [] i rfl op w (h.inv hO)
  cases res <;> (simp only at hp; rw [hp] at h1; exact h1.2.2 j hj hr)

/-- C89. If the callbacks of each cache use only caches below it, `find`, `contains` and `lookup` return what they would
return, throw what they would throw and leave the cache as they would if the callbacks did nothing: the time that passes
while callbacks run is all that the cache notices. If a callback throws, the cache is left as it was. -/
theorem C89_same_effect (hO : NoListFault O) (h : LProg O F w own) (hL : Layered rank F) (hi : own i = true)
    (hc : w.caches[i]? = some (some c)) (hop : op.Accesses k) {res : Except Err (Res K V)}
    (hp : LPerforms O F i op w res w') :
    (res = .error .user ∧ w'.caches[i]? = some (some c)) ∨
    ∃ δ s', Performs (O.lag w.g.ticks δ) op (viewOf w i c) res s' ∧ w'.caches[i]? = some (some s'.c) := by
  obtain ⟨d, hp⟩ := hp
  have key : EffectAs O (fun O => Impl.step O op) w i c (Impl.stepL O F d [] i op w) := by
    cases d with
    | zero => trivial
    | succ d =>
      rw [Impl.stepL]
      simp only [List.any_nil, Bool.false_eq_true]
      rcases hop with rfl | rfl | rfl
      · exact (containsL_effect hO hL (h.inv hO) hi hc).ret
      · exact (findL_effect hO hL (h.inv hO) hi hc).ret
      · exact (lookupL_effect hO hL (h.inv hO) hi hc).ret
  cases res with
  | ok r =>
    simp only at hp
    rw [hp] at key
    obtain ⟨δ, s', h1, h2⟩ := key
    exact .inr ⟨δ, s', h1, h2⟩
  | error e =>
    simp only at hp
    rw [hp] at key
    rcases key with ⟨rfl, h1⟩ | ⟨δ, s', h1, h2⟩
    · exact .inl ⟨rfl, h1⟩
    · exact .inr ⟨δ, s', h1, h2⟩

/-- C89. Caches in layers do no harm. Let the callbacks of the caches in `U` use caches in `U`: those below as they like
(also to register callbacks there), their own on a miss to insert, erase, resize, ... and on a hit to ask for facts about it. Then calls return or throw, and
the caches in `U` can go on being used. -/
theorem C89_layers_do_no_harm (hO : NoListFault O) (h : LProg O F w own) {U : Nat → Bool} (hF : Orderly U rank F)
    (hU : ∀ j, U j = true → own j = true ∧ ∃ c, w.caches[j]? = some (some c) ∧ c.capacity ≠ none)
    (hi : U i = true) (hp : op.Plain ∨ op.Registers) :
    ∃ res w', LPerforms O F i op w res w' ∧
      ∀ j, U j = true → ∃ c, w'.caches[j]? = some (some c) ∧ c.capacity ≠ none := by
  have h1 := stepL_ends (w := w) hO hF (rank i + 2) [] i op hi hp (by omega) nofun ⟨h.inv hO, hU⟩
  rcases h1.completes with ⟨r, w', h2⟩ | ⟨e, w', h2⟩
  · rw [h2] at h1
    exact ⟨.ok r, w', ⟨_, h2⟩, fun j hj => (h1.live j hj).2⟩
  · rw [h2] at h1
    exact ⟨.error e, w', ⟨_, h2⟩, fun j hj => (h1.live j hj).2⟩

/-- C89. The same for every call whose preconditions hold (iterators, references, registrations). -/
theorem C89_safe_calls_end (hO : NoListFault O) (h : LProg O F w own) {U : Nat → Bool} (hF : Orderly U rank F)
    (hU : ∀ j, U j = true → own j = true ∧ ∃ c, w.caches[j]? = some (some c) ∧ c.capacity ≠ none)
    (hi : U i = true) (hc : w.caches[i]? = some (some c)) (hs : Safe c op) (hn : ¬ Terminates c op) :
    ∃ res w', LPerforms O F i op w res w' := by
  by_cases hp : ∃ k, op.Accesses k
  · obtain ⟨res, w', h1, -⟩ := C89_layers_do_no_harm hO h hF hU hi (.inl (.inr hp))
    exact ⟨res, w', h1⟩
  · have h1 : Impl.stepL O F 1 [] i op = Impl.onCache i (Impl.step O op) := by
      rw [Impl.stepL]
      simp only [List.any_nil, Bool.false_eq_true, if_false]
      cases op <;> first
        | rfl
        | exact absurd ⟨_, .inl rfl⟩ hp
        | exact absurd ⟨_, .inr (.inl rfl)⟩ hp
        | exact absurd ⟨_, .inr (.inr rfl)⟩ hp
    rcases C89_calls_complete hO h (hU i hi).1 hc hs hn with ⟨r, s', h2⟩ | ⟨e, s', h2⟩
    · have h3 : Impl.stepL O F 1 [] i op w = .ok r ⟨w.caches.set i (some s'.c), s'.g⟩ := by rw [h1, onCache_of hc, h2]
      exact ⟨.ok r, _, 1, h3⟩
    · have h3 : Impl.stepL O F 1 [] i op w = .throw e ⟨w.caches.set i (some s'.c), s'.g⟩ := by rw [h1, onCache_of hc, h2]
      exact ⟨.error e, _, 1, h3⟩

/-- C89. A cache in front of another: a miss in `a` is looked up in `b` by the miss callback, which stores what it finds in
`a`. The access still reports a miss, but afterwards the key is the most recently used one in `a`, with the value it has in
`b`; room has been made for it as by `insert`; `b` keeps its entries; and no other cache has changed. -/
theorem C89_read_through (hC : Calm O) {a b : Nat} (hab : a ≠ b) (h : LProg O (readThrough a b) w own) (ha : own a = true)
    (hb : own b = true) {ca cb : Cache K V} (hca : w.caches[a]? = some (some ca)) (hcb : w.caches[b]? = some (some cb))
    {x n : Nat} {m : MapNode K V} (hx : ca.obs.missCbs = [x]) (hcap : ca.capacity = some n) (hn : 0 < n) (hs : ¬ Stored ca k)
    (hk : cb.kind = .basic) (hm : entryFor cb k = some m) (hop : op.Accesses k) :
    ∃ res w' ca' cb' y, LPerforms O (readThrough a b) a op w res w' ∧
      (res = .ok (.bool false) ∨ res = .ok (.pos none) ∨ res = .error .keyNotFound) ∧
      w'.caches = (w.caches.set b (some cb')).set a (some ca') ∧ Holds y k m.info.value ∧
      elements ca' = (elements ca).drop (count ca + 1 - n) ++ [y] ∧ (elements cb').Perm (elements cb) ∧
      cb'.last = some m.addr := by
  have hw := h.inv hC.noListFault
  obtain ⟨n, rfl⟩ := Nat.exists_eq_succ_of_ne_zero (Nat.ne_of_gt hn)
  have hl : Impl.onCache a (Impl.lastIs k) w = .ok false ⟨w.caches, (viewOf w a ca).g⟩ :=
    onCache_quiet hca (lastIs_absent hw ha hca hs _)
  have hw0 : WInv (⟨w.caches, (viewOf w a ca).g⟩ : World K V) own := hw.shared hC.noListFault rfl (Nat.le_refl _)
  rw [show count ca + 1 - n.succ = count ca - n by omega]
  obtain ⟨w', ca', cb', y, h1, h2⟩ := findL_load (busy := []) hC hab hw0 ha hb hca hcb hx hcap hs hk hm 0
  obtain ⟨w'', ca'', cb'', y', h1', h2'⟩ := findL_load (busy := []) hC hab hw ha hb hca hcb hx hcap hs hk hm 0
  rcases hop with rfl | rfl | rfl
  · refine ⟨.ok (.bool false), w', ca', cb', y, ⟨2, ?_⟩, .inl rfl, h2⟩
    refine bind_ok (a := false) ?_
    unfold Impl.containsL
    rw [bind_ok hl]
    exact bind_ok h1
  · exact ⟨.ok (.pos none), w'', ca'', cb'', y', ⟨2, bind_ok h1'⟩, .inr (.inl rfl), h2'⟩
  · refine ⟨.error .keyNotFound, w', ca', cb', y, ⟨2, ?_⟩, .inr (.inr rfl), h2⟩
    refine bind_throw ?_
    unfold Impl.lookupL
    rw [bind_ok hl]
    exact bind_ok h1

/-! ### Caches in a circle -/

/-- C89. If the first miss callback of each cache in `S` begins by accessing the key in a cache in `S`, and none of them
stores the key, accesses of the key never return. -/
theorem C89_circle_never_returns (hO : NoListFault O) (h : LProg O F w own) {S : Nat → Prop}
    (hS : ∀ i, S i → own i = true ∧ ∃ c cb rest j op next, w.caches[i]? = some (some c) ∧ ¬ Stored c k ∧
      c.obs.missCbs = cb :: rest ∧ F i (.miss cb k) = .call j op next ∧ S j ∧ op.Accesses k)
    (hi : S i) (hop : op.Accesses k) : LForever O F i op w := by
  intro d
  refine stepL_circle (S := S) (cs := w.caches) (fun i hi => ?_) d [] i op hi hop rfl
  obtain ⟨ho, c, cb, rest, j, op, next, hc, hs, hcb, hF, hj, hop⟩ := hS i hi
  obtain ⟨t, hr, ht⟩ := h.view hO ho hc
  refine ⟨c, cb, rest, j, op, next, hc, hcb, ?_, lastIs_absent (h.inv hO) ho hc hs, hF, hj, hop⟩
  refine (hr.rep.find_key hr.awf k).trans ?_
  rw [hr.not_stored.1 hs]
  rfl

/-! ### The hypotheses can be met -/

theorem Prog.layers {w : World K V} {own : Nat → Bool} (h : Prog O w own) : LProg O F w own := by
  induction h with
  | init => exact .init
  | step op _ hs ih => exact .step op ih hs
  | throw op _ hs ih => exact .throw op ih hs

/-- The world after a program (a default is used only if it went wrong). -/
def demoWorld (O : Oracle Nat Nat) (ops : List (WOp Nat Nat)) : World Nat Nat := (exec O ops Impl.initWorld).getD Impl.initWorld

theorem demoWorld_prog {O : Oracle Nat Nat} {ops : List (WOp Nat Nat)} (h : (exec O ops Impl.initWorld).isSome = true)
    (hok : ops.all (fun op => !op.copies) = true) : Prog O (demoWorld O ops) fun _ => true := by
  unfold demoWorld
  cases he : exec O ops Impl.initWorld with
  | none => rw [he] at h; cases h
  | some w =>
    refine (exec_reach (ok := fun op => op.copies = false) he ?_ .init).prog
    intro op hop
    have := List.all_eq_true.1 hok op hop
    simpa using this

/-- A small cache (0) with a miss callback, entries 2 and 1, and a large one (1) with entries 7, 8, 9. -/
def demoTiers : List (WOp Nat Nat) :=
  [.create .basic (.sizedItems 2 [(2, 20), (1, 10)]), .create .basic (.sizedItems 4 [(7, 70), (8, 80), (9, 90)]),
    .op 0 (.addMissCallback 0)]

theorem demoTiers_prog : Prog calmO (demoWorld calmO demoTiers) fun _ => true :=
  demoWorld_prog (by decide +kernel) rfl

/-- The entries of the caches. -/
def Out.shows {K V α : Type} (o : Out (World K V) α) : Option (List (Option (List (K × V)))) :=
  o.state.map fun w => w.caches.map fun c => c.map entries

example : LProg calmO (readThrough 0 1) (demoWorld calmO demoTiers) (fun _ => true) := demoTiers_prog.layers

/-- `lookup(8)` throws, and stores 8 in the small cache. -/
example : (Impl.stepL calmO (readThrough 0 1) 5 [] 0 (.lookup 8) (demoWorld calmO demoTiers)).err = some .keyNotFound ∧
    (Impl.stepL calmO (readThrough 0 1) 5 [] 0 (.lookup 8) (demoWorld calmO demoTiers)).shows =
      some [some [(1, 10), (8, 80)], some [(7, 70), (9, 90), (8, 80)]] :=
  ⟨by decide +kernel, by decide +kernel⟩

/-- A `Cache` rather than a `TimedCache`. -/
def Kind.isBasic : Kind → Bool
  | .basic => true
  | .timed .. => false

/-- The hypotheses of `C89_read_through`. -/
example : ∃ ca cb, (demoWorld calmO demoTiers).caches[0]? = some (some ca) ∧
    (demoWorld calmO demoTiers).caches[1]? = some (some cb) ∧ ca.obs.missCbs = [0] ∧ ca.capacity = some 2 ∧
    keys ca = [2, 1] ∧ cb.kind = .basic ∧ (entryFor cb 8).map (fun n => (n.key, n.info.value)) = some (8, 80) := by
  have h : ((demoWorld calmO demoTiers).caches.map fun c => c.map fun c => (c.obs.missCbs, c.capacity, keys c)) =
      [some ([0], some 2, [2, 1]), some ([], some 4, [7, 8, 9])] := by
    decide +kernel
  have h' : ((demoWorld calmO demoTiers).caches.map fun c => c.map fun c => (c.kind.isBasic,
      (entryFor c 8).map fun n => (n.key, n.info.value))) = [some (true, none), some (true, some (8, 80))] := by
    decide +kernel
  generalize hw : (demoWorld calmO demoTiers).caches = l at h h'
  rcases l with _ | ⟨_ | ca, _ | ⟨_ | cb, _ | _⟩⟩ <;> simp only [List.map_nil, List.map_cons, Option.map_some, Option.map_none,
    List.cons.injEq, Option.some.injEq, Prod.mk.injEq, reduceCtorEq, and_false, false_and] at h h'
  obtain ⟨⟨h1, h2, h3⟩, -⟩ := h
  obtain ⟨-, ⟨h4, h5⟩, -⟩ := h'
  refine ⟨ca, cb, rfl, rfl, h1, h2, h3, ?_, h5⟩
  cases hk : cb.kind with
  | basic => rfl
  | timed => rw [hk] at h4; cases h4

/-- The small cache is above the large one. -/
def demoRank : Nat → Nat
  | 0 => 1
  | _ => 0

/-- The two caches are in order: on a miss the small one changes itself and uses the large one. -/
example : Orderly (fun j => j < 2) demoRank (readThrough 0 1 : Nat → Event Nat Nat → WScript Nat Nat) ∧
    Tiered demoRank (readThrough 0 1 : Nat → Event Nat Nat → WScript Nat Nat) := by
  have h : ∀ (P : Nat → Op Nat Nat → Prop) (i : Nat) (e : Event Nat Nat),
      (i = 0 → ∀ k v, P 1 (.lookup k) ∧ P 0 (.insert k v)) → (readThrough 0 1 i e).Only P := by
    intro P i e hP
    rcases e with _ | ⟨_, k⟩ | _
    · trivial
    · show (if i = 0 then _ else _ : WScript Nat Nat).Only P
      split
      · next h0 =>
        refine ⟨(hP h0 k 0).1, fun r => ?_⟩
        rcases r with _ | r
        · trivial
        · cases r <;> first | trivial | exact ⟨(hP h0 k _).2, fun _ => trivial⟩
      · trivial
    · trivial
  refine ⟨fun i hi e => ⟨fun he => ?_, fun he => ?_⟩, fun i e => h _ i e ?_⟩
  · rcases e with _ | _ | _
    · trivial
    · exact he.elim
    · trivial
  · refine h _ i e ?_
    rintro rfl k v
    exact ⟨⟨rfl, .inr ⟨by decide, .inl (.inr ⟨k, .inr (.inr rfl)⟩)⟩⟩, rfl, .inl ⟨rfl, trivial⟩⟩
  · rintro rfl k v
    exact ⟨.inr (by decide), .inl rfl⟩

/-- On each event of the small cache the large one gets another hit callback, while the small one is going through its
own. -/
def registersBelow : Nat → Event Nat Nat → WScript Nat Nat
  | 0, _ => .call 1 (.addHitCallback 7) fun _ => .done
  | _, _ => .done

example : Orderly (fun j => j < 2) demoRank registersBelow := by
  have h : ∀ (P : Nat → Op Nat Nat → Prop) (i : Nat) (e : Event Nat Nat),
      (i = 0 → P 1 (.addHitCallback 7)) → (registersBelow i e).Only P := by
    intro P i e hP
    match i with
    | 0 => exact ⟨hP rfl, fun _ => trivial⟩
    | _ + 1 => trivial
  have hr : (Op.addHitCallback 7 : Op Nat Nat).Registers := ⟨.hit, rfl⟩
  exact fun i hi e => ⟨fun _ => h _ i e fun h0 => ⟨rfl, .inr ⟨by rw [h0]; decide, .inr hr⟩⟩,
    fun _ => h _ i e fun h0 => ⟨rfl, .inr ⟨by rw [h0]; decide, .inr hr⟩⟩⟩

/-- The caches of the demo can be used. -/
example : ∀ j, (fun j => decide (j < 2)) j = true → (fun _ => true) j = true ∧
    ∃ c, (demoWorld calmO demoTiers).caches[j]? = some (some c) ∧ c.capacity ≠ none := by
  have h : ((demoWorld calmO demoTiers).caches.map fun c => c.map fun c => c.capacity) = [some (some 2), some (some 4)] := by
    decide +kernel
  generalize hw : (demoWorld calmO demoTiers).caches = l at h
  rcases l with _ | ⟨_ | ca, _ | ⟨_ | cb, _ | _⟩⟩ <;> simp at h
  intro j hj
  have hj : j < 2 := by simpa using hj
  refine ⟨rfl, ?_⟩
  match j, hj with
  | 0, _ => exact ⟨ca, rfl, by rw [h.1]; simp⟩
  | 1, _ => exact ⟨cb, rfl, by rw [h.2]; simp⟩

/-- Layers for `C89_same_effect`: the callbacks of cache 0 look keys up in cache 1 and store keys there. -/
def writeBelow : Nat → Event Nat Nat → WScript Nat Nat
  | 0, .hit _ k v => .call 1 (.contains k) fun _ => .call 1 (.insert k v) fun _ => .done
  | 0, .miss _ k => .call 1 (.lookup k) fun _ => .done
  | _, _ => .done

example : Layered demoRank writeBelow := by
  intro i e
  match i, e with
  | 0, .hit .. => exact ⟨Nat.one_pos, fun _ => ⟨Nat.one_pos, fun _ => trivial⟩⟩
  | 0, .miss .. => exact ⟨Nat.one_pos, fun _ => trivial⟩
  | 0, .access .. => trivial
  | _ + 1, _ => trivial

/-- A callback of cache 0 that uses only cache 0, for `C89_one_cache`: the entries it inserts on a miss stay. -/
example : (Impl.stepL calmO (fun _ e => WScript.on 0 (loadOnMiss (fun k => k + 100) e)) 5 [] 0 (.find 8)
    (demoWorld calmO demoTiers)).shows = some [some [(1, 10), (8, 108)], some [(7, 70), (8, 80), (9, 90)]] := by
  decide +kernel

/-- Two caches, each with a miss callback and, for cache 0, a hit callback. -/
def demoCircle : List (WOp Nat Nat) := demoTiers ++ [.op 1 (.addMissCallback 1), .op 0 (.addHitCallback 2)]

theorem demoCircle_prog : Prog calmO (demoWorld calmO demoCircle) fun _ => true :=
  demoWorld_prog (by decide +kernel) rfl

/-- Each cache asks the other. -/
def askOther : Nat → Event Nat Nat → WScript Nat Nat
  | 0, .miss _ k => .call 1 (.contains k) fun _ => .done
  | 1, .miss _ k => .call 0 (.find k) fun _ => .done
  | _, _ => .done

/-- The hypotheses of `C89_circle_never_returns`: 5 is in neither cache. -/
example : ∀ i, (i = 0 ∨ i = 1) → (fun _ => true) i = true ∧ ∃ c cb rest j op next,
    (demoWorld calmO demoCircle).caches[i]? = some (some c) ∧ ¬ Stored c 5 ∧ c.obs.missCbs = cb :: rest ∧
    askOther i (.miss cb 5) = .call j op next ∧ (j = 0 ∨ j = 1) ∧ op.Accesses 5 := by
  have h : ((demoWorld calmO demoCircle).caches.map fun c => c.map fun c => (c.obs.missCbs, keys c)) =
      [some ([0], [2, 1]), some ([1], [7, 8, 9])] := by
    decide +kernel
  generalize hw : (demoWorld calmO demoCircle).caches = l at h
  rcases l with _ | ⟨_ | ca, _ | ⟨_ | cb, _ | _⟩⟩ <;> simp at h
  obtain ⟨⟨h1, h2⟩, h3, h4⟩ := h
  have key : ∀ (c : Cache Nat Nat) (l : List Nat), keys c = l → 5 ∉ l → ¬ Stored c 5 := by
    rintro c l rfl hl ⟨n, hn, hk⟩
    exact hl (List.mem_map.2 ⟨n, hn, eq_of_beq hk⟩)
  rintro i (rfl | rfl)
  · exact ⟨rfl, ca, 0, [], 1, _, _, rfl, key _ _ h2 (by decide), h1, rfl, .inr rfl, .inl rfl⟩
  · exact ⟨rfl, cb, 1, [], 0, _, _, rfl, key _ _ h4 (by decide), h3, rfl, .inl rfl, .inr (.inl rfl)⟩

/-! ### What is false of the code -/

/-- Cache 0 asks cache 1 for the key it has found; cache 1 tells cache 0 to erase what it misses. -/
def eraseAbove : Nat → Event Nat Nat → WScript Nat Nat
  | 0, .hit _ k _ => .call 1 (.contains k) fun _ => .done
  | 1, .miss _ k => .call 0 (.erase k) fun _ => .done
  | _, _ => .done

/-- C89 fails: callbacks that leave their own cache alone are not harmless. The hit callback of one cache uses another,
whose miss callback erases the key in the first while `find` is still holding an iterator to it. -/
theorem C89_refuted :
    ¬ ∀ (O : Oracle Nat Nat) (F : Nat → Event Nat Nat → WScript Nat Nat) (w : World Nat Nat) (i : Nat) (c : Cache Nat Nat)
      (op : Op Nat Nat), Calm O → Steady O → Prog O w (fun _ => true) → w.caches[i]? = some (some c) → Safe c op →
      (∀ i e, (F i e).Only fun j op => j ≠ i ∧ op.Plain) → ¬ LUndefined O F i op w := by
  intro h
  have hc : ∃ c, (demoWorld calmO demoCircle).caches[0]? = some (some c) := by
    have h : ((demoWorld calmO demoCircle).caches[0]?).map Option.isSome = some true := by decide +kernel
    rcases hc : (demoWorld calmO demoCircle).caches[0]? with _ | _ | c
    · rw [hc] at h; cases h
    · rw [hc] at h; cases h
    · exact ⟨c, rfl⟩
  obtain ⟨c, hc⟩ := hc
  refine h calmO eraseAbove _ 0 c (.find 2) calmO_calm calmO_steady demoCircle_prog hc trivial ?_
    ⟨5, Out.isUb_iff.1 (by decide +kernel)⟩
  intro i e
  match i, e with
  | 0, .hit .. => exact ⟨⟨by decide, .inr ⟨_, .inl rfl⟩⟩, fun _ => trivial⟩
  | 0, .miss .. => trivial
  | 0, .access .. => trivial
  | 1, .hit .. => trivial
  | 1, .miss .. => exact ⟨⟨by decide, .inl trivial⟩, fun _ => trivial⟩
  | 1, .access .. => trivial
  | _ + 2, _ => trivial

end LRU
