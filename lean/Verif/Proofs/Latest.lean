import Verif.Proofs.Outcomes
import Verif.Proofs.Mru
import Verif.Proofs.Ranges
import Verif.Proofs.ReenterCalls
import Verif.Spec.TimedMachine
/-!
# The key found or stored last

Which key `_last_accessed` refers to after a call.
-/

set_option linter.unusedSectionVars false
set_option autoImplicit false

namespace LRU

variable {K V : Type} [KeyEqual K] {α β : Type} {t t' : St (MCache K V) K V}

/-- The key of the entry `_last_accessed` refers to. -/
def MCache.lastKey (a : MCache K V) : Option K := a.lastEnt.map (·.key)

/-- The key as it is stored. -/
def MCache.keyFor (a : MCache K V) (k : K) : Option K := (a.ents.find? (fun x => keq x.key k)).map (·.key)

/-- `_last_accessed` refers to the given key, or else to the key it referred to before, unless that is not stored any more. -/
def Recalls (k? : Option K) (t t' : St (MCache K V) K V) : Prop := t'.c.lastKey = (k?.or t.c.lastKey).bind t'.c.keyFor

theorem Ok.keyFor (h : Ok t) {e : Ent K V} (he : e ∈ t.c.ents) {k : K} (hk : keq e.key k = true) : t.c.keyFor k = some e.key := by
  unfold MCache.keyFor
  rw [h.findKey he hk]
  rfl

theorem Recalls.set (h : Ok t') {e : Ent K V} (he : e ∈ t'.c.ents) (hl : t'.c.last = some e.id) {k : K} (hk : keq e.key k = true) :
    Recalls (some k) t t' := by
  unfold Recalls MCache.lastKey MCache.lastEnt
  rw [hl, Option.bind_some, h.findId he, Option.some_or, Option.bind_some, h.keyFor he hk]
  rfl

theorem lastKey_keyFor (h : Ok t) : t.c.lastKey.bind t.c.keyFor = t.c.lastKey := by
  unfold MCache.lastKey
  cases hl : t.c.lastEnt with
  | none => rfl
  | some e => exact h.keyFor (lastEnt_mem hl).1 (KeyEqual.refl _)

theorem Recalls.same (h : Ok t) (hc : t'.c = t.c) : Recalls none t t' := by
  unfold Recalls
  rw [hc, Option.none_or, lastKey_keyFor h]

theorem Recalls.prune (h : Ok t) {l : List (Ent K V)} (hl : l.Sublist t.c.ents) (he : t'.c.ents = l)
    (hla : t'.c.last = (t.c.prune l).last) : Recalls none t t' := by
  have hp := h.prune hl
  have e1 : t'.c.lastKey = (t.c.prune l).lastKey := by
    unfold MCache.lastKey MCache.lastEnt
    rw [hla, he]
    rfl
  have e2 : t'.c.keyFor = (t.c.prune l).keyFor := by
    funext k
    unfold MCache.keyFor
    rw [he]
    rfl
  unfold Recalls
  rw [e1, e2, Option.none_or]
  unfold MCache.lastKey
  cases hle : t.c.lastEnt with
  | none =>
    have : t.c.last = none := by
      cases hx : t.c.last with
      | none => rfl
      | some p =>
        obtain ⟨e, -, -, h3⟩ := h.lastEnt hx
        rw [hle] at h3
        cases h3
    unfold MCache.lastEnt MCache.prune
    rw [this]
    rfl
  | some e =>
    obtain ⟨hm, hlast⟩ := lastEnt_mem hle
    show _ = (t.c.prune l).keyFor e.key
    by_cases hel : e ∈ l
    · rw [hp.keyFor (e := e) hel (KeyEqual.refl _)]
      unfold MCache.lastEnt
      have : (t.c.prune l).last = some e.id := by
        unfold MCache.prune
        rw [hlast]
        simp only [Option.filter_eq_some_iff, true_and]
        exact List.any_eq_true.2 ⟨e, hel, by simp⟩
      rw [this, Option.bind_some, hp.findId (e := e) hel]
      rfl
    · have h1 : (t.c.prune l).keyFor e.key = none := by
        unfold MCache.keyFor
        rw [Option.map_eq_none_iff, List.find?_eq_none]
        intro x hx hk
        have hx : x ∈ l := hx
        have := h.findKey (hl.subset hx) hk
        rw [h.findKey hm (KeyEqual.refl _)] at this
        injection this with this
        exact hel (this ▸ hx)
      have h2 : (t.c.prune l).last = none := by
        unfold MCache.prune
        rw [hlast]
        simp only [Option.filter_eq_none_iff, Option.some.injEq]
        rintro _ rfl hx
        obtain ⟨x, hx, hid⟩ := List.any_eq_true.1 hx
        have hid : x.id = e.id := by simpa using hid
        have := h.findId (hl.subset hx)
        rw [hid, h.findId hm] at this
        injection this with this
        exact hel (this ▸ hx)
      rw [h1]
      unfold MCache.lastEnt
      rw [h2]
      rfl

variable [DecidableEq K] [DecidableEq V] {O : Oracle K V}

theorem InsertOut.recalls {k : K} {v : V} {r : Bool × Option Ptr} (h : Ok t) (h' : Ok t')
    (ho : InsertOut O k v t (.ok r t')) : Recalls (some k) t t' := by
  cases ho with
  | zero hc =>
    have he : t.c.ents = [] := by
      have := h.awf.bound 0 hc
      exact List.length_eq_zero_iff.1 (by omega)
    unfold Recalls MCache.lastKey MCache.lastEnt MCache.keyFor
    rw [he]
    cases t.c.last <;> rfl
  | full => exact .set h' (e := ⟨_, _, _, _, _, _⟩) (List.mem_append_right _ (List.mem_singleton.2 rfl)) rfl (KeyEqual.refl _)
  | room => exact .set h' (e := ⟨_, _, _, _, _, _⟩) (List.mem_append_right _ (List.mem_singleton.2 rfl)) rfl (KeyEqual.refl _)
  | update g' e n hf =>
    exact .set h' (e := { e with val := v }) (List.mem_append_right _ (List.mem_singleton.2 rfl)) rfl (find_mem hf).2

theorem Mid_insert_recalls (hO : NoListFault O) (h : Ok t) {k : K} {v : V} {r : Bool × Option Ptr}
    (hd : Mid.insert O k v t = .ok r t') : Ok t' ∧ Recalls (some k) t t' := by
  have h1 := insert_keeps hO (k := k) (v := v) t h
  have h2 := insert_out h hO k v
  rw [hd] at h1 h2
  have h1 : Step t t' := h1
  exact ⟨h1.ok, h2.recalls h h1.ok⟩

theorem Mid_emplace_recalls (hO : NoListFault O) (h : Ok t) {k : K} {v : V} {r : Bool × Option Ptr}
    (hd : Mid.emplace O k v t = .ok r t') : Ok t' ∧ Recalls (some k) t t' := by
  have h1 := emplace_keeps hO (k := k) (v := v) t h
  have h2 := emplace_out h hO k v
  rw [hd] at h1 h2
  have h1 : Step t t' := h1
  exact ⟨h1.ok, h2.recalls h h1.ok⟩

theorem Recalls.cons {x : K × V} {l : List (K × V)} {t1 : St (MCache K V) K V} (h1 : Recalls (some x.1) t t1)
    (h2 : Recalls (l.getLast?.map (·.1)) t1 t') (hn : l = [] → t' = t1) : Recalls ((x :: l).getLast?.map (·.1)) t t' := by
  cases l with
  | nil =>
    rw [hn rfl]
    exact h1
  | cons y l =>
    rw [List.getLast?_cons_cons]
    unfold Recalls at h2 ⊢
    rw [h2]
    have : ∃ z, (y :: l).getLast? = some z := ⟨_, List.getLast?_eq_some_getLast (by simp)⟩
    obtain ⟨z, hz⟩ := this
    rw [hz]
    rfl

theorem insertRange_recalls (hO : NoListFault O) (h : Ok t) (l : List (K × V)) {n : Nat}
    (hd : Mid.insertRange O l t = .ok n t') : Ok t' ∧ Recalls (l.getLast?.map (·.1)) t t' := by
  induction l generalizing t n with
  | nil =>
    cases hd
    exact ⟨h, .same h rfl⟩
  | cons x l ih =>
    obtain ⟨k, v⟩ := x
    obtain ⟨r, t1, h1, h2⟩ := bind_ok_inv hd
    obtain ⟨m, t2, h3, h4⟩ := bind_ok_inv h2
    cases h4
    obtain ⟨h5, h6⟩ := Mid_insert_recalls hO h h1
    obtain ⟨h7, h8⟩ := ih h5 h3
    exact ⟨h7, .cons (x := (k, v)) h6 h8 (fun hl => by subst hl; cases h3; rfl)⟩

theorem insertRangeMove_recalls (hO : NoListFault O) (h : Ok t) (l : List (K × V)) {n : Nat}
    (hd : Mid.insertRangeMove O l t = .ok n t') : Ok t' ∧ Recalls (l.getLast?.map (·.1)) t t' := by
  induction l generalizing t n with
  | nil =>
    cases hd
    exact ⟨h, .same h rfl⟩
  | cons x l ih =>
    obtain ⟨k, v⟩ := x
    obtain ⟨r, t1, h1, h2⟩ := bind_ok_inv hd
    obtain ⟨m, t2, h3, h4⟩ := bind_ok_inv h2
    cases h4
    obtain ⟨h5, h6⟩ := Mid_emplace_recalls hO h h1
    obtain ⟨h7, h8⟩ := ih h5 h3
    exact ⟨h7, .cons (x := (k, v)) h6 h8 (fun hl => by subst hl; cases h3; rfl)⟩

theorem Recalls.emptied {l : List (K × V)} {t1 : St (MCache K V) K V} (h1 : t1.c.last = none) (he : t1.c.ents = [])
    (h2 : Recalls (l.getLast?.map (·.1)) t1 t') (hn : l = [] → t' = t1) : Recalls (l.getLast?.map (·.1)) t t' := by
  have hk : t1.c.lastKey = none := by
    unfold MCache.lastKey MCache.lastEnt
    rw [h1]
    rfl
  unfold Recalls at h2 ⊢
  rw [hk] at h2
  rw [h2]
  cases hg : l.getLast? with
  | some z => rfl
  | none =>
    have hl : l = [] := List.getLast?_eq_none_iff.1 hg
    have := hn hl
    subst this
    show none = Option.bind (t.c.lastKey) _
    cases t.c.lastKey with
    | none => rfl
    | some k =>
      show none = t'.c.keyFor k
      unfold MCache.keyFor
      rw [he]
      rfl

theorem clearAndIncreaseCapacity_empties (h : Ok t) {n : Nat} {u : Unit} (hd : Mid.clearAndIncreaseCapacity n t = .ok u t') :
    Ok t' ∧ t'.c.last = none ∧ t'.c.ents = [] := by
  have hk := clearAndIncreaseCapacity_keeps (n := n) t h
  rw [hd] at hk
  refine ⟨hk.ok, ?_⟩
  obtain ⟨u, t1, h1, h2⟩ := bind_ok_inv hd
  cases h1
  obtain ⟨m, t2, h3, h4⟩ := bind_ok_inv h2
  have h5 : t2.c.last = none ∧ t2.c.ents = [] := by
    unfold Mid.readCapacity at h3
    split at h3
    · cases h3; exact ⟨rfl, rfl⟩
    · cases h3
  split at h4
  · cases h4; exact h5
  · cases h4; exact h5

/-- The key a call other than an access stores. -/
def Op.storesLast : Op K V → Option K
  | .insert k _ | .emplace k _ => some k
  | .insertRange l | .insertRangeMove l | .assignRange l | .assignRangeMove l => l.getLast?.map (·.1)
  | _ => none

theorem ReadOnly.recalls {m : Mid.CM K V α} (h : ReadOnly m) (ht : Ok t) : (m t).Post (Recalls none t) := by
  have h1 := h t
  cases hm : m t <;> rw [hm] at h1 <;> first | trivial | exact .same ht h1.1

/-- What `_last_accessed` refers to after a call that is not an access. -/
theorem step_recalls (hO : NoListFault O) {op : Op K V} (hop : op.byKey = true ∨ op.byKeyTimed = true) (ha : op.accessed = none)
    (h : Ok t) {r : Res K V} (hd : Mid.step O op t = .ok r t') : Recalls op.storesLast t t' := by
  have ro : ∀ {m : Mid.CM K V (Res K V)}, ReadOnly m → m t = .ok r t' → Recalls none t t' := by
    intro m h1 h2
    have := h1.recalls h
    rw [h2] at this
    exact this
  cases op <;> first
    | (exfalso; rcases hop with hop | hop <;> cases hop; done)
    | (cases ha; done)
    | skip
  case insert k v =>
    obtain ⟨x, h1, -⟩ := ret_ok_iff.1 hd
    exact (Mid_insert_recalls hO h h1).2
  case emplace k v =>
    obtain ⟨x, h1, -⟩ := ret_ok_iff.1 hd
    exact (Mid_emplace_recalls hO h h1).2
  case insertRange l =>
    obtain ⟨x, h1, -⟩ := ret_ok_iff.1 hd
    exact (insertRange_recalls hO h l h1).2
  case insertRangeMove l =>
    obtain ⟨x, h1, -⟩ := ret_ok_iff.1 hd
    exact (insertRangeMove_recalls hO h l h1).2
  case assignRange l =>
    obtain ⟨x, h1, -⟩ := ret_ok_iff.1 hd
    obtain ⟨u, t1, h2, h3⟩ := bind_ok_inv h1
    obtain ⟨n, t2, h4, h5⟩ := bind_ok_inv h3
    cases h5
    obtain ⟨h6, h7, h8⟩ := clearAndIncreaseCapacity_empties h h2
    exact .emptied h7 h8 (insertRange_recalls hO h6 l h4).2 (fun hl => by subst hl; cases h4; rfl)
  case assignRangeMove l =>
    obtain ⟨x, h1, -⟩ := ret_ok_iff.1 hd
    obtain ⟨u, t1, h2, h3⟩ := bind_ok_inv h1
    obtain ⟨n, t2, h4, h5⟩ := bind_ok_inv h3
    cases h5
    obtain ⟨h6, h7, h8⟩ := clearAndIncreaseCapacity_empties h h2
    exact .emptied h7 h8 (insertRangeMove_recalls hO h6 l h4).2 (fun hl => by subst hl; cases h4; rfl)
  case erase k =>
    obtain ⟨x, h1, -⟩ := ret_ok_iff.1 hd
    rw [erase_eq h] at h1
    split at h1
    · cases h1
      exact .prune h (without_sublist _ _) rfl rfl
    · cases h1
      exact .same h rfl
  case clear =>
    obtain ⟨x, h1, -⟩ := ret_ok_iff.1 hd
    rw [clear_eq] at h1
    cases h1
    exact .prune h (List.nil_sublist _) rfl rfl
  case shrink m =>
    obtain ⟨x, h1, -⟩ := ret_ok_iff.1 hd
    rw [shrink_eq h] at h1
    cases h1
    exact .prune h (List.drop_sublist _ _) rfl rfl
  case setCapacity m =>
    obtain ⟨x, h1, -⟩ := ret_ok_iff.1 hd
    rw [setCapacity_eq h] at h1
    cases h1
    exact .prune h (List.drop_sublist _ _) rfl rfl
  case clearExpired =>
    obtain ⟨x, h1, -⟩ := ret_ok_iff.1 hd
    obtain ⟨m, -, -, -, h2⟩ := clearExpired_eq (O := O) h
    rw [h2] at h1
    cases h1
    exact .prune h (List.drop_sublist _ _) rfl rfl
  case size => exact ro size_ro.ret hd
  case capacity => exact ro readCapacity_ro.ret hd
  case spaceLeft => exact ro spaceLeft_ro.ret hd
  case isEmpty => exact ro isEmpty_ro.ret hd
  case isFull => exact ro isFull_ro.ret hd
  case front => exact ro front_ro.ret hd
  case back => exact ro back_ro.ret hd
  case allExpired => exact ro allExpired_ro.ret hd
  case hasExpired k => exact ro hasExpired_ro.ret hd

end LRU
