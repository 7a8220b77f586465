import Verif.Spec.ManyTimed
import Verif.Proofs.Many
import Verif.Proofs.TimedMachine
/-!
# Several caches of both classes: lemmas for `Props.ManyTimed`
-/

set_option linter.unusedSectionVars false
set_option autoImplicit false

namespace LRU

variable {K V : Type} [KeyEqual K] [DecidableEq K] [DecidableEq V] {O : Oracle K V} {s s' : St (Cache K V) K V}
  {op : Op K V} {w w' : World K V} {wop : WOp K V} {i j : Nat} {c : Cache K V} {ttl : Int} {res : Nat} {now : Int}
  {types types' : List CacheType}

/-! ### Calls on a timed cache without capacity -/

theorem call_answers_unset (hC : Calm O) (h : Reachable O s) (hk : s.c.kind = .timed ttl res) (hc : s.c.capacity = none)
    (hop : op.byKeyTimed = true) (hn : op.needsCapacity = false) (hp : PacedCall O now op s) :
    AnswersAt O ⟨ttl, res⟩ now op s := by
  have hO := hC.noListFault
  have he := unset_elements h hc
  have hi : (asTimed s.c).items = [] := by unfold asTimed; rw [he]; rfl
  have hcount : count s.c = 0 := by unfold count; rw [he]; rfl
  obtain ⟨t, hr, ht⟩ := h.rel hO
  have hents : t.c.ents = [] := by
    have := hr.elements
    rw [he] at this
    exact List.map_eq_nil_iff.1 this.symm
  have hl : s.c.map.length = 0 := by rw [hr.map_length, ← hr.count, count, he]; rfl
  have hsize : Impl.size s = .ok 0 s := by
    show Out.ok s.c.map.length s = _
    rw [hl]
  cases op <;> first | (cases hop; done) | (cases hn; done) | skip
  case contains k => exact access_answers_at hC h hk (.inl rfl) hp
  case find k => exact access_answers_at hC h hk (.inr (.inl rfl)) hp
  case lookup k => exact access_answers_at hC h hk (.inr (.inr rfl)) hp
  case insertRange l =>
    cases l with
    | nil => exact .returns (r := .nat 0) rfl rfl rfl
    | cons => cases hn
  case insertRangeMove l =>
    cases l with
    | nil => exact .returns (r := .nat 0) rfl rfl rfl
    | cons => cases hn
  case erase k =>
    obtain ⟨b, s', hd, h1, h2, _, h3⟩ := C09_erase_key hO h k
    refine .returns hd ?_ ?_
    · show some (Ans.bool b) = some (Ans.bool (Lru.item (asTimed s.c) k).isSome)
      rw [asTimed_item]
      congr 2
      rw [Bool.eq_iff_iff, h1]
      unfold Stored entryFor
      rw [Option.isSome_map, List.find?_isSome]
    · show _ = ({ asTimed s.c with items := Lru.others (asTimed s.c) k } : TLru K V)
      rw [asTimed_others]
      unfold asTimed
      rw [h2, h3.capacity]
  case clear =>
    have hd : Returns O .clear s .unit ⟨⟨[], [], none, s.c.capacity, s.c.kind, s.c.obs⟩, s.g⟩ := rfl
    exact .returns hd rfl rfl
  case shrink m =>
    obtain ⟨s', hd, h1, _, h2⟩ := C11_shrink_keeps_most_recent hO h m
    refine .returns hd rfl ?_
    show _ = ({ asTimed s.c with items := (asTimed s.c).items.drop ((asTimed s.c).items.length - m) } : TLru K V)
    rw [asTimed_length]
    unfold asTimed
    rw [h1, h2.capacity, List.map_drop]
  case setCapacity m =>
    obtain ⟨s', hd, h1, h2, _⟩ := C12_capacity_keeps_most_recent hO h m
    refine .returns hd rfl ?_
    show _ = (⟨some m, (asTimed s.c).items.drop ((asTimed s.c).items.length - m)⟩ : TLru K V)
    rw [asTimed_length]
    unfold asTimed
    rw [h1, h2, List.map_drop]
  case size => exact .returns (bind_ok hsize) (by simp [Res.ans, TLru.reply, hi]) rfl
  case isEmpty =>
    refine .returns (s' := s) (r := .bool true) (bind_ok (a := true) ?_) (by simp [Res.ans, TLru.reply, hi]) rfl
    unfold Impl.isEmpty
    rw [bind_ok hsize]
    rfl
  case hasExpired k =>
    have h1 := hasExpired_eq (O := O) (t := t) k
    rw [hents] at h1
    obtain ⟨s', hd, hr'⟩ := hr.back_ok (op := .hasExpired k) hO (bind_ok h1)
    refine .returns hd ?_ (by rw [hr'.tlru, hr.tlru]; rfl)
    simp [Res.ans, TLru.reply, Lru.item, hi]
  case allExpired =>
    have h1 := allExpired_eq (O := O) ht
    rw [hents] at h1
    obtain ⟨s', hd, hr'⟩ := hr.back_ok (op := .allExpired) hO (bind_ok h1)
    refine .returns hd ?_ (by rw [hr'.tlru, hr.tlru]; rfl)
    simp [Res.ans, TLru.reply, hi]
  case clearExpired =>
    obtain ⟨m, s', hd, h1, h2, _, _, _, h6, _⟩ := C43_clear_expired_removes_only_expired hO h hk
    have hm : m = 0 := by omega
    subst hm
    refine .returns hd (by simp [Res.ans, TLru.reply, hi]) ?_
    simp only [TLru.reply, hi, List.dropWhile_nil]
    unfold asTimed
    rw [h2, h6, he]
    rfl

/-! ### The caches as a library -/

theorem library_some (h : w.caches[i]? = some (some c)) : w.library.book i = some (asBook c) := by
  unfold Library.book World.library
  rw [List.getElem?_map, h]
  rfl

theorem library_none (h : ∀ c, w.caches[i]? ≠ some (some c)) : w.library.book i = none := by
  unfold Library.book World.library
  rw [List.getElem?_map]
  cases hc : w.caches[i]? with
  | none => rfl
  | some x =>
    cases x with
    | none => rfl
    | some c => exact absurd hc (h c)

theorem library_set (w : World K V) (i : Nat) (x : Option (Cache K V)) (g : Shared K V) :
    (⟨w.caches.set i x, g⟩ : World K V).library = w.library.set i (x.map asBook) := by
  unfold World.library
  rw [List.map_set]

theorem library_push (w : World K V) (c : Cache K V) (g : Shared K V) :
    (⟨w.caches ++ [some c], g⟩ : World K V).library = w.library ++ [some (asBook c)] := by
  unfold World.library
  rw [List.map_append]
  rfl

theorem library_getElem (h : w.caches[i]? = some (some c)) : w.library[i]? = some (some (asBook c)) := by
  unfold World.library
  rw [List.getElem?_map, h]
  rfl

theorem HasTypes_set (h : w.HasTypes types) {x : Option (Cache K V)}
    (hx : ∀ c, x = some c → types[i]? = some c.kind.type) (g : Shared K V) :
    (⟨w.caches.set i x, g⟩ : World K V).HasTypes types := by
  refine ⟨h.length.trans (by simp), fun j c hj => ?_⟩
  by_cases hij : i = j
  · subst hij
    have hlt : i < w.caches.length := by
      have := (List.getElem?_eq_some_iff.1 hj).1
      simpa using this
    rw [show (⟨w.caches.set i x, g⟩ : World K V).caches[i]? = some x by simp [hlt]] at hj
    injection hj with hj
    exact hx c hj
  · rw [show (⟨w.caches.set i x, g⟩ : World K V).caches[j]? = w.caches[j]? by simp [hij]] at hj
    exact h.type j c hj

theorem HasTypes_push (h : w.HasTypes types) {c : Cache K V} {t : CacheType} (hc : c.kind.type = t) (g : Shared K V) :
    (⟨w.caches ++ [some c], g⟩ : World K V).HasTypes (types ++ [t]) := by
  refine ⟨by simp [h.length], fun j d hj => ?_⟩
  have hj : (w.caches ++ [some c])[j]? = some (some d) := hj
  by_cases hl : j < w.caches.length
  · rw [List.getElem?_append_left hl] at hj
    rw [List.getElem?_append_left (by rw [h.length]; exact hl)]
    exact h.type j d hj
  · rw [List.getElem?_append_right (by omega)] at hj
    rw [List.getElem?_append_right (by rw [h.length]; omega), h.length]
    cases hm : j - w.caches.length with
    | zero =>
      rw [hm] at hj
      injection hj with hj
      injection hj with hj
      rw [← hj, hc]
      rfl
    | succ n =>
      rw [hm] at hj
      cases hj

/-! ### Steps -/

/-- The step tells what the textbook says, and leaves the textbook's maps behind. -/
def StepAt (O : Oracle K V) (types' : List CacheType) (now : Int) (wop : WOp K V) (w : World K V) : Prop :=
  match w.library.reply now wop with
  | none => Impl.wstep O wop w = .ub
  | some (a, lib) =>
    wop.toldTimed (Impl.wstep O wop w) = .says a ∧
    match Impl.wstep O wop w with
    | .ok _ w' | .throw _ w' => w'.library = lib ∧ w'.HasTypes types' ∧ a ≠ .terminated
    | .terminate => a = .terminated
    | .ub | .diverge => False

theorem StepAt.done {r : Res K V} {a : Ans K V} {lib : Library K V} (hop : ∀ i o, wop ≠ .op i o)
    (h1 : w.library.reply now wop = some (a, lib)) (h2 : Impl.wstep O wop w = .ok r w')
    (h3 : (r = .unit ∧ a = .unit) ∨ ∃ b, r = .bool b ∧ a = .bool b) (h4 : w'.library = lib) (h5 : w'.HasTypes types') :
    StepAt O types' now wop w := by
  unfold StepAt
  rw [h1, h2]
  refine ⟨told_plain hop h3, h4, h5, ?_⟩
  rcases h3 with ⟨_, rfl⟩ | ⟨_, _, rfl⟩ <;> exact fun h => by cases h

theorem StepAt.undefined (h1 : w.library.reply now wop = none) (h2 : Impl.wstep O wop w = .ub) : StepAt O types' now wop w := by
  unfold StepAt
  rw [h1]
  exact h2

theorem two_books {α : Type} (f : Book K V → Book K V → α)
    (h : (∀ c, w.caches[i]? ≠ some (some c)) ∨ ∀ c, w.caches[j]? ≠ some (some c)) :
    ((w.library.book i).bind fun a => (w.library.book j).map fun b => f a b) = none := by
  rcases exists_or_not w i with ⟨a, ha⟩ | hn
  · rcases h with h | h
    · exact absurd ha (h a)
    · rw [library_some ha, library_none h]; rfl
  · rw [library_none hn]; rfl

theorem type_sameType {a b : Kind} (h : a.type = b.type) : Impl.sameType a b = true := by
  cases a <;> cases b <;> first | rfl | (cases h; done) | skip
  injection h with h
  subst h
  exact beq_self_eq_true _

theorem type_sameBase {a b : Kind} (h : a.type.sameBase b.type = true) : Impl.sameBase a b = true := by
  cases a <;> cases b <;> first | rfl | cases h

theorem sameBase_type {t t' : CacheType} (h : t = t') : t.sameBase t' = true := by
  subst h
  cases t <;> rfl

theorem typeBase_comm {t t' : CacheType} (h : t.sameBase t' = true) : t'.sameBase t = true := by
  cases t <;> cases t' <;> first | rfl | cases h

theorem asBook_under {a b : Cache K V} (h : a.kind.type.sameBase b.kind.type = true) :
    asBook { a with obs := b.obs, kind := b.kind } = (asBook a).under (asBook b) := by
  unfold asBook
  cases ha : a.kind <;> cases hb : b.kind <;> rw [ha, hb] at h <;> first | rfl | cases h

theorem exchange_at {a b : Cache K V} (hT : w.HasTypes types) (ha : w.caches[i]? = some (some a))
    (hb : w.caches[j]? = some (some b)) (ht : a.kind.type = b.kind.type) :
    StepAt O types now (.swap i j) w ∧ StepAt O types now (.moveAssign i j) w := by
  have hst := type_sameType ht
  have e1 : w.library.reply now (.swap i j) = some (.unit, (w.library.set i (some (asBook b))).set j (some (asBook a))) := by
    show ((w.library.book i).bind fun a => _) = _
    rw [library_some ha, library_some hb]; rfl
  have e2 : w.library.reply now (.moveAssign i j) =
      some (.unit, (w.library.set i (some (asBook b))).set j (some ((asBook a).under (asBook b)))) := by
    show ((w.library.book i).bind fun a => _) = _
    rw [library_some ha, library_some hb]; rfl
  by_cases hij : i = j
  · subst hij
    rw [ha] at hb
    injection hb with hb
    injection hb with hb
    subst hb
    have hu : (asBook a).under (asBook a) = asBook a := by
      cases hx : asBook a <;> rfl
    rw [hu] at e2
    have hs : Impl.wstep O (.moveAssign i i) w = .ok .unit w := by
      show Impl.ret (Impl.moveAssign i i) _ w = _
      unfold Impl.moveAssign
      refine ret_ok (a := ()) ?_
      rw [bind_ok (getCache_some ha), bind_ok (getCache_some ha), if_pos (by simp)]
      rfl
    constructor
    · refine .done (by intro i o h; cases h) e1 (C25_self_swap ha) (.inl ⟨rfl, rfl⟩) ?_ hT
      rw [List.set_set, set_get_self (library_getElem ha)]
    · refine .done (by intro i o h; cases h) e2 hs (.inl ⟨rfl, rfl⟩) ?_ hT
      rw [List.set_set, set_get_self (library_getElem ha)]
  · have hfin : ∀ b' a' : Cache K V, b'.kind = b.kind → a'.kind.type = a.kind.type →
        (⟨(w.caches.set i (some b')).set j (some a'), w.g⟩ : World K V).HasTypes types := by
      intro b' a' h3 h4
      refine HasTypes_set (w := ⟨w.caches.set i (some b'), w.g⟩) (HasTypes_set hT (fun c hc => ?_) _) (fun c hc => ?_) _
      · injection hc with hc
        rw [← hc, h3, ← ht]
        exact hT.type i a ha
      · injection hc with hc
        rw [← hc, h4, ht]
        exact hT.type j b hb
    constructor
    · refine .done (by intro i o h; cases h) e1 (swap_eq ha hb hij hst) (.inl ⟨rfl, rfl⟩) ?_ (hfin _ _ rfl rfl)
      unfold World.library
      rw [List.map_set, List.map_set]
      rfl
    · refine .done (by intro i o h; cases h) e2 (moveAssign_eq ha hb hij hst) (.inl ⟨rfl, rfl⟩) ?_ (hfin _ _ rfl ht.symm)
      unfold World.library
      rw [List.map_set, List.map_set, ← asBook_under (sameBase_type ht)]
      rfl

theorem baseExchange_at {a b : Cache K V} (hT : w.HasTypes types) (ha : w.caches[i]? = some (some a))
    (hb : w.caches[j]? = some (some b)) (ht : a.kind.type.sameBase b.kind.type = true) :
    StepAt O types now (.swapBase i j) w := by
  have e1 : w.library.reply now (.swapBase i j) = some (.unit, (w.library.set i (some ((asBook b).under (asBook a)))).set j
      (some ((asBook a).under (asBook b)))) := by
    show ((w.library.book i).bind fun a => _) = _
    rw [library_some ha, library_some hb]; rfl
  by_cases hij : i = j
  · subst hij
    rw [ha] at hb
    injection hb with hb
    injection hb with hb
    subst hb
    have hu : (asBook a).under (asBook a) = asBook a := by
      cases hx : asBook a <;> rfl
    rw [hu] at e1
    refine .done (by intro i o h; cases h) e1 (baseSwap_self ha) (.inl ⟨rfl, rfl⟩) ?_ hT
    rw [List.set_set, set_get_self (library_getElem ha)]
  · refine .done (by intro i o h; cases h) e1 (baseSwap_eq ha hb hij (type_sameBase ht)) (.inl ⟨rfl, rfl⟩) ?_ ?_
    · unfold World.library
      rw [List.map_set, List.map_set, ← asBook_under ht, ← asBook_under (typeBase_comm ht)]
      rfl
    · refine HasTypes_set (w := ⟨w.caches.set i _, w.g⟩) (HasTypes_set hT (fun c hc => ?_) _) (fun c hc => ?_) _
      · injection hc with hc
        rw [← hc]
        exact hT.type i a ha
      · injection hc with hc
        rw [← hc]
        exact hT.type j b hb

theorem asBook_hollow (c : Cache K V) :
    asBook { c with map := [], order := [], last := none, capacity := none } = (asBook c).hollow := by
  unfold asBook
  cases h : c.kind <;> rfl

theorem kind_type_plain {k : Kind} (h : k.type = .plain) : k = .basic := by
  cases k with
  | basic => rfl
  | timed => cases h

theorem kind_type_timed {k : Kind} {n : Nat} (h : k.type = .timed n) : ∃ ttl, k = .timed ttl n := by
  cases k with
  | basic => cases h
  | timed ttl m => injection h with h; subst h; exact ⟨ttl, rfl⟩

theorem asBook_capacity (c : Cache K V) : (asBook c).capacity = c.capacity := by
  unfold asBook
  cases c.kind <;> rfl

/-- The call answers like the textbook, and leaves the textbook's map behind. -/
def CallAt (O : Oracle K V) (now : Int) (o : Op K V) (s : St (Cache K V) K V) : Prop :=
  (Impl.step O o s).timedAns = some ((asBook s.c).reply now o).1 ∧
    match Impl.step O o s with
    | .ok _ s' | .throw _ s' => asBook s'.c = ((asBook s.c).reply now o).2
    | .terminate => ((asBook s.c).reply now o).1 = .terminated
    | .ub | .diverge => False

theorem asBook_plain (h : c.kind = .basic) : asBook c = .plain (asLru c) := by
  unfold asBook; rw [h]

theorem asBook_timed (h : c.kind = .timed ttl res) : asBook c = .timed ⟨ttl, res⟩ (asTimed c) := by
  unfold asBook; rw [h]

theorem step_kind {o : Op K V} : match Impl.step O o s with | .ok _ s' | .throw _ s' => s'.c.kind = s.c.kind | _ => True := by
  cases hs : Impl.step O o s with
  | ok r s' => exact performs_kind (res := .ok r) hs
  | throw e s' => exact performs_kind (res := .error e) hs
  | _ => trivial

theorem AnswersLike.callAt (hb : s.c.kind = .basic) (h : AnswersLike O op s) : CallAt O now op s := by
  unfold CallAt
  rw [asBook_plain hb]
  obtain ⟨h1, h2⟩ := h
  have hk := step_kind (O := O) (s := s) (o := op)
  cases hs : Impl.step O op s with
  | ok r s' =>
    rw [hs] at h1 h2 hk
    exact ⟨h1, (asBook_plain (hk.trans hb)).trans (congrArg Book.plain h2)⟩
  | throw e s' =>
    rw [hs] at h1 h2 hk
    refine ⟨?_, (asBook_plain (hk.trans hb)).trans (congrArg Book.plain h2)⟩
    cases e <;> first | exact h1 | cases h1
  | terminate =>
    rw [hs] at h1
    exact ⟨h1, by injection h1 with h1; exact h1.symm⟩
  | ub => rw [hs] at h2; exact h2.elim
  | diverge => rw [hs] at h2; exact h2.elim

theorem AnswersAt.callAt (hb : s.c.kind = .timed ttl res) (h : AnswersAt O ⟨ttl, res⟩ now op s) : CallAt O now op s := by
  unfold CallAt
  rw [asBook_timed hb]
  obtain ⟨h1, h2⟩ := h
  have hk := step_kind (O := O) (s := s) (o := op)
  refine ⟨h1, ?_⟩
  cases hs : Impl.step O op s with
  | ok r s' =>
    rw [hs] at h2 hk
    exact (asBook_timed (hk.trans hb)).trans (congrArg (Book.timed _) h2)
  | throw e s' =>
    rw [hs] at h2 hk
    exact (asBook_timed (hk.trans hb)).trans (congrArg (Book.timed _) h2)
  | terminate => rw [hs] at h2; exact h2.elim
  | ub => rw [hs] at h2; exact h2.elim
  | diverge => rw [hs] at h2; exact h2.elim

theorem call_at {o : Op K V} (hC : Calm O) (hr : Reachable O s) (hop : s.c.kind.type.offers o = true)
    (hbad : ¬ (s.c.capacity = none ∧ o.needsCapacity = true)) (hp : PacedCall O now o s) : CallAt O now o s := by
  have hn : s.c.capacity = none → o.needsCapacity = false := by
    intro h
    cases hn : o.needsCapacity with
    | false => rfl
    | true => exact absurd ⟨h, hn⟩ hbad
  cases hk : s.c.kind with
  | basic =>
    rw [hk] at hop
    refine AnswersLike.callAt hk ?_
    cases hc : s.c.capacity with
    | none => exact call_faithful_unset hC hr hk hc hop (hn hc)
    | some n => exact call_faithful hC hr hk (by rw [hc]; exact fun h => by cases h) hop
  | timed ttl res =>
    rw [hk] at hop
    refine AnswersAt.callAt hk ?_
    cases hc : s.c.capacity with
    | none => exact call_answers_unset hC hr hk hc hop (hn hc) hp
    | some n => exact call_answers_at hC hr hk (by rw [hc]; exact fun h => by cases h) hop hp

/-- The clock shows `now` during the step. -/
def PacedStep (O : Oracle K V) (now : Int) (wop : WOp K V) (w : World K V) : Prop :=
  match Impl.wstep O wop w with
  | .ok _ w' | .throw _ w' => ∀ n, w.g.ticks ≤ n → n < w'.g.ticks → O.clock n = now
  | _ => True

theorem call_step {o : Op K V} (hC : Calm O) (hw : Reach O (fun op => op.copies = false) w) (hT : w.HasTypes types)
    {t : CacheType} (ht : types[i]? = some t) (hop : t.offers o = true) (hp : PacedStep O now (.op i o) w) :
    StepAt O types now (.op i o) w := by
  have hO := hC.noListFault
  have hstep : Impl.wstep O (.op i o) w = Impl.onCache i (Impl.step O o) w := rfl
  rcases exists_or_not w i with ⟨c, hc⟩ | hn
  · have hr := hw.reachable hc
    have hlt : i < w.caches.length := (List.getElem?_eq_some_iff.1 hc).1
    have hty : t = c.kind.type := by
      have := hT.type i c hc
      rw [ht] at this
      injection this
    subst hty
    by_cases hbad : c.capacity = none ∧ o.needsCapacity = true
    · refine .undefined ?_ ?_
      · show (w.library.book i).bind _ = none
        rw [library_some hc]
        exact if_pos (by rw [asBook_capacity]; exact hbad)
      · rw [hstep, onCache_eq hc, needsCapacity_ub hO hr hbad.1 hbad.2]
    · have hreply : w.library.reply now (.op i o) =
          some (((asBook c).reply now o).1, w.library.set i (some ((asBook c).reply now o).2)) := by
        show (w.library.book i).bind _ = _
        rw [library_some hc]
        exact if_neg (by rw [asBook_capacity]; exact hbad)
      have hpc : PacedCall O now o (viewOf w i c) := by
        unfold PacedStep at hp
        rw [hstep, onCache_eq hc] at hp
        unfold PacedCall
        cases hs : Impl.step O o (viewOf w i c) <;> rw [hs] at hp <;> first | exact hp | trivial
      obtain ⟨h1, h2⟩ := call_at hC hr hop hbad hpc
      have hk := step_kind (O := O) (s := viewOf w i c) (o := o)
      unfold StepAt
      rw [hreply, hstep, onCache_eq hc]
      have hset : ∀ s' : St (Cache K V) K V, s'.c.kind = c.kind →
          (⟨w.caches.set i (some s'.c), s'.g⟩ : World K V).HasTypes types := by
        intro s' hk'
        refine HasTypes_set hT (fun d hd => ?_) _
        injection hd with hd
        rw [← hd, hk']
        exact ht
      cases hs : Impl.step O o (viewOf w i c) with
      | ok r s' =>
        rw [hs] at h1 h2 hk
        have h1 : r.ans s'.c = some ((asBook c).reply now o).1 := h1
        have h2 : asBook s'.c = ((asBook c).reply now o).2 := h2
        refine ⟨?_, ?_, hset s' hk, fun h => ?_⟩
        · simp only [WOp.toldTimed, WOp.told]
          rw [show (w.caches.set i (some s'.c))[i]? = some (some s'.c) by simp [hlt]]
          simp only [h1]
        · rw [library_set, ← h2]; rfl
        · rw [h] at h1
          exact Res.ans_ne_terminated _ _ h1
      | throw e s' =>
        rw [hs] at h1 h2 hk
        have h2 : asBook s'.c = ((asBook c).reply now o).2 := h2
        have h1' : Ans.notFound = ((asBook c).reply now o).1 := by
          cases e <;> first | (cases h1; done) | (injection h1)
        have h3 : e = .keyNotFound ∨ e = .keyExpired := by
          cases e <;> first | exact .inl rfl | exact .inr rfl | (cases h1; done)
        refine ⟨?_, ?_, hset s' hk, fun h => ?_⟩
        · rw [← h1']
          rcases h3 with rfl | rfl <;> rfl
        · rw [library_set, ← h2]; rfl
        · rw [h] at h1'; cases h1'
      | terminate =>
        rw [hs] at h2
        have h2 : ((asBook c).reply now o).1 = .terminated := h2
        exact ⟨by rw [h2]; rfl, h2⟩
      | ub => rw [hs] at h2; exact h2.elim
      | diverge => rw [hs] at h2; exact h2.elim
  · refine .undefined ?_ ?_
    · show (w.library.book i).bind _ = none
      rw [library_none hn]; rfl
    · show Impl.onCache i _ w = .ub
      unfold Impl.onCache
      split
      · next c hc => exact absurd hc (hn c)
      · rfl

theorem same_timed {T T' : Terms} (a b : Cache K V) :
    Book.same (.timed T (asTimed a)) (.timed T' (asTimed b)) =
      decide ((elements a).map (compared (.timed ttl res)) = (elements b).map (compared (.timed ttl res))) := by
  show decide _ = decide _
  congr 1
  have : (compared (.timed ttl res) : MapNode K V → _) =
      (fun p : K × V × Int => (p.1, p.2.1, some p.2.2)) ∘ (fun n => (n.key, n.info.value, n.info.time)) := rfl
  rw [this, ← List.map_map, ← List.map_map, eq_iff_iff]
  refine ⟨fun h => congrArg _ h, fun h => (List.map_inj_right ?_).1 h⟩
  rintro ⟨a, b, c⟩ ⟨a', b', c'⟩ h
  simp only [Prod.mk.injEq, Option.some.injEq] at h
  rw [h.1, h.2.1, h.2.2]

theorem same_plain (a b : Cache K V) :
    Book.same (.plain (asLru a)) (.plain (asLru b)) =
      decide ((elements a).map (compared .basic) = (elements b).map (compared .basic)) := by
  show decide _ = decide _
  congr 1
  rw [compared_basic, eq_iff_iff]
  rfl

theorem asBook_same {a b : Cache K V} (h : a.kind.type.sameBase b.kind.type = true) :
    (asBook a).same (asBook b) = decide ((elements a).map (compared a.kind) = (elements b).map (compared a.kind)) := by
  cases ha : a.kind with
  | basic =>
    cases hb : b.kind with
    | basic => rw [asBook_plain ha, asBook_plain hb, same_plain]
    | timed => rw [ha, hb] at h; cases h
  | timed ttl res =>
    cases hb : b.kind with
    | basic => rw [ha, hb] at h; cases h
    | timed => rw [asBook_timed ha, asBook_timed hb, same_timed (ttl := ttl) (res := res)]

/-- A cache made with items is an empty cache into which the items are inserted. -/
theorem create_items {ctor : Ctor K V} {n : Nat} {s1 : St (Cache K V) K V} {kind : Kind}
    (h : Impl.ctorBody O ctor ⟨Impl.emptyCache kind (Impl.ctorCapacity ctor), { w.g with ext := Impl.allNodes w.caches }⟩ = .ok n s1) :
    ∃ o : Op K V, (o = .insertRange ctor.pairs ∨ o = .insertRangeMove ctor.pairs) ∧
      Returns O o ⟨Impl.emptyCache kind (Impl.ctorCapacity ctor), { w.g with ext := Impl.allNodes w.caches }⟩ (.nat n) s1 := by
  cases ctor with
  | default => exact ⟨_, .inl rfl, bind_ok h⟩
  | sized m => exact ⟨_, .inl rfl, bind_ok h⟩
  | sizedItems m l => exact ⟨_, .inl rfl, bind_ok h⟩
  | items l => exact ⟨_, .inl rfl, bind_ok h⟩
  | initList l => exact ⟨_, .inl rfl, bind_ok h⟩
  | sizedRangeMove m l => exact ⟨_, .inr rfl, bind_ok h⟩
  | rangeMove l => exact ⟨_, .inr rfl, bind_ok h⟩

theorem empty_reachable (hw : Reach O (fun op => op.copies = false) w) (kind : Kind) (n : Nat) :
    Reachable O ⟨(Impl.emptyCache kind n : Cache K V), { w.g with ext := Impl.allNodes w.caches }⟩ := by
  have h : Impl.wstep O (.create kind (.sized n)) w = .ok .unit
      ⟨w.caches ++ [some (Impl.emptyCache kind n)], { w.g with ext := Impl.allNodes w.caches }⟩ := rfl
  have h1 := (Reach.step (.create kind (.sized n)) hw rfl h).reachable (i := w.caches.length) (c := Impl.emptyCache kind n)
    (by simp)
  have h2 : viewOf ⟨w.caches ++ [some (Impl.emptyCache kind n)], { w.g with ext := Impl.allNodes w.caches }⟩ w.caches.length
      (Impl.emptyCache kind n) = ⟨(Impl.emptyCache kind n : Cache K V), { w.g with ext := Impl.allNodes w.caches }⟩ := by
    unfold viewOf
    simp [Impl.allNodes]
  rw [h2] at h1
  exact h1

theorem create_step {ctor : Ctor K V} {kind : Kind} (hC : Calm O) (hw : Reach O (fun op => op.copies = false) w)
    (hT : w.HasTypes types) (hp : PacedStep O now (.create kind ctor) w) :
    StepAt O (types ++ [kind.type]) now (.create kind ctor) w := by
  have hO := hC.noListFault
  obtain ⟨w', h1⟩ := C31_construction_returns hC hw kind ctor
  obtain ⟨c, h2, h3, h4, h5, -⟩ := C31_constructors hO hw h1
  have hw' : w' = ⟨w.caches ++ [some c], w'.g⟩ := by rw [← h2]
  refine .done (by intro i o h; cases h) rfl h1 (.inl ⟨rfl, rfl⟩) ?_ (by rw [hw']; exact HasTypes_push hT (by rw [h3]) _)
  rw [hw', library_push]
  congr 3
  cases kind with
  | basic =>
    rw [asBook_plain h3, h5]
    show _ = Book.plain (Lru.storeAll _ _).2
    rw [Lru.storeAll_run]
    rfl
  | timed ttl res =>
    rw [asBook_timed h3]
    show _ = Book.timed _ (TLru.storeAll _ _ _).2
    congr 1
    have hcap : Impl.ctorCapacity ctor = ctor.promised := by cases ctor <;> rfl
    unfold PacedStep at hp
    rw [show Impl.wstep O (.create (.timed ttl res) ctor) w = _ from h1] at hp
    have hp : ∀ n, w.g.ticks ≤ n → n < w'.g.ticks → O.clock n = now := hp
    have hcr : Impl.create O (.timed ttl res) ctor w = .ok () w' := (ret_ok_iff.1 h1).elim fun _ h => h.1
    unfold Impl.create at hcr
    split at hcr <;> first | (cases hcr; done) | skip
    next n s1 hb =>
    injection hcr with _ hcr
    have hc : c = s1.c := by
      rw [← hcr] at h2
      have h2 : w.caches ++ [some s1.c] = w.caches ++ [some c] := h2
      have := List.append_cancel_left h2
      injection this with this
      injection this with this
      exact this.symm
    have hg : w'.g = s1.g := by rw [← hcr]
    have hre := empty_reachable hw (.timed ttl res) (Impl.ctorCapacity ctor) (O := O)
    obtain ⟨o, ho, hd⟩ := create_items hb
    have hpc : PacedCall O now o
        ⟨Impl.emptyCache (.timed ttl res) (Impl.ctorCapacity ctor), { w.g with ext := Impl.allNodes w.caches }⟩ := by
      unfold PacedCall
      rw [show Impl.step O o _ = _ from hd]
      intro n h1 h2
      exact hp n h1 (by rw [hg]; exact h2)
    have hat := range_answers_at (T := ⟨ttl, res⟩) (now := now) hC hre rfl (by simp [Impl.emptyCache]) ctor.pairs
    have hcalc : ∀ {o : Op K V}, (TLru.reply (asTimed (Impl.emptyCache (.timed ttl res) (Impl.ctorCapacity ctor) : Cache K V))
        ⟨ttl, res⟩ now o).2 = (TLru.storeAll ⟨some ctor.promised, []⟩ now ctor.pairs).2 →
        AnswersAt O ⟨ttl, res⟩ now o
          ⟨Impl.emptyCache (.timed ttl res) (Impl.ctorCapacity ctor), { w.g with ext := Impl.allNodes w.caches }⟩ →
        Returns O o ⟨Impl.emptyCache (.timed ttl res) (Impl.ctorCapacity ctor), { w.g with ext := Impl.allNodes w.caches }⟩
          (.nat n) s1 → asTimed c = (TLru.storeAll ⟨some ctor.promised, []⟩ now ctor.pairs).2 := by
      intro o he ha hd
      have h6 := ha.2
      rw [show Impl.step O o _ = _ from hd] at h6
      rw [hc, ← he]
      exact h6
    rcases ho with rfl | rfl
    · exact hcalc (by rw [hcap]; rfl) (hat.1 hpc) hd
    · exact hcalc (by rw [hcap]; rfl) (hat.2 hpc) hd

theorem step_at (hC : Calm O) (hw : Reach O (fun op => op.copies = false) w) (hT : w.HasTypes types)
    (hop : wop.typed types = some types') (hp : PacedStep O now wop w) : StepAt O types' now wop w := by
  have hO := hC.noListFault
  have two : ∀ {i j : Nat}, (types[i]?.bind fun t => if types[j]? = some t then some types else none) = some types' →
      types' = types ∧ ∀ a b : Cache K V, w.caches[i]? = some (some a) → w.caches[j]? = some (some b) →
        a.kind.type = b.kind.type := by
    intro i j h
    obtain ⟨t, h1, h2⟩ := Option.bind_eq_some_iff.1 h
    split at h2
    · next h3 =>
      injection h2 with h2
      refine ⟨h2.symm, fun a b ha hb => ?_⟩
      have e1 := hT.type i a ha
      have e2 := hT.type j b hb
      rw [h1] at e1
      rw [h3] at e2
      injection e1 with e1
      injection e2 with e2
      rw [← e1, ← e2]
    · cases h2
  have base : ∀ {i j : Nat},
      (types[i]?.bind fun t => types[j]?.bind fun t' => if t.sameBase t' then some types else none) = some types' →
      types' = types ∧ ∀ a b : Cache K V, w.caches[i]? = some (some a) → w.caches[j]? = some (some b) →
        a.kind.type.sameBase b.kind.type = true := by
    intro i j h
    obtain ⟨t, h1, h2⟩ := Option.bind_eq_some_iff.1 h
    obtain ⟨t', h3, h4⟩ := Option.bind_eq_some_iff.1 h2
    split at h4
    · next h5 =>
      injection h4 with h4
      refine ⟨h4.symm, fun a b ha hb => ?_⟩
      have e1 := hT.type i a ha
      have e2 := hT.type j b hb
      rw [h1] at e1
      rw [h3] at e2
      injection e1 with e1
      injection e2 with e2
      rw [← e1, ← e2]
      exact h5
    · cases h4
  cases wop <;> first | (cases hop; done) | skip
  case create kind ctor =>
    cases hop
    exact create_step hC hw hT hp
  case destroy i =>
    obtain ⟨_, _, rfl⟩ := Option.map_eq_some_iff.1 (show types[i]?.map (fun _ => types) = some types' from hop)
    rcases exists_or_not w i with ⟨c, hc⟩ | hn
    · refine .done (w' := ⟨w.caches.set i none, w.g⟩) (by intro i o h; cases h) ?_ ?_ (.inl ⟨rfl, rfl⟩) rfl ?_
      · show (w.library.book i).map _ = _
        rw [library_some hc, Option.map_some, library_set]
        rfl
      · show Impl.ret _ _ w = _
        refine ret_ok (a := ()) ?_
        rw [bind_ok (getCache_some hc)]
        rfl
      · exact HasTypes_set hT (fun c h => by cases h) _
    · refine .undefined ?_ ?_
      · show (w.library.book i).map _ = none
        rw [library_none hn]; rfl
      · exact bind_ub (bind_ub (getCache_none hn))
  case op i o =>
    obtain ⟨t, h1, h2⟩ := Option.bind_eq_some_iff.1
      (show (types[i]?.bind fun t => if t.offers o then some types else none) = some types' from hop)
    split at h2
    · next h3 =>
      cases h2
      exact call_step hC hw hT h1 h3 hp
    · cases h2
  case swap i j =>
    obtain ⟨rfl, ht⟩ := two hop
    rcases two_exist w i j with ⟨a, b, ha, hb⟩ | h
    · exact (exchange_at hT ha hb (ht a b ha hb)).1
    · exact .undefined (two_books _ h) (two_missing h).1
  case moveCtor i =>
    obtain ⟨t, ht, rfl⟩ := Option.map_eq_some_iff.1 (show types[i]?.map (fun t => types ++ [t]) = some types' from hop)
    rcases exists_or_not w i with ⟨c, hc⟩ | hn
    · have hty : c.kind.type = t := by
        have := hT.type i c hc
        rw [ht] at this
        injection this with this
        exact this.symm
      refine .done (by intro i o h; cases h) ?_ (moveCtor_eq hc) (.inl ⟨rfl, rfl⟩) rfl ?_
      · show (w.library.book i).map _ = _
        rw [library_some hc, Option.map_some]
        unfold World.library
        rw [List.map_append, List.map_set]
        rw [← asBook_hollow]
        rfl
      · refine HasTypes_push (w := ⟨w.caches.set i _, w.g⟩) (c := { c with obs := {} })
          (HasTypes_set hT ?_ w.g) hty _
        intro d hd
        injection hd with hd
        rw [← hd]
        exact hT.type i c hc
    · refine .undefined ?_ ?_
      · show (w.library.book i).map _ = none
        rw [library_none hn]; rfl
      · exact bind_ub (bind_ub (getCache_none hn))
  case moveAssign i j =>
    obtain ⟨rfl, ht⟩ := two hop
    rcases two_exist w i j with ⟨a, b, ha, hb⟩ | h
    · exact (exchange_at hT ha hb (ht a b ha hb)).2
    · exact .undefined (two_books _ h) (two_missing h).2.1
  case swapBase i j =>
    obtain ⟨rfl, ht⟩ := base hop
    rcases two_exist w i j with ⟨a, b, ha, hb⟩ | h
    · exact baseExchange_at hT ha hb (ht a b ha hb)
    · exact .undefined (two_books _ h) (two_missing h).2.2.2
  case eq i j =>
    obtain ⟨rfl, ht⟩ := base hop
    rcases two_exist w i j with ⟨a, b, ha, hb⟩ | h
    · obtain ⟨r, h1, h2⟩ := C29_equality hO hw ha hb
      refine .done (by intro i o h; cases h) ?_ h1 (.inr ⟨r, rfl, rfl⟩) rfl hT
      show (w.library.book i).bind _ = _
      rw [library_some ha, library_some hb]
      have : (asBook a).same (asBook b) = r := by
        rw [asBook_same (ht a b ha hb), Bool.eq_iff_iff, decide_eq_true_iff, h2]
      rw [← this]
      rfl
    · exact .undefined (two_books _ h) (two_missing h).2.2.1

theorem typed_copies (h : wop.typed types = some types') : wop.copies = false := by
  cases wop <;> first | rfl | cases h

theorem Library.tells_cons {lib lib' : Library K V} {a : Ans K V} {ops : List (WOp K V × Int)}
    (h : lib.reply now wop = some (a, lib')) (ha : a ≠ .terminated) :
    lib.tells ((wop, now) :: ops) = .says a :: lib'.tells ops := by
  rw [Library.tells, h]
  cases a <;> first | rfl | exact absurd rfl ha

theorem tellsTimed_eq (hC : Calm O) (ops : List (WOp K V × Int)) (hw : Reach O (fun op => op.copies = false) w)
    (hT : w.HasTypes types) (hops : compiles types (ops.map Prod.fst) = true) (hp : w.Paced O ops) :
    w.tellsTimed O (ops.map Prod.fst) = w.library.tells ops := by
  induction ops generalizing w types with
  | nil => rfl
  | cons x ops ih =>
    obtain ⟨op, now⟩ := x
    have hops : compiles types (op :: ops.map Prod.fst) = true := hops
    unfold compiles at hops
    cases hty : op.typed types with
    | none => rw [hty] at hops; cases hops
    | some types' =>
    rw [hty] at hops
    have hops : compiles types' (ops.map Prod.fst) = true := hops
    unfold World.Paced at hp
    have hp1 : PacedStep O now op w := by
      unfold PacedStep
      cases hs : Impl.wstep O op w <;> rw [hs] at hp <;> first | exact hp.1 | trivial
    have h := step_at hC hw hT hty hp1
    unfold StepAt at h
    show World.tellsTimed O w (op :: ops.map Prod.fst) = _
    rw [World.tellsTimed]
    cases hrep : w.library.reply now op with
    | none =>
      rw [hrep] at h
      have h : Impl.wstep O op w = .ub := h
      rw [h, Library.tells, hrep]
      rfl
    | some x =>
      obtain ⟨a, lib⟩ := x
      rw [hrep] at h
      obtain ⟨h1, h2⟩ := h
      rw [h1]
      cases hs : Impl.wstep O op w with
      | ok r w' =>
        rw [hs] at h2 hp
        obtain ⟨h3, h4, h5⟩ := h2
        rw [Library.tells_cons hrep h5, ← h3, ← ih (.step op hw (typed_copies hty) hs) h4 hops hp.2]
      | throw e w' =>
        rw [hs] at h2 hp
        obtain ⟨h3, h4, h5⟩ := h2
        rw [Library.tells_cons hrep h5, ← h3, ← ih (.throw op hw (typed_copies hty) hs) h4 hops hp.2]
      | terminate =>
        rw [hs] at h2
        have h2 : a = .terminated := h2
        subst h2
        rw [Library.tells, hrep]
      | ub => rw [hs] at h2; exact h2.elim
      | diverge => rw [hs] at h2; exact h2.elim

end LRU
