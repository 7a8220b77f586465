import Verif.Spec.Ranges
import Verif.Proofs.Refine
import Verif.Proofs.Ages
import Verif.Proofs.Own
import Verif.Proofs.SafeCalls
/-!
# Ranges: lemmas for `Props.Ranges`
-/

set_option linter.unusedSectionVars false
set_option autoImplicit false

namespace LRU

variable {K V : Type} [KeyEqual K] [DecidableEq K] [DecidableEq V] {O : Oracle K V}

/-! ### One by one -/

/-- The loop of both range insertions. -/
def rangeOf (ins : K → V → Impl.CM K V (Bool × Option Ptr)) : List (K × V) → Impl.CM K V Nat
  | [] => pure 0
  | (k, v) :: rest => do
    let r ← ins k v
    let n ← rangeOf ins rest
    pure ((if r.1 then 1 else 0) + n)

theorem insertRange_rangeOf (l : List (K × V)) : Impl.insertRange O l = rangeOf (Impl.insert O) l := by
  induction l with
  | nil => rfl
  | cons p l ih => obtain ⟨k, v⟩ := p; simp only [Impl.insertRange, rangeOf, ih]

theorem insertRangeMove_rangeOf (l : List (K × V)) : Impl.insertRangeMove O l = rangeOf (Impl.emplace O) l := by
  induction l with
  | nil => rfl
  | cons p l ih => obtain ⟨k, v⟩ := p; simp only [Impl.insertRangeMove, rangeOf, ih]

/-- The outcome of a range as a result for `OneByOne`. -/
def Out.Is {σ : Type} (o : Out σ Nat) : Except Err Nat → σ → Prop
  | .ok n, s => o = .ok n s
  | .error e, s => o = .throw e s

theorem ret_ok_iff {σ α : Type} {m : M σ α} {f : α → Res K V} {s s' : σ} {r : Res K V} :
    Impl.ret m f s = .ok r s' ↔ ∃ a, m s = .ok a s' ∧ f a = r := by
  show M.bind m _ s = _ ↔ _
  unfold M.bind
  cases h : m s with
  | ok a s1 =>
    simp only
    constructor
    · intro h; injection h with h1 h2; exact ⟨a, by rw [h2], h1⟩
    · rintro ⟨b, h1, h2⟩; injection h1 with h3 h4; subst h3 h4; rw [← h2]; rfl
  | _ => simp

theorem ret_throw_iff {σ α : Type} {m : M σ α} {f : α → Res K V} {s s' : σ} {e : Err} :
    Impl.ret m f s = .throw e s' ↔ m s = .throw e s' := by
  show M.bind m _ s = _ ↔ _
  unfold M.bind
  cases h : m s with
  | ok a s1 => simp only [Pure.pure, M.pure]; constructor <;> intro h <;> cases h
  | _ => simp

theorem rangeOf_iff {ins : K → V → Impl.CM K V (Bool × Option Ptr)} {mk : K → V → Op K V}
    (hmk : ∀ k v, Impl.step O (mk k v) = Impl.ret (ins k v) (fun r => .inserted r.1 r.2))
    (l : List (K × V)) {s s' : St (Cache K V) K V} {res : Except Err Nat} :
    (rangeOf ins l s).Is res s' ↔ OneByOne O mk l s res s' := by
  induction l generalizing s s' res with
  | nil =>
    constructor
    · intro h
      cases res with
      | ok n =>
        injection (show Out.ok 0 s = .ok n s' from h) with h1 h2
        subst h1 h2
        exact .nil s
      | error e => cases (show Out.ok 0 s = .throw e s' from h)
    · intro h; cases h; exact rfl
  | cons p l ih =>
    obtain ⟨k, v⟩ := p
    have hr : ∀ {r s1}, Returns O (mk k v) s r s1 ↔ ∃ a, ins k v s = .ok a s1 ∧ Res.inserted a.1 a.2 = r := by
      intro r s1; unfold Returns; rw [hmk]; exact ret_ok_iff
    have ht : ∀ {e s1}, Throws O (mk k v) s e s1 ↔ ins k v s = .throw e s1 := by
      intro r s1; unfold Throws; rw [hmk]; exact ret_throw_iff
    cases hi : ins k v s with
    | ok a s1 =>
      have e1 : rangeOf ins ((k, v) :: l) s = M.bind (rangeOf ins l) (fun n => pure ((if a.1 then 1 else 0) + n)) s1 :=
        bind_ok hi
      cases hl : rangeOf ins l s1 with
      | ok n s2 =>
        have e2 : rangeOf ins ((k, v) :: l) s = .ok ((if a.1 then 1 else 0) + n) s2 := e1.trans (bind_ok hl)
        rw [e2]
        have h2 : OneByOne O mk l s1 (.ok n) s2 := ih.1 hl
        constructor
        · intro h
          cases res with
          | error e => cases h
          | ok m =>
            injection (show Out.ok _ s2 = .ok m s' from h) with h3 h4
            subst h3 h4
            obtain ⟨b, p⟩ := a
            cases b with
            | true =>
              have := OneByOne.new (hr.2 ⟨_, hi, rfl⟩) h2
              simpa [Nat.add_comm] using this
            | false =>
              have := OneByOne.old (hr.2 ⟨_, hi, rfl⟩) h2
              simpa using this
        · intro h
          cases h with
          | new h3 h4 =>
            obtain ⟨b, h5, h6⟩ := hr.1 h3
            cases hi.symm.trans h5
            injection h6 with h6
            have h7 := ih.2 h4
            rw [hl] at h7
            injection h7 with h7 h8
            subst h7 h8
            show Out.ok _ _ = Out.ok _ _
            rw [h6, if_pos rfl, Nat.add_comm]
          | old h3 h4 =>
            obtain ⟨b, h5, h6⟩ := hr.1 h3
            cases hi.symm.trans h5
            injection h6 with h6
            have h7 := ih.2 h4
            rw [hl] at h7
            injection h7 with h7 h8
            subst h7 h8
            show Out.ok _ _ = Out.ok _ _
            rw [h6]; simp
          | later h3 h4 =>
            obtain ⟨b, h5, h6⟩ := hr.1 h3
            cases hi.symm.trans h5
            have h7 := ih.2 h4
            rw [hl] at h7
            cases h7
          | now h3 => cases hi.symm.trans (ht.1 h3)
      | throw e s2 =>
        have e2 : rangeOf ins ((k, v) :: l) s = .throw e s2 := e1.trans (bind_throw hl)
        rw [e2]
        have h2 : OneByOne O mk l s1 (.error e) s2 := ih.1 hl
        constructor
        · intro h
          cases res with
          | ok m => cases h
          | error e' =>
            injection (show Out.throw _ s2 = .throw e' s' from h) with h3 h4
            subst h3 h4
            exact .later (hr.2 ⟨_, hi, rfl⟩) h2
        · intro h
          cases h with
          | new h3 h4 | old h3 h4 =>
            obtain ⟨b, h5, h6⟩ := hr.1 h3
            cases hi.symm.trans h5
            have h7 := ih.2 h4
            rw [hl] at h7
            cases h7
          | later h3 h4 =>
            obtain ⟨b, h5, h6⟩ := hr.1 h3
            cases hi.symm.trans h5
            have h7 := ih.2 h4
            rw [hl] at h7
            exact h7
          | now h3 => cases hi.symm.trans (ht.1 h3)
      | ub | terminate | diverge =>
        have e2 : rangeOf ins ((k, v) :: l) s = M.bind _ _ s1 := e1
        unfold M.bind at e2
        rw [hl] at e2
        rw [e2]
        constructor
        · intro h; cases res <;> cases h
        · intro h
          cases h with
          | new h3 h4 | old h3 h4 | later h3 h4 =>
            obtain ⟨b, h5, h6⟩ := hr.1 h3
            cases hi.symm.trans h5
            have h7 := ih.2 h4
            rw [hl] at h7
            cases h7
          | now h3 => cases hi.symm.trans (ht.1 h3)
    | throw e s1 =>
      have e1 : rangeOf ins ((k, v) :: l) s = .throw e s1 := bind_throw hi
      rw [e1]
      constructor
      · intro h
        cases res with
        | ok m => cases h
        | error e' =>
          injection (show Out.throw _ s1 = .throw e' s' from h) with h3 h4
          subst h3 h4
          exact .now (ht.2 hi)
      · intro h
        cases h with
        | new h3 h4 | old h3 h4 | later h3 h4 =>
          obtain ⟨b, h5, h6⟩ := hr.1 h3
          cases hi.symm.trans h5
        | now h3 => cases hi.symm.trans (ht.1 h3); exact (rfl : Out.throw e _ = _)
    | ub | terminate | diverge =>
      have e1 : rangeOf ins ((k, v) :: l) s = M.bind _ _ s := rfl
      unfold M.bind at e1
      rw [hi] at e1
      rw [e1]
      constructor
      · intro h; cases res <;> cases h
      · intro h
        cases h with
        | new h3 h4 | old h3 h4 | later h3 h4 =>
          obtain ⟨b, h5, h6⟩ := hr.1 h3
          cases hi.symm.trans h5
        | now h3 => cases hi.symm.trans (ht.1 h3)

/-! ### What ranges leave behind -/

theorem InsertOut.put {t t' : St (MCache K V) K V} (ht : Ok t) {k : K} {v : V} {r}
    (ho : InsertOut O k v t (.ok r t')) : t'.c.lru = t.c.lru.act (.put k v) := by
  generalize h : Out.ok r t' = o at ho
  cases ho with
  | unset _ => cases h
  | zero hc => injection h with _ h; subst h; exact (Lru.put_zero hc).symm
  | fault => cases h
  | full g' e r n hf hc hl hn =>
    injection h with _ h; subst h
    refine Eq.trans ?_ (Lru.put_new (n := n) hc (by rw [lru_item, hf]; rfl)).symm
    unfold MCache.lru
    simp [hl, hn, hc]
  | room g' n q hf hc hl =>
    injection h with _ h; subst h
    obtain ⟨m, rfl⟩ : ∃ m, n = m + 1 := ⟨n - 1, by omega⟩
    refine Eq.trans ?_ (Lru.put_new (n := m) hc (by rw [lru_item, hf]; rfl)).symm
    unfold MCache.lru
    simp [hc, Nat.le_of_lt_succ hl]
  | update g' e n hf hc =>
    injection h with _ h; subst h
    refine Eq.trans ?_ (Lru.put_old (n := n) (x := (e.key, e.val)) hc (by rw [lru_item, hf]; rfl)).symm
    rw [lru_others, ← ht.without_eq hf]
    unfold MCache.lru
    simp
  | updateFault => cases h

theorem insertRange_puts (hO : NoListFault O) (l : List (K × V)) {t t' : St (MCache K V) K V} (ht : Ok t) {n : Nat}
    (h : Mid.insertRange O l t = .ok n t') : t'.c.lru = t.c.lru.run (puts l) := by
  induction l generalizing t n with
  | nil => injection h with _ h; subst h; rfl
  | cons p l ih =>
    obtain ⟨k, v⟩ := p
    cases hi : Mid.insert O k v t with
    | ok a t1 =>
      have h1 := insert_out ht hO k v
      have h2 := insert_keeps (O := O) hO (k := k) (v := v) t ht
      rw [hi] at h1 h2
      have e1 : M.bind (Mid.insertRange O l) (fun n => pure ((if a.1 then 1 else 0) + n)) t1 = .ok n t' :=
        (bind_ok hi).symm.trans h
      cases hl : Mid.insertRange O l t1 with
      | ok m t2 =>
        injection (bind_ok hl).symm.trans e1 with _ e2
        subst e2
        have h2 : Step t t1 := h2
        rw [ih h2.ok hl, h1.put ht]
        rfl
      | _ => unfold M.bind at e1; rw [hl] at e1; cases e1
    | _ =>
      have h : M.bind (Mid.insert O k v) _ t = _ := h
      unfold M.bind at h; rw [hi] at h; cases h

theorem insertRangeMove_puts (hO : NoListFault O) (l : List (K × V)) {t t' : St (MCache K V) K V} (ht : Ok t) {n : Nat}
    (h : Mid.insertRangeMove O l t = .ok n t') : t'.c.lru = t.c.lru.run (puts l) := by
  induction l generalizing t n with
  | nil => injection h with _ h; subst h; rfl
  | cons p l ih =>
    obtain ⟨k, v⟩ := p
    cases hi : Mid.emplace O k v t with
    | ok a t1 =>
      have h1 := emplace_out ht hO k v
      have h2 := emplace_keeps (O := O) hO (k := k) (v := v) t ht
      rw [hi] at h1 h2
      have e1 : M.bind (Mid.insertRangeMove O l) (fun n => pure ((if a.1 then 1 else 0) + n)) t1 = .ok n t' :=
        (bind_ok hi).symm.trans h
      cases hl : Mid.insertRangeMove O l t1 with
      | ok m t2 =>
        injection (bind_ok hl).symm.trans e1 with _ e2
        subst e2
        have h2 : Step t t1 := h2
        rw [ih h2.ok hl, h1.put ht]
        rfl
      | _ => unfold M.bind at e1; rw [hl] at e1; cases e1
    | _ =>
      have h : M.bind (Mid.emplace O k v) _ t = _ := h
      unfold M.bind at h; rw [hi] at h; cases h

/-! ### Ranges that fit -/

section alike
omit [DecidableEq K] [DecidableEq V]

theorem Alike.refl (l : List (K × V)) : Alike l l := by
  induction l with
  | nil => exact .nil
  | cons p l ih => exact .cons (KeyEqual.refl _) ih

theorem Alike.append {a a' b b' : List (K × V)} (h : Alike a a') (h' : Alike b b') : Alike (a ++ b) (a' ++ b') := by
  induction h with
  | nil => exact h'
  | cons hk _ ih => exact .cons hk ih

theorem Alike.trans {a b c : List (K × V)} (h : Alike a b) (h' : Alike b c) : Alike a c := by
  induction h generalizing c with
  | nil => exact h'
  | cons hk _ ih => cases h' with | cons hk' h'' => exact .cons (KeyEqual.trans _ _ _ hk hk') (ih h'')

theorem Alike.length {a b : List (K × V)} (h : Alike a b) : a.length = b.length := by
  induction h with
  | nil => rfl
  | cons _ _ ih => simp [ih]

theorem finals_length (l : List (K × V)) : (finals l).length ≤ l.length := by
  induction l with
  | nil => exact Nat.le_refl _
  | cons p l ih => unfold finals; split <;> simp <;> omega

theorem others_length_lt {l : Lru K V} {k : K} {x : K × V} (h : l.item k = some x) :
    (l.others k).length < l.items.length := by
  unfold Lru.others
  refine Nat.lt_of_le_of_ne (List.length_filter_le ..) ?_
  intro he
  have h1 := List.filter_eq_self.1 (List.Sublist.eq_of_length List.filter_sublist he) x (List.mem_of_find?_eq_some h)
  have h2 : keq x.1 k = true := List.find?_some (p := fun x : K × V => keq x.1 k) h
  rw [h2] at h1
  cases h1

theorem others_eq {l : Lru K V} {k : K} (h : l.item k = none) : l.others k = l.items := by
  unfold Lru.others
  refine List.filter_eq_self.2 fun x hx => ?_
  have := List.find?_eq_none.1 h x hx
  simpa using this

/-- Storing pairs in a map that has room for all of them. -/
theorem run_puts_fit (l : List (K × V)) (m : Lru K V) {n : Nat} (hc : m.capacity = some n)
    (hn : m.items.length + l.length ≤ n) :
    (m.run (puts l)).capacity = some n ∧
      Alike (m.run (puts l)).items (m.items.filter (fun x => !l.any (fun q => keq q.1 x.1)) ++ finals l) := by
  induction l generalizing m with
  | nil =>
    refine ⟨hc, ?_⟩
    show Alike m.items _
    rw [List.filter_eq_self.2 (by intro x _; rfl), show finals ([] : List (K × V)) = [] from rfl, List.append_nil]
    exact .refl _
  | cons p l ih =>
    obtain ⟨k, v⟩ := p
    obtain ⟨n, rfl⟩ : ∃ n', n = n' + 1 := ⟨n - 1, by simp at hn; omega⟩
    -- the step
    have hstep : ∃ k', keq k' k = true ∧ (m.act (.put k v)).capacity = some (n + 1) ∧
        (m.act (.put k v)).items = m.others k ++ [(k', v)] ∧
        (m.act (.put k v)).items.length + l.length ≤ n + 1 := by
      cases hx : m.item k with
      | some x =>
        refine ⟨x.1, List.find?_some (p := fun x : K × V => keq x.1 k) hx, ?_⟩
        rw [Lru.put_old hc hx]
        refine ⟨hc, rfl, ?_⟩
        have := others_length_lt hx
        simp at hn ⊢
        omega
      | none =>
        refine ⟨k, KeyEqual.refl _, ?_⟩
        rw [Lru.put_new hc hx, if_pos (by simp at hn; omega)]
        refine ⟨hc, by rw [others_eq hx], ?_⟩
        simp at hn ⊢
        omega
    obtain ⟨k', hk, h1, h2, h3⟩ := hstep
    obtain ⟨h4, h5⟩ := ih (m.act (.put k v)) h1 h3
    refine ⟨h4, h5.trans ?_⟩
    rw [h2, List.filter_append]
    have e1 : (m.others k).filter (fun x => !l.any (fun q => keq q.1 x.1)) =
        m.items.filter (fun x => !((k, v) :: l).any (fun q => keq q.1 x.1)) := by
      unfold Lru.others
      rw [List.filter_filter]
      apply List.filter_congr
      intro x _
      simp only [List.any_cons, Bool.not_or]
      rw [keq_comm k x.1, Bool.and_comm]
    rw [e1, List.append_assoc]
    refine (Alike.refl _).append ?_
    have e2 : l.any (fun q => keq q.1 k') = l.any (fun q => keq q.1 k) := by
      congr 1
      funext q
      exact keq_congr hk q.1
    have e3 : finals ((k, v) :: l) = if l.any (fun q => keq q.1 k) then finals l else (k, v) :: finals l := rfl
    rw [e3]
    by_cases hl : l.any (fun q => keq q.1 k) = true
    · rw [if_pos hl, List.filter_cons_of_neg (by simp only; rw [e2, hl]; simp)]
      exact .refl _
    · rw [if_neg hl, List.filter_cons_of_pos (by simp only; rw [e2]; simpa using hl)]
      exact .cons hk (.refl _)

theorem run_puts_capacity (l : List (K × V)) (m : Lru K V) : (m.run (puts l)).capacity = m.capacity := by
  induction l generalizing m with
  | nil => rfl
  | cons p l ih =>
    refine (ih (m.act (.put p.1 p.2))).trans ?_
    simp only [Lru.act]
    cases hc : m.capacity with
    | none => exact hc
    | some n =>
      cases n with
      | zero => exact hc
      | succ n => simp only; split <;> rfl

end alike

/-! ### Constructors and assignment -/

section calls

variable {s s' : St (Cache K V) K V} {t t' : St (MCache K V) K V}

theorem sim_ok {α : Type} {m : Impl.CM K V α} {m' : Mid.CM K V α} (hs : Sim m m') (hr : Rel s t) {a : α}
    (h : m s = .ok a s') : ∃ t', m' t = .ok a t' ∧ Rel s' t' := by
  have h1 := hs s t hr trivial
  rw [h] at h1
  cases hm : m' t with
  | ok b t' => rw [hm] at h1; obtain ⟨rfl, h2, _⟩ := h1; exact ⟨t', rfl, h2⟩
  | _ => rw [hm] at h1; exact h1.elim

theorem InsertOut.calm (hC : Calm O) {k : K} {v : V} {o} (h : InsertOut O k v t o) (hc : t.c.cap ≠ none) :
    ∃ r t', o = .ok r t' ∧ t'.c.cap = t.c.cap := by
  cases h with
  | unset h => exact absurd h hc
  | fault g' site n _ _ _ _ hf => rw [hC] at hf; cases hf
  | updateFault g' e m n _ _ _ hf => rw [hC] at hf; cases hf
  | _ => exact ⟨_, _, rfl, rfl⟩

theorem insertRange_calm (hC : Calm O) (l : List (K × V)) (ht : Ok t) (hc : t.c.cap ≠ none) :
    ∃ n t', Mid.insertRange O l t = .ok n t' := by
  induction l generalizing t with
  | nil => exact ⟨_, _, rfl⟩
  | cons p l ih =>
    obtain ⟨k, v⟩ := p
    obtain ⟨r, t1, h1, h2⟩ := (insert_out ht hC.noListFault k v).calm hC hc
    have h3 := insert_keeps hC.noListFault (k := k) (v := v) t ht
    rw [h1] at h3
    have h3 : Step t t1 := h3
    obtain ⟨n, t2, h4⟩ := ih h3.ok (by rw [h2]; exact hc)
    exact ⟨_, _, (bind_ok h1).trans (bind_ok h4)⟩

theorem insertRangeMove_calm (hC : Calm O) (l : List (K × V)) (ht : Ok t) (hc : t.c.cap ≠ none) :
    ∃ n t', Mid.insertRangeMove O l t = .ok n t' := by
  induction l generalizing t with
  | nil => exact ⟨_, _, rfl⟩
  | cons p l ih =>
    obtain ⟨k, v⟩ := p
    obtain ⟨r, t1, h1, h2⟩ := (emplace_out ht hC.noListFault k v).calm hC hc
    have h3 := emplace_keeps hC.noListFault (k := k) (v := v) t ht
    rw [h1] at h3
    have h3 : Step t t1 := h3
    obtain ⟨n, t2, h4⟩ := ih h3.ok (by rw [h2]; exact hc)
    exact ⟨_, _, (bind_ok h1).trans (bind_ok h4)⟩

/-- What a constructor leaves behind. -/
theorem ctorBody_puts (hO : NoListFault O) (ctor : Ctor K V) (hr : Rel s t) (ht : Ok t) {n : Nat}
    (h : Impl.ctorBody O ctor s = .ok n s') : asLru s'.c = (asLru s.c).run (puts ctor.pairs) := by
  rw [hr.lru]
  cases ctor with
  | default | sized n => injection h with _ h; subst h; exact hr.lru
  | sizedItems m l | items l | initList l =>
    obtain ⟨t', h1, h2⟩ := sim_ok (insertRange_sim hO) hr h
    rw [h2.lru]
    exact insertRange_puts hO l ht h1
  | sizedRangeMove m l | rangeMove l =>
    obtain ⟨t', h1, h2⟩ := sim_ok (insertRangeMove_sim hO) hr h
    rw [h2.lru]
    exact insertRangeMove_puts hO l ht h1

theorem back_ok' {α : Type} {m : Impl.CM K V α} {m' : Mid.CM K V α} (hs : Sim m m') (hr : Rel s t) {a : α}
    (h : m' t = .ok a t') : ∃ s', m s = .ok a s' := by
  have h1 := hs s t hr trivial
  rw [h] at h1
  cases hm : m s with
  | ok b s' => rw [hm] at h1; obtain ⟨rfl, h2, _⟩ := h1; exact ⟨s', rfl⟩
  | _ => rw [hm] at h1; exact h1.elim

theorem ctorBody_calm (hC : Calm O) (ctor : Ctor K V) (hr : Rel s t) (ht : Ok t) (hc : t.c.cap ≠ none) :
    ∃ n s', Impl.ctorBody O ctor s = .ok n s' := by
  have hO := hC.noListFault
  cases ctor with
  | default | sized n => exact ⟨_, _, rfl⟩
  | sizedItems m l | items l | initList l =>
    obtain ⟨n, t', h⟩ := insertRange_calm hC l ht hc
    exact ⟨n, back_ok' (insertRange_sim hO) hr h⟩
  | sizedRangeMove m l | rangeMove l =>
    obtain ⟨n, t', h⟩ := insertRangeMove_calm hC l ht hc
    exact ⟨n, back_ok' (insertRangeMove_sim hO) hr h⟩

/-- The emptied cache, whatever it held. -/
theorem Rel.emptied (hr : Rel s t) :
    Rel (⟨{ s.c with map := [], order := [], last := none }, s.g⟩ : St (Cache K V) K V)
      ⟨{ t.c with ents := [], last := none }, t.g⟩ ∧
    Ok (⟨{ t.c with ents := [], last := none }, t.g⟩ : St (MCache K V) K V) := by
  have w : AWF ({ t.c with ents := [], last := none } : MCache K V) t.g :=
    ⟨by simp, by simp, by simp, by simp, by simp, by simp, by simp, by simp, by simp, by simp, hr.awf.extLt⟩
  exact ⟨⟨⟨rfl, List.Perm.refl _, rfl, hr.rep.cap, hr.rep.kind, hr.rep.obs⟩, hr.g, w⟩, ⟨w, ⟨by simp, by simp⟩⟩⟩

/-- What a range assignment leaves behind. -/
theorem assign_puts (hO : NoListFault O) (l : List (K × V)) (hr : Rel s t) (ht : Ok t) {op : Op K V} {r : Res K V}
    (hop : op = .assignRange l ∨ op = .assignRangeMove l) (h : Returns O op s r s') :
    ∃ n, t.c.cap = some n ∧ asLru s'.c = (⟨some (max n l.length), []⟩ : Lru K V).run (puts l) := by
  obtain ⟨t', h1, h2, _⟩ := hr.returns hO ht h
  rw [h2.lru]
  cases hn : t.c.cap with
  | none =>
    have e := clearAndIncreaseCapacity_eq t l.length
    rw [hn] at e
    rcases hop with rfl | rfl
    all_goals
      obtain ⟨a, h3, _⟩ := ret_ok_iff.1 h1
      cases h3.symm.trans (bind_ub e)
  | some n =>
    refine ⟨n, rfl, ?_⟩
    have e := clearAndIncreaseCapacity_eq t l.length
    have hk := clearAndIncreaseCapacity_keeps (n := l.length) t ht
    rw [e, hn] at hk
    have hk : Step t _ := hk
    rw [hn] at e
    rcases hop with rfl | rfl
    · obtain ⟨a, h3, _⟩ := ret_ok_iff.1 h1
      have h4 := (bind_ok e).symm.trans h3
      cases h5 : Mid.insertRange O l ⟨{ t.c.prune [] with cap := some (max n l.length) }, t.g⟩ with
      | ok m t2 =>
        injection (bind_ok h5).symm.trans h4 with _ h6
        subst h6
        exact insertRange_puts hO l hk.ok h5
      | _ =>
        have h4 : M.bind (Mid.insertRange O l) _ _ = _ := h4
        unfold M.bind at h4; rw [h5] at h4; cases h4
    · obtain ⟨a, h3, _⟩ := ret_ok_iff.1 h1
      have h4 := (bind_ok e).symm.trans h3
      cases h5 : Mid.insertRangeMove O l ⟨{ t.c.prune [] with cap := some (max n l.length) }, t.g⟩ with
      | ok m t2 =>
        injection (bind_ok h5).symm.trans h4 with _ h6
        subst h6
        exact insertRangeMove_puts hO l hk.ok h5
      | _ =>
        have h4 : M.bind (Mid.insertRangeMove O l) _ _ = _ := h4
        unfold M.bind at h4; rw [h5] at h4; cases h4

/-- A range assignment completes. -/
theorem assign_calm (hC : Calm O) (l : List (K × V)) (hr : Rel s t) (ht : Ok t) {op : Op K V}
    (hop : op = .assignRange l ∨ op = .assignRangeMove l) (hc : t.c.cap ≠ none) :
    ∃ s', Returns O op s .unit s' := by
  have hO := hC.noListFault
  obtain ⟨t1, h1, h2, h3⟩ := clearAndIncreaseCapacity_completes (n := l.length) ht hc
  rcases hop with rfl | rfl
  · obtain ⟨n, t2, h4⟩ := insertRange_calm hC l h2 h3
    have h5 : Mid.step O (.assignRange l) t = .ok .unit t2 :=
      ret_ok_iff.2 ⟨(), (bind_ok h1).trans (bind_ok h4), rfl⟩
    exact back_ok' (step_sim hO _) hr h5
  · obtain ⟨n, t2, h4⟩ := insertRangeMove_calm hC l h2 h3
    have h5 : Mid.step O (.assignRangeMove l) t = .ok .unit t2 :=
      ret_ok_iff.2 ⟨(), (bind_ok h1).trans (bind_ok h4), rfl⟩
    exact back_ok' (step_sim hO _) hr h5

end calls

end LRU
