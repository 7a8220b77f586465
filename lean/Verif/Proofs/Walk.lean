import Verif.Proofs.KeepEnts
import Verif.Spec.Positions
/-!
# Iterator steps
-/

set_option linter.unusedSectionVars false
set_option autoImplicit false

namespace LRU

theorem nodup_rev {l : List Ptr} (h : l.Nodup) : l.reverse.Nodup := by
  unfold List.Nodup at *
  rw [List.pairwise_reverse]
  exact h.imp fun h e => h e.symm

theorem after_index {l : List Ptr} (h : l.Nodup) {i : Nat} {p : Ptr} (hi : l[i]? = some p) :
    Impl.after p l = some l[i + 1]? := by
  induction l generalizing i with
  | nil => simp at hi
  | cons a r ih =>
    have ⟨h1, h2⟩ := List.nodup_cons.1 h
    cases i with
    | zero =>
      simp only [List.getElem?_cons_zero, Option.some.injEq] at hi
      subst hi
      simp [Impl.after, List.head?_eq_getElem?]
    | succ i =>
      simp only [List.getElem?_cons_succ] at hi
      have hne : a ≠ p := by
        rintro rfl
        exact h1 (List.mem_of_getElem? hi)
      simp only [Impl.after, hne, if_false, List.getElem?_cons_succ]
      exact ih h2 hi

theorem nodup_index {α : Type} {l : List α} (h : l.Nodup) {i j : Nat} {a : α} (hi : l[i]? = some a)
    (hj : l[j]? = some a) : i = j := by
  obtain ⟨h1, h2⟩ := List.getElem?_eq_some_iff.1 hi
  obtain ⟨h3, h4⟩ := List.getElem?_eq_some_iff.1 hj
  rcases Nat.lt_trichotomy i j with hlt | heq | hgt
  · exact absurd (h2.trans h4.symm) (List.pairwise_iff_getElem.1 h i j h1 h3 hlt)
  · exact heq
  · exact absurd (h4.trans h2.symm) (List.pairwise_iff_getElem.1 h j i h3 h1 hgt)

theorem after_not {l : List Ptr} {p : Ptr} (h : p ∉ l) : Impl.after p l = none := by
  induction l with
  | nil => rfl
  | cons a r ih =>
    have h1 : p ≠ a := fun e => h (e ▸ List.mem_cons_self ..)
    have h2 : p ∉ r := fun e => h (List.mem_cons_of_mem _ e)
    unfold Impl.after
    rw [if_neg (fun h => h1 h.symm)]
    exact ih h2

theorem after_reverse {l : List Ptr} (h : l.Nodup) {i : Nat} {p : Ptr} (hi : l[i + 1]? = some p) :
    Impl.after p l.reverse = some l[i]? := by
  obtain ⟨h1, h2⟩ := List.getElem?_eq_some_iff.1 hi
  have h3 : l.reverse[l.length - 1 - (i + 1)]? = some p := by
    rw [List.getElem?_reverse (by omega), ← hi]
    congr 1
    omega
  rw [after_index (nodup_rev h) h3, List.getElem?_reverse (by omega)]
  congr 2
  omega

theorem after_reverse_first {l : List Ptr} (h : l.Nodup) {p : Ptr} (hi : l[0]? = some p) :
    Impl.after p l.reverse = some none := by
  obtain ⟨h1, h2⟩ := List.getElem?_eq_some_iff.1 hi
  have h3 : l.reverse[l.length - 1]? = some p := by
    rw [List.getElem?_reverse (by omega), ← hi]
    congr 1
    omega
  rw [after_index (nodup_rev h) h3]
  congr 1
  rw [List.getElem?_eq_none_iff]
  simp
  omega

variable {K V : Type} [KeyEqual K] [DecidableEq K] {O : Oracle K V} {s : St (Cache K V) K V}
  {t : St (MCache K V) K V}

theorem addrs_index (c : Cache K V) (i : Nat) : (c.order.map (·.addr))[i]? = position c i := by
  unfold position
  rw [List.getElem?_map]

theorem oBegin_returns (O : Oracle K V) (s : St (Cache K V) K V) : Returns O .oBegin s (.pos (position s.c 0)) s := by
  show Out.ok (Res.pos (s.c.order.map (·.addr)).head?) s = _
  rw [List.head?_eq_getElem?, addrs_index]

theorem oNext_returns (hn : (s.c.order.map (·.addr)).Nodup) {i : Nat} {p : Ptr} (hp : position s.c i = some p) :
    Returns O (.oNext (some p)) s (.pos (position s.c (i + 1))) s := by
  have h1 : Impl.after p (s.c.order.map (·.addr)) = some (position s.c (i + 1)) := by
    rw [after_index hn (by rw [addrs_index]; exact hp), addrs_index]
  have h2 : Impl.oNext { pos := some p } s = .ok { pos := position s.c (i + 1) } s := by
    unfold Impl.oNext
    rw [bind_ok (m := Impl.orderAddrs) (s := s) rfl]
    simp only [h1]
    rfl
  exact bind_ok h2

theorem oNext_end (O : Oracle K V) (s : St (Cache K V) K V) : Impl.step O (.oNext none) s = .ub := rfl

theorem oPrev_returns (hn : (s.c.order.map (·.addr)).Nodup) {i : Nat} (hi : i < s.c.order.length) :
    Returns O (.oPrev (position s.c (i + 1))) s (.pos (position s.c i)) s := by
  obtain ⟨q, hq⟩ : ∃ q, position s.c i = some q := by
    unfold position
    rw [List.getElem?_eq_getElem hi]
    exact ⟨_, rfl⟩
  have h2 : Impl.oPrev { pos := position s.c (i + 1) } s = .ok { pos := some q } s := by
    unfold Impl.oPrev
    rw [bind_ok (m := Impl.orderAddrs) (s := s) rfl]
    cases hp : position s.c (i + 1) with
    | none =>
      have hlen : s.c.order.length = i + 1 := by
        have : s.c.order[i + 1]? = none := by
          unfold position at hp
          simpa using hp
        rw [List.getElem?_eq_none_iff] at this
        omega
      have : (s.c.order.map (·.addr)).getLast? = some q := by
        rw [List.getLast?_eq_getElem?, addrs_index, ← hq]
        congr 1
        simp [hlen]
      simp only [this]
      rfl
    | some p =>
      have h1 : Impl.after p (s.c.order.map (·.addr)).reverse = some (some q) := by
        rw [after_reverse hn (i := i) (by rw [addrs_index]; exact hp), addrs_index, hq]
      simp only [h1]
      rfl
  rw [hq]
  exact bind_ok h2

theorem oPrev_first (hn : (s.c.order.map (·.addr)).Nodup) : Impl.step O (.oPrev (position s.c 0)) s = .ub := by
  refine bind_ub ?_
  unfold Impl.oPrev
  rw [bind_ok (m := Impl.orderAddrs) (s := s) rfl]
  cases hp : position s.c 0 with
  | none =>
    have : s.c.order = [] := by
      unfold position at hp
      simpa using hp
    simp only [this]
    rfl
  | some p =>
    have h1 : Impl.after p (s.c.order.map (·.addr)).reverse = some none :=
      after_reverse_first hn (by rw [addrs_index]; exact hp)
    simp only [h1]
    rfl

theorem Rel.order_nodup (hr : Rel s t) : (s.c.order.map (·.addr)).Nodup := by
  rw [hr.rep.order, List.map_map]
  exact hr.awf.slots

theorem Rel.count_order (hr : Rel s t) : s.c.order.length = LRU.count s.c := by
  unfold LRU.count
  rw [hr.elements, hr.rep.order, List.length_map, List.length_map]

theorem Rel.position_eq (hr : Rel s t) (i : Nat) : position s.c i = t.c.ents[i]?.map (·.slot) := by
  unfold position
  rw [hr.rep.order, List.getElem?_map, Option.map_map]
  rfl

theorem Rel.elements_get (hr : Rel s t) (i : Nat) : (LRU.elements s.c)[i]? = t.c.ents[i]?.map Ent.node := by
  rw [hr.elements, List.getElem?_map]

theorem write_own (h : Ok t) {e : Ent K V} (he : e ∈ t.c.ents) (v : V) :
    Mid.write e.id v t =
      .ok () ⟨{ t.c with ents := t.c.ents.map (fun x => if x.id = e.id then { x with val := v } else x) }, t.g⟩ := by
  unfold Mid.write
  rw [bind_ok (derefIt_own h he)]
  rfl

theorem read_own (h : Ok t) {e : Ent K V} (he : e ∈ t.c.ents) : Mid.read e.id t = .ok e.val t := by
  unfold Mid.read
  rw [bind_ok (derefIt_own h he)]
  rfl

end LRU
