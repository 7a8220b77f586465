import Verif.Model.Hash
/-!
# Hashes of tuples: C54
-/

set_option autoImplicit false

namespace LRU

variable {n : Nat} {T : Fin n → Type} {h : ∀ i, T i → SizeT} {t u : ∀ i, T i}

theorem hashTuple_congr (is : List (Fin n)) (hs : ∀ i ∈ is, h i (t i) = h i (u i)) :
    hashTuple h t is = hashTuple h u is := by
  induction is with
  | nil => rfl
  | cons i is ih =>
    unfold hashTuple
    rw [hs i (List.mem_cons_self ..), ih fun j hj => hs j (List.mem_cons_of_mem _ hj)]

/-- C54. Tuples whose elements have equal hashes have equal hashes, for every arity and all element types. -/
theorem C54_equal_hashes (hs : ∀ i, h i (t i) = h i (u i)) : tupleHash h t = tupleHash h u :=
  hashTuple_congr _ fun i _ => hs i

/-- C54. Hence, if the hash function of every element type respects equality of elements, that of the tuple respects
equality of tuples, as hash tables require of their keys. -/
theorem C54_respects_equality (eqv : ∀ i, T i → T i → Bool) (he : ∀ i x y, eqv i x y = true → h i x = h i y)
    (ht : ∀ i, eqv i (t i) (u i) = true) : tupleHash h t = tupleHash h u :=
  C54_equal_hashes fun i => he i _ _ (ht i)

/-- C54. Nothing of the first element's hash is lost: tuples that agree but for the first element have equal hashes
exactly if the first elements do. -/
theorem C54_first_element {n : Nat} {T : Fin (n + 1) → Type} {h : ∀ i, T i → SizeT} {t u : ∀ i, T i}
    (hs : ∀ i : Fin n, t i.succ = u i.succ) : tupleHash h t = tupleHash h u ↔ h 0 (t 0) = h 0 (u 0) := by
  unfold tupleHash
  rw [List.finRange_succ]
  unfold hashTuple
  rw [hashTuple_congr (u := u) (t := t) _ fun i hi => ?_]
  · constructor
    · intro he
      simpa using he
    · intro he
      rw [he]
  · obtain ⟨j, _, rfl⟩ := List.mem_map.1 hi
    rw [hs j]

/-- C54. The hash depends on the order of the elements. -/
theorem C54_depends_on_order : ∃ t : Fin 2 → SizeT,
    tupleHash (T := fun _ => SizeT) (fun _ x => x) t ≠ tupleHash (T := fun _ => SizeT) (fun _ x => x) (fun i => t i.rev) :=
  ⟨fun i => if i = 0 then 1 else 2, by decide +kernel⟩

theorem pair_hash (t : Fin 2 → SizeT) (h0 : (t 0).toNat < 2 ^ 56) (h1 : (t 1).toNat < 2 ^ 56) :
    (tupleHash (T := fun _ => SizeT) (fun _ x => x) t).toNat =
      (t 0).toNat + 0x9e3779b9 + ((t 1).toNat + 0x9e3779b9) * 64 + ((t 1).toNat + 0x9e3779b9) / 4 := by
  have e : tupleHash (T := fun _ => SizeT) (fun _ x => x) t =
      t 0 + 0x9e3779b9#64 + ((t 1 + 0x9e3779b9#64 + (0#64 <<< 6) + (0#64 >>> 2)) <<< 6) +
        ((t 1 + 0x9e3779b9#64 + (0#64 <<< 6) + (0#64 >>> 2)) >>> 2) := by
    unfold tupleHash
    rw [show List.finRange 2 = [0, 1] from by decide]
    unfold hashTuple hashTuple hashTuple
    rfl
  rw [e]
  rw [show (0#64 <<< 6 : BitVec 64) = 0#64 from rfl, show (0#64 >>> 2 : BitVec 64) = 0#64 from rfl, BitVec.add_zero,
    BitVec.add_zero]
  have hc : (0x9e3779b9#64 : BitVec 64).toNat = 0x9e3779b9 := rfl
  have hs : (t 1 + 0x9e3779b9#64).toNat = (t 1).toNat + 0x9e3779b9 := by
    rw [BitVec.toNat_add, hc]; exact Nat.mod_eq_of_lt (by omega)
  have hl : ((t 1 + 0x9e3779b9#64) <<< 6).toNat = ((t 1).toNat + 0x9e3779b9) * 64 := by
    rw [BitVec.toNat_shiftLeft, hs, Nat.shiftLeft_eq]; exact Nat.mod_eq_of_lt (by omega)
  have hr : ((t 1 + 0x9e3779b9#64) >>> 2).toNat = ((t 1).toNat + 0x9e3779b9) / 4 := by
    rw [BitVec.toNat_ushiftRight, hs, Nat.shiftRight_eq_div_pow]
  have h2 : (t 0 + 0x9e3779b9#64).toNat = (t 0).toNat + 0x9e3779b9 := by
    rw [BitVec.toNat_add, hc]; exact Nat.mod_eq_of_lt (by omega)
  have h3 : (t 0 + 0x9e3779b9#64 + (t 1 + 0x9e3779b9#64) <<< 6).toNat =
      (t 0).toNat + 0x9e3779b9 + ((t 1).toNat + 0x9e3779b9) * 64 := by
    rw [BitVec.toNat_add, h2, hl]; exact Nat.mod_eq_of_lt (by omega)
  rw [BitVec.toNat_add, h3, hr]
  exact Nat.mod_eq_of_lt (by omega)

/-- C54. For pairs whose elements have hashes below 2^56 (small integers, for instance, which common implementations hash
to themselves) exchanging the elements changes the hash, unless they have the same hash. -/
theorem C54_order_always_matters (t : Fin 2 → SizeT) (h0 : (t 0).toNat < 2 ^ 56) (h1 : (t 1).toNat < 2 ^ 56) :
    tupleHash (T := fun _ => SizeT) (fun _ x => x) t = tupleHash (T := fun _ => SizeT) (fun _ x => x) (fun i => t i.rev) ↔
      t 0 = t 1 := by
  have e := pair_hash t h0 h1
  have e' := pair_hash (fun i => t i.rev) h1 h0
  constructor
  · intro h
    rw [h] at e
    have e2 := e.symm.trans e'
    apply BitVec.eq_of_toNat_eq
    rw [show Fin.rev (0 : Fin 2) = 1 from rfl, show Fin.rev (1 : Fin 2) = 0 from rfl] at e2
    omega
  · intro h
    apply congrArg
    funext i
    match i with
    | 0 => exact h
    | 1 => exact h.symm

/-- Two tuples of arity 3 that differ and meet the hypotheses of `C54_equal_hashes` and `C54_respects_equality`: hashing
and comparing elements by their lowest digit. -/
example : ∃ t u : Fin 3 → Nat, t ≠ u ∧ (∀ i, (fun x => BitVec.ofNat 64 (x % 10)) (t i) = BitVec.ofNat 64 (u i % 10)) ∧
    tupleHash (T := fun _ => Nat) (fun _ x => BitVec.ofNat 64 (x % 10)) t =
      tupleHash (T := fun _ => Nat) (fun _ x => BitVec.ofNat 64 (x % 10)) u :=
  ⟨fun i => i, fun i => i + 10, by intro h; have := congrFun h 0; revert this; decide, by decide, by decide +kernel⟩

/-- The sums in the hash wrap around. -/
example : tupleHash (n := 2) (T := fun _ => SizeT) (fun _ x => x) (fun i => if i = 0 then 5 else BitVec.ofInt 64 (-1)) =
    BitVec.ofNat 64 173201933868 := by decide +kernel

end LRU
