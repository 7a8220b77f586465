import Verif.Proofs.Competitive
import Verif.Props.Examples
/-!
# C74: how much worse than the best possible cache

`serve` answers requests with `get` of the README's web server, through a plain cache of capacity `n`. A miss of this cache is
compared with a load of a competitor that has room for `h` keys and may know all requests in advance (`Schedule`, `loads`).
-/

set_option linter.unusedSectionVars false
set_option autoImplicit false

namespace LRU

variable {K V : Type} [KeyEqual K] [DecidableEq K] [DecidableEq V] {O : Oracle K V} {s : St (Cache K V) K V}

/-- C74. The number of misses is at most `n / (n - h + 1)` times the number of keys that any competitor loads. Nothing is
assumed about what the cache holds at the start; what the competitor holds at the start counts as loaded. -/
theorem C74_competitive (hC : Calm O) (h : Reachable O s) (hb : s.c.kind = .basic) {n h' : Nat} (hc : s.c.capacity = some n)
    (hh : h' ≤ n) (fetch : K → V) {ks : List K} {Ss : List (List K)} (hs : Schedule h' ks Ss) (S : List K)
    {i m a : Nat} (hi : s.c.obs.stats = some i) (hx : i < s.g.nextStat) (ht : Tallied (s.g.stats i) m a) :
    ∃ s' m' a', serve O fetch ks s = .ok () s' ∧ Tallied (s'.g.stats i) (m + m') a' ∧
      (n - h' + 1) * m' ≤ n * (loads S Ss + S.length) := by
  obtain ⟨s', m', a', h1, _, h2, h3⟩ := serve_misses hC hh fetch (S := S) (⟨h, hb, hc⟩ : Plain O n s) hs
  exact ⟨s', m', a + a', h1, h2.tallied hi hx ht, by rw [Nat.mul_add]; exact h3⟩

/-- C74. With twice the room of the competitor, the cache misses at most twice as often as the competitor loads. -/
theorem C74_twice_the_room (hC : Calm O) (h : Reachable O s) (hb : s.c.kind = .basic) {n h' : Nat}
    (hc : s.c.capacity = some n) (hh : 2 * h' ≤ n) (fetch : K → V) {ks : List K} {Ss : List (List K)}
    (hs : Schedule h' ks Ss) {i m a : Nat} (hi : s.c.obs.stats = some i) (hx : i < s.g.nextStat)
    (ht : Tallied (s.g.stats i) m a) :
    ∃ s' m' a', serve O fetch ks s = .ok () s' ∧ Tallied (s'.g.stats i) (m + m') a' ∧ m' ≤ 2 * loads [] Ss := by
  obtain ⟨s', m', a', h1, h2, h3⟩ := C74_competitive hC h hb hc (by omega) fetch hs [] hi hx ht
  refine ⟨s', m', a', h1, h2, ?_⟩
  have h4 : n * (loads [] Ss + ([] : List K).length) ≤ (n - h' + 1) * (2 * loads [] Ss) := by
    rw [← Nat.mul_assoc, Nat.mul_comm _ 2]
    exact Nat.mul_le_mul_right _ (by omega)
  exact Nat.le_of_mul_le_mul_left (Nat.le_trans h3 h4) (by omega)

/-- C74. Every request misses if it differs from the `n` requests before it. -/
theorem C74_worst_case (hC : Calm O) (h : Reachable O s) (hb : s.c.kind = .basic) {n : Nat} (hc : s.c.capacity = some n)
    (he : entries s.c = []) (fetch : K → V) {ks : List K} (hs : Spaced n [] ks) {i m a : Nat} (hi : s.c.obs.stats = some i)
    (hx : i < s.g.nextStat) (ht : Tallied (s.g.stats i) m a) :
    ∃ s', serve O fetch ks s = .ok () s' ∧ Tallied (s'.g.stats i) (m + ks.length) a := by
  obtain ⟨s', h1, _, h2⟩ := serve_spaced hC fetch ks [] (⟨h, hb, hc⟩ : Plain O n s) (by
    show ((entries s.c).map Prod.fst).reverse = _
    rw [he]; simp) hs
  exact ⟨s', h1, h2.tallied hi hx ht⟩

/-- C74. The factor cannot be improved: going round `n + 1` keys, the cache misses `n` times per round of `n` requests, and a
competitor with the same room loads one key per round (and `n` in the first). -/
theorem C74_factor_is_attained (hC : Calm O) (h : Reachable O s) (hb : s.c.kind = .basic) {n : Nat}
    (hc : s.c.capacity = some n) (h1 : 1 ≤ n) (he : entries s.c = []) (fetch : K → V) {P : List K} (hP : P.length = n + 1)
    (hd : P.Pairwise (fun a b => keq a b = false)) (r : Nat) {i m a : Nat} (hi : s.c.obs.stats = some i)
    (hx : i < s.g.nextStat) (ht : Tallied (s.g.stats i) m a) :
    (∃ s', serve O fetch (around P (n * (r + 1))) s = .ok () s' ∧ Tallied (s'.g.stats i) (m + n * (r + 1)) a) ∧
    ∃ Ss, Schedule n (around P (n * (r + 1))) Ss ∧ loads [] Ss = n + r := by
  obtain ⟨n, rfl⟩ : ∃ k, n = k + 1 := ⟨n - 1, by omega⟩
  have hne : P ≠ [] := by rintro rfl; cases hP
  constructor
  · obtain ⟨s', h2, h3⟩ := C74_worst_case hC h hb hc he fetch (spaced_around ((n + 1) * (r + 1)) (past := []) hP hd
      (List.nil_prefix)) hi hx ht
    rw [around_length _ hne] at h3
    exact ⟨s', h2, h3⟩
  · obtain ⟨Ss, h2, h3⟩ := schedule_around r (S := []) hP hd
    refine ⟨Ss, h2, ?_⟩
    rw [h3, List.filter_eq_self.2 (by intros; rfl), List.length_dropLast, hP]
    rfl

/-- Requests for which the best schedule with room for two keys loads four. -/
def demoRequests : List Nat := [1, 2, 1, 3, 1, 4, 1, 1, 4, 1]

def demoSchedule : List (List Nat) := [[1], [1, 2], [1, 2], [1, 3], [1, 3], [1, 4], [1, 4], [4, 1], [4, 1], [4, 1]]

example : Schedule 2 demoRequests demoSchedule ∧ loads [] demoSchedule = 4 :=
  ⟨⟨by decide, by decide, by decide, by decide, by decide, by decide, by decide, by decide, by decide, by decide, by decide,
    by decide, by decide, by decide, by decide, by decide, by decide, by decide, by decide, by decide, by decide, by decide,
    by decide, by decide, by decide, by decide, by decide, by decide, by decide, by decide, trivial⟩, by decide⟩

/-- A cache in use with room for four keys and with statistics; the requests miss four times. -/
def demoServer : List (WOp Nat Nat) :=
  [.create .basic (.sized 4), .op 0 (.monitorNew []), .op 0 (.insert 7 70), .op 0 (.insert 8 80), .op 0 (.contains 7),
   .op 0 (.insert 9 90), .op 0 (.insert 6 60), .op 0 (.insert 5 50)]

example : Reachable calmO (demoState calmO demoServer 0) ∧ (demoState calmO demoServer 0).c.kind = .basic ∧
    (demoState calmO demoServer 0).c.capacity = some 4 ∧ (demoState calmO demoServer 0).c.obs.stats = some 0 ∧
    0 < (demoState calmO demoServer 0).g.nextStat ∧ Tallied ((demoState calmO demoServer 0).g.stats 0) 0 1 ∧
    ((serve calmO (fun k => 10 * k) demoRequests (demoState calmO demoServer 0)).state.map fun s' =>
      (s'.g.stats 0).totalMisses) = some (some 4) :=
  ⟨demoState_reachable (by decide +kernel) rfl, by decide +kernel, by decide +kernel, by decide +kernel, by decide +kernel,
    ⟨by decide +kernel, by decide +kernel⟩, by decide +kernel⟩

/-- Going round four keys with room for three: 12 requests, 12 misses; 6 loads are enough. -/
example : around [1, 2, 3, 4] 12 = [1, 2, 3, 4, 1, 2, 3, 4, 1, 2, 3, 4] ∧ entries (demoState calmO (demoNew 3) 0).c = [] ∧
    ((serve calmO (fun k => 10 * k) (around [1, 2, 3, 4] 12) (demoState calmO (demoNew 3) 0)).state.map fun s' =>
      (s'.g.stats 0).totalMisses) = some (some 12) := ⟨by decide, by decide +kernel, by decide +kernel⟩

example : [1, 2, 3, 4].length = 3 + 1 ∧ ([1, 2, 3, 4] : List Nat).Pairwise (fun a b => keq a b = false) ∧
    Spaced 3 [] [1, 2, 3, 4, 5, 2, 1] := ⟨rfl, by decide, by
  refine ⟨?_, ?_, ?_, ?_, ?_, ?_, ?_, trivial⟩ <;> decide⟩

end LRU
