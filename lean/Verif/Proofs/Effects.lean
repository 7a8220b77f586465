import Verif.Proofs.Clean
/-!
# Outcomes of the effects on the shared state

Clock readings, statistics and callbacks, evaluated to explicit outcomes.
-/

set_option linter.unusedSectionVars false

namespace LRU

/-- The events logged by `_register_hit`. -/
def hitEvents {K V : Type} (o : Obs) (k : K) (v : V) : List (Event K V) :=
  o.hitCbs.map (fun cb => .hit cb k v) ++ o.accCbs.map (fun cb => .access cb k true)

/-- The events logged by `_register_miss`. -/
def missEvents {K V : Type} (o : Obs) (k : K) : List (Event K V) :=
  o.missCbs.map (fun cb => .miss cb k) ++ o.accCbs.map (fun cb => .access cb k false)

section run

variable {σ α β : Type}

theorem bind_throw {m : M σ α} {f : α → M σ β} {s s' : σ} {e : Err} (h : m s = .throw e s') :
    (m >>= f) s = .throw e s' := by
  show M.bind m f s = _
  unfold M.bind
  rw [h]

theorem bind_terminate {m : M σ α} {f : α → M σ β} {s : σ} (h : m s = .terminate) : (m >>= f) s = .terminate := by
  show M.bind m f s = _
  unfold M.bind
  rw [h]

theorem bind_diverge {m : M σ α} {f : α → M σ β} {s : σ} (h : m s = .diverge) : (m >>= f) s = .diverge := by
  show M.bind m f s = _
  unfold M.bind
  rw [h]

theorem ret_ok {K V : Type} {m : M σ α} {f : α → Res K V} {s s' : σ} {a : α} (h : m s = .ok a s') :
    Impl.ret m f s = .ok (f a) s' := bind_ok h

theorem ret_throw {K V : Type} {m : M σ α} {f : α → Res K V} {s s' : σ} {e : Err}
    (h : m s = .throw e s') : Impl.ret m f s = .throw e s' := bind_throw h

theorem ret_ub {K V : Type} {m : M σ α} {f : α → Res K V} {s : σ}
    (h : m s = .ub) : Impl.ret m f s = .ub := bind_ub h

end run

section effects

variable {C K V : Type} {O : Oracle K V}

theorem callEach_cases (ev : Nat → Event K V) (l : List Nat) (s : St C K V) :
    (callEach O ev l s = .ok () ⟨s.c, { s.g with log := s.g.log ++ l.map ev, steps := s.g.steps + l.length }⟩ ∧
      ∀ i cb, l[i]? = some cb → O.fails (.callback cb) (s.g.steps + i) = false) ∨
    ∃ pre cb post, l = pre ++ cb :: post ∧ O.fails (.callback cb) (s.g.steps + pre.length) = true ∧
      callEach O ev l s = .throw .user
        ⟨s.c, { s.g with log := s.g.log ++ (pre ++ [cb]).map ev, steps := s.g.steps + pre.length + 1 }⟩ := by
  induction l generalizing s with
  | nil =>
    left
    refine ⟨?_, by simp⟩
    show Out.ok () s = _
    simp
  | cons cb r ih =>
    show (M.bind (emit (ev cb)) fun _ => M.bind (attempt O (.callback cb)) fun _ => callEach O ev r) s = _ ∧ _ ∨
      ∃ pre cb' post, _ ∧ _ ∧
        (M.bind (emit (ev cb)) fun _ => M.bind (attempt O (.callback cb)) fun _ => callEach O ev r) s = _
    simp only [M.bind, emit, M.modify, attempt]
    by_cases hf : O.fails (.callback cb) s.g.steps = true
    · right
      refine ⟨[], cb, r, rfl, by simpa using hf, ?_⟩
      simp [hf]
    · simp only [hf, if_false]
      rcases ih ⟨s.c, { s.g with log := s.g.log ++ [ev cb], steps := s.g.steps + 1 }⟩ with
        ⟨h1, h2⟩ | ⟨pre, cb', post, h1, h2, h3⟩
      · left
        refine ⟨?_, ?_⟩
        · rw [if_neg (by simp)]
          show callEach O ev r ⟨s.c, { s.g with log := s.g.log ++ [ev cb], steps := s.g.steps + 1 }⟩ = _
          rw [h1]
          simp [Nat.add_comm, Nat.add_left_comm]
        · intro i cb' hi
          cases i with
          | zero =>
            simp only [List.getElem?_cons_zero, Option.some.injEq] at hi
            subst hi
            simpa using hf
          | succ j =>
            rw [List.getElem?_cons_succ] at hi
            have := h2 j cb' hi
            simpa [Nat.add_assoc, Nat.add_comm 1] using this
      · right
        refine ⟨cb :: pre, cb', post, by simp [h1], ?_, ?_⟩
        · simpa [Nat.add_assoc, Nat.add_comm 1] using h2
        · rw [if_neg (by simp)]
          show callEach O ev r ⟨s.c, { s.g with log := s.g.log ++ [ev cb], steps := s.g.steps + 1 }⟩ = _
          rw [h3]
          simp [Nat.add_comm, Nat.add_left_comm]

theorem callEach2_cases (ev ev' : Nat → Event K V) (l l' : List Nat) (s : St C K V) :
    ((callEach O ev l >>= fun _ => callEach O ev' l') s = .ok ()
        ⟨s.c, { s.g with log := s.g.log ++ (l.map ev ++ l'.map ev'), steps := s.g.steps + (l.length + l'.length) }⟩ ∧
      ∀ i cb, (l ++ l')[i]? = some cb → O.fails (.callback cb) (s.g.steps + i) = false) ∨
    ∃ n cb, (l ++ l')[n]? = some cb ∧ O.fails (.callback cb) (s.g.steps + n) = true ∧
      (callEach O ev l >>= fun _ => callEach O ev' l') s = .throw .user
        ⟨s.c, { s.g with
          log := s.g.log ++ (l.map ev ++ l'.map ev').take (n + 1), steps := s.g.steps + n + 1 }⟩ := by
  rcases callEach_cases (O := O) ev l s with ⟨h1, h2⟩ | ⟨pre, cb, post, rfl, h2, h3⟩
  · rw [bind_ok h1]
    rcases callEach_cases (O := O) ev' l'
        ⟨s.c, { s.g with log := s.g.log ++ l.map ev, steps := s.g.steps + l.length }⟩ with
        ⟨h3, h4⟩ | ⟨pre, cb', post, rfl, h4, h5⟩
    · left
      refine ⟨?_, ?_⟩
      · rw [h3]; simp [Nat.add_assoc]
      · intro i cb hi
        rw [List.getElem?_append] at hi
        split at hi
        · exact h2 i cb hi
        · next hlt =>
          have := h4 (i - l.length) cb hi
          have e : s.g.steps + l.length + (i - l.length) = s.g.steps + i := by omega
          rwa [e] at this
    · right
      refine ⟨l.length + pre.length, cb', ?_, ?_, ?_⟩
      · rw [List.getElem?_append_right (by omega)]
        simp
      · rw [← Nat.add_assoc]; exact h4
      · rw [h5]
        have e : (l.map ev ++ (pre ++ cb' :: post).map ev').take (l.length + pre.length + 1)
            = l.map ev ++ (pre ++ [cb']).map ev' := by
          rw [List.take_append, List.take_of_length_le (by simp; omega)]
          simp only [List.length_map, List.map_append, List.map_cons]
          congr 1
          have : l.length + pre.length + 1 - l.length = pre.length + 1 := by omega
          rw [this, List.take_append, List.take_of_length_le (by simp)]
          simp
        rw [e]
        simp [Nat.add_assoc]
  · right
    refine ⟨pre.length, cb, ?_, h2, ?_⟩
    · rw [List.append_assoc, List.getElem?_append_right (by omega)]
      simp
    · rw [bind_throw h3]
      have e : ((pre ++ cb :: post).map ev ++ l'.map ev').take (pre.length + 1) = (pre ++ [cb]).map ev := by
        rw [List.map_append, List.append_assoc, List.take_append, List.take_of_length_le (by simp)]
        simp
      rw [e]

variable [DecidableEq K]

/-- Statistics after a hit. -/
def hitStats (o : Obs) (k : K) (g : Shared K V) : Nat → Statistics K :=
  fun j => if o.stats = some j then (g.stats j).registerHit k else g.stats j

/-- Statistics after a miss. -/
def missStats (o : Obs) (k : K) (g : Shared K V) : Nat → Statistics K :=
  fun j => if o.stats = some j then (g.stats j).registerMiss k else g.stats j

/-- Shared state after a registered hit. -/
def hitG (o : Obs) (k : K) (v : V) (g : Shared K V) : Shared K V :=
  { g with
    stats := hitStats o k g
    log := g.log ++ hitEvents o k v
    steps := g.steps + (o.hitCbs.length + o.accCbs.length) }

/-- Shared state after a registered miss. -/
def missG (o : Obs) (k : K) (g : Shared K V) : Shared K V :=
  { g with
    stats := missStats o k g
    log := g.log ++ missEvents o k
    steps := g.steps + (o.missCbs.length + o.accCbs.length) }

/-- Shared state when callback number `n` of a registered hit has thrown. -/
def hitThrowG (o : Obs) (k : K) (v : V) (n : Nat) (g : Shared K V) : Shared K V :=
  { g with
    stats := hitStats o k g
    log := g.log ++ (hitEvents o k v).take (n + 1)
    steps := g.steps + n + 1 }

/-- Shared state when callback number `n` of a registered miss has thrown. -/
def missThrowG (o : Obs) (k : K) (n : Nat) (g : Shared K V) : Shared K V :=
  { g with
    stats := missStats o k g
    log := g.log ++ (missEvents o k).take (n + 1)
    steps := g.steps + n + 1 }

theorem countHit_eq (o : Obs) (k : K) (s : St C K V) :
    countHit o k s = .ok () ⟨s.c, { s.g with stats := hitStats o k s.g }⟩ := by
  unfold countHit
  cases h : o.stats with
  | none =>
    show Out.ok () s = _
    congr 1
    obtain ⟨c, g⟩ := s
    have : hitStats o k g = g.stats := by funext j; simp [hitStats, h]
    rw [this]
  | some i =>
    unfold modStats M.modify
    have : hitStats o k s.g = fun j => if j = i then (s.g.stats j).registerHit k else s.g.stats j := by
      funext j
      simp only [hitStats, h, Option.some.injEq]
      by_cases hj : i = j
      · rw [if_pos hj, if_pos hj.symm]
      · rw [if_neg hj, if_neg (fun h' => hj h'.symm)]
    rw [this]

theorem countMiss_eq (o : Obs) (k : K) (s : St C K V) :
    countMiss o k s = .ok () ⟨s.c, { s.g with stats := missStats o k s.g }⟩ := by
  unfold countMiss
  cases h : o.stats with
  | none =>
    show Out.ok () s = _
    congr 1
    obtain ⟨c, g⟩ := s
    have : missStats o k g = g.stats := by funext j; simp [missStats, h]
    rw [this]
  | some i =>
    unfold modStats M.modify
    have : missStats o k s.g = fun j => if j = i then (s.g.stats j).registerMiss k else s.g.stats j := by
      funext j
      simp only [missStats, h, Option.some.injEq]
      by_cases hj : i = j
      · rw [if_pos hj, if_pos hj.symm]
      · rw [if_neg hj, if_neg (fun h' => hj h'.symm)]
    rw [this]

/-- `_register_hit` either completes or a callback throws. -/
theorem registerHit_cases (o : Obs) (k : K) (v : V) (s : St C K V) :
    (registerHit O o k v s = .ok () ⟨s.c, hitG o k v s.g⟩ ∧
      ∀ i cb, (o.hitCbs ++ o.accCbs)[i]? = some cb → O.fails (.callback cb) (s.g.steps + i) = false) ∨
    ∃ n cb, (o.hitCbs ++ o.accCbs)[n]? = some cb ∧ O.fails (.callback cb) (s.g.steps + n) = true ∧
      registerHit O o k v s = .throw .user ⟨s.c, hitThrowG o k v n s.g⟩ := by
  unfold registerHit
  rw [bind_ok (countHit_eq o k s)]
  exact callEach2_cases _ _ _ _ _

/-- `_register_miss` either completes or a callback throws. -/
theorem registerMiss_cases (o : Obs) (k : K) (s : St C K V) :
    (registerMiss O o k s = .ok () ⟨s.c, missG o k s.g⟩ ∧
      ∀ i cb, (o.missCbs ++ o.accCbs)[i]? = some cb → O.fails (.callback cb) (s.g.steps + i) = false) ∨
    ∃ n cb, (o.missCbs ++ o.accCbs)[n]? = some cb ∧ O.fails (.callback cb) (s.g.steps + n) = true ∧
      registerMiss O o k s = .throw .user ⟨s.c, missThrowG o k n s.g⟩ := by
  unfold registerMiss
  rw [bind_ok (countMiss_eq o k s)]
  exact callEach2_cases _ _ _ _ _

end effects

section clock

variable {K V : Type}

/-- Number of clock readings of an expiry test. -/
def Kind.reads : Kind → Nat
  | .basic => 0
  | .timed .. => 1

/-- Shared state after an expiry test. -/
def tickG (kind : Kind) (g : Shared K V) : Shared K V := { g with ticks := g.ticks + kind.reads }

/-- The verdict of an expiry test made now. -/
def expiredAt (O : Oracle K V) (kind : Kind) (g : Shared K V) (time : Int) : Bool :=
  kind.expired time (O.clock g.ticks)

theorem tickG_basic (g : Shared K V) : tickG .basic g = g := rfl

theorem hasExpiredInfo_eq (O : Oracle K V) (time : Int) (t : St (MCache K V) K V) :
    Mid.hasExpiredInfo O time t = .ok (expiredAt O t.c.kind t.g time) ⟨t.c, tickG t.c.kind t.g⟩ := by
  unfold Mid.hasExpiredInfo
  rw [bind_ok (m := Mid.getKind) (s := t) rfl]
  cases h : t.c.kind with
  | basic => rfl
  | timed ttl res => rfl

theorem insertionTime_eq (O : Oracle K V) (t : St (MCache K V) K V) :
    Mid.insertionTime O t = .ok (match t.c.kind with | .basic => 0 | .timed .. => O.clock t.g.ticks)
      ⟨t.c, tickG t.c.kind t.g⟩ := by
  unfold Mid.insertionTime
  rw [bind_ok (m := Mid.getKind) (s := t) rfl]
  cases h : t.c.kind with
  | basic => rfl
  | timed ttl res => rfl

end clock

end LRU
