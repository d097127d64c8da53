import Verif.Lemmas.PointerSet
/-! Correctness of the node level of the pointer set over a correct child implementation. -/
namespace Meevax.PointerSet.Node
open Meevax.PointerSet

variable (P : Params) (g : Word) (M : Impl)

/-- Keys of a node set: aligned addresses below `2 ^ (E + Es)`. -/
def Key (v : Nat) : Prop := v % 2 ^ P.c = 0 ∧ v < 2 ^ (P.E + P.Es)

def hi (v : Nat) : Nat := v / 2 ^ P.c / 2 ^ P.Es
def lo (v : Nat) : Nat := v / 2 ^ P.c % 2 ^ P.Es
def mk (i j : Nat) : Nat := (i * 2 ^ P.Es + j) * 2 ^ P.c

structure Ok : Prop where
  c_le : P.c + 6 ≤ P.E
  e_lt : P.E < 64

variable {P} {M}

theorem N_pos : 0 < N P := Nat.two_pow_pos _

theorem N_lt (ok : Ok P) : N P < 2 ^ 64 := Nat.pow_lt_pow_right (by omega) (by have := ok.e_lt; omega)

theorem N_lt' (ok : Ok P) : N P + 1 < 2 ^ 64 := by
  have : N P ≤ 2 ^ 63 := Nat.pow_le_pow_right (by omega) (by have := ok.e_lt; omega)
  omega

theorem N_eq (ok : Ok P) : N P = Q P * 64 := by
  unfold Q N
  obtain ⟨k, hk⟩ := Nat.exists_eq_add_of_le ok.c_le
  rw [show P.E - P.c = 6 + k by omega, Nat.pow_add]
  omega

theorem lo_lt (v : Nat) : lo P v < 2 ^ P.Es := Nat.mod_lt _ (Nat.two_pow_pos _)

theorem hi_lt (ok : Ok P) {v : Nat} (h : Key P v) : hi P v < N P := by
  unfold hi N
  rw [Nat.div_div_eq_div_mul, ← Nat.pow_add]
  apply (Nat.div_lt_iff_lt_mul (Nat.two_pow_pos _)).2
  rw [← Nat.pow_add]
  have := ok.c_le
  rw [show P.E - P.c + (P.c + P.Es) = P.E + P.Es by omega]
  exact h.2

theorem split_eq (ok : Ok P) {v : Nat} (h : Key P v) : split P v = (hi P v, lo P v) := by
  unfold split
  have h1 := hi_lt ok h
  have h2 : N P ≤ 2 ^ P.E := Nat.pow_le_pow_right (by omega) (by omega)
  have : v / 2 ^ P.c / 2 ^ P.Es % 2 ^ P.E = hi P v := by
    unfold hi at *
    exact Nat.mod_eq_of_lt (by omega)
  simp only [this]
  rfl

theorem mk_hi_lo {v : Nat} (h : Key P v) : mk P (hi P v) (lo P v) = v := by
  unfold mk hi lo
  rw [Nat.mul_comm (v / 2 ^ P.c / 2 ^ P.Es), Nat.div_add_mod, Nat.mul_comm]
  have := Nat.div_add_mod v (2 ^ P.c)
  rw [h.1] at this
  omega

theorem hi_mk {i j : Nat} (hj : j < 2 ^ P.Es) : hi P (mk P i j) = i := by
  unfold hi mk
  rw [Nat.mul_div_cancel _ (Nat.two_pow_pos _), Nat.mul_comm, Nat.mul_add_div (Nat.two_pow_pos _),
    Nat.div_eq_of_lt hj, Nat.add_zero]

theorem lo_mk {i j : Nat} (hj : j < 2 ^ P.Es) : lo P (mk P i j) = j := by
  unfold lo mk
  rw [Nat.mul_div_cancel _ (Nat.two_pow_pos _), Nat.mul_comm, Nat.mul_add_mod, Nat.mod_eq_of_lt hj]

theorem key_mk (ok : Ok P) {i j : Nat} (hi : i < N P) (hj : j < 2 ^ P.Es) : Key P (mk P i j) := by
  unfold Key mk
  refine ⟨Nat.mul_mod_left _ _, ?_⟩
  have h := ok.c_le
  rw [show P.E + P.Es = ((P.E - P.c) + P.Es) + P.c by omega, Nat.pow_add _ _ P.c]
  apply Nat.mul_lt_mul_of_pos_right _ (Nat.two_pow_pos _)
  rw [Nat.pow_add]
  have : i + 1 ≤ 2 ^ (P.E - P.c) := hi
  have := Nat.mul_le_mul_right (2 ^ P.Es) this
  rw [Nat.add_mul, Nat.one_mul] at this
  omega

theorem lt_iff {u v : Nat} (hu : Key P u) (hv : Key P v) :
    u < v ↔ hi P u < hi P v ∨ (hi P u = hi P v ∧ lo P u < lo P v) := by
  have e : u < v ↔ u / 2 ^ P.c < v / 2 ^ P.c := by
    have h1 := Nat.div_add_mod u (2 ^ P.c)
    have h2 := Nat.div_add_mod v (2 ^ P.c)
    rw [hu.1] at h1
    rw [hv.1] at h2
    constructor
    · intro h
      rw [← h1, ← h2] at h
      simp only [Nat.add_zero] at h
      exact Nat.lt_of_mul_lt_mul_left h
    · intro h
      have := Nat.mul_lt_mul_of_pos_left h (Nat.two_pow_pos P.c)
      omega
  rw [e]
  unfold hi lo
  generalize u / 2 ^ P.c = x
  generalize v / 2 ^ P.c = y
  have hp := Nat.two_pow_pos P.Es
  generalize 2 ^ P.Es = A at *
  have h1 := Nat.div_add_mod x A
  have h2 := Nat.div_add_mod y A
  have h3 := Nat.mod_lt x hp
  have h4 := Nat.mod_lt y hp
  constructor
  · intro h
    rcases Nat.lt_trichotomy (x / A) (y / A) with h5 | h5 | h5
    · exact Or.inl h5
    · right; refine ⟨h5, ?_⟩; rw [h5] at h1; omega
    · exfalso
      have : y / A + 1 ≤ x / A := h5
      have := Nat.mul_le_mul_left A this
      rw [Nat.mul_add] at this
      omega
  · rintro (h5 | ⟨h5, h6⟩)
    · have : x / A + 1 ≤ y / A := h5
      have := Nat.mul_le_mul_left A this
      rw [Nat.mul_add] at this
      omega
    · rw [h5] at h1; omega

theorem le_iff {u v : Nat} (hu : Key P u) (hv : Key P v) :
    u ≤ v ↔ hi P u < hi P v ∨ (hi P u = hi P v ∧ lo P u ≤ lo P v) := by
  rw [← Nat.not_lt, lt_iff hv hu]
  omega

theorem deref_mk {i : Nat} {sub : M.I} {p : Bool} {j : Nat} (hj : j < 2 ^ P.Es) (hd : M.deref sub = j) :
    deref P M { p := p, i := i, sub := sub } = mk P i j := by
  unfold deref mk
  simp only [hd]
  rw [← Nat.shiftLeft_add_eq_or_of_lt hj, Nat.shiftLeft_eq, Nat.shiftLeft_eq]

variable (C : Correct M (· < 2 ^ P.Es))

def mem (s : State M) (v : Nat) : Prop := Key P v ∧ ∃ t, s.data (hi P v) = some t ∧ C.mem t (lo P v)

/-- Child `i` exists and has an element. -/
def Full (s : State M) (i : Nat) : Prop := ∃ t, s.data i = some t ∧ ∃ v, C.mem t v

structure Inv (s : State M) : Prop where
  child : ∀ i t, s.data i = some t → i < N P ∧ C.Inv t ∧ s.iMin ≤ i ∧ i ≤ s.iMax
  occ : ∀ i, i < N P → (bit s.occupancy i = true ↔ Full C s i)
  min_le : s.iMin ≤ N P
  max_lt : s.iMax < N P
  count : ∃ l : List Nat, l.Nodup ∧ (∀ v, v ∈ l ↔ mem C s v) ∧ s.n = l.length

def At (s : State M) (it : Iter M) (v : Nat) : Prop :=
  it.p = true ∧ it.i = hi P v ∧ Key P v ∧ ∃ t, s.data (hi P v) = some t ∧ C.At t it.sub (lo P v)

variable {C}

theorem mem_full {s : State M} {v : Nat} (h : mem C s v) : Full C s (hi P v) := by
  obtain ⟨_, t, h1, h2⟩ := h
  exact ⟨t, h1, _, h2⟩

theorem incr_spec (ok : Ok P) {s : State M} (hs : Inv C s) {it : Iter M} (hp : it.p = true) :
    ∃ it', incrementUnlessTruthy P g M s it = some it' ∧
      ((∃ t v, it'.p = true ∧ it.i ≤ it'.i ∧ s.data it'.i = some t ∧ C.At t it'.sub v ∧
          (∀ u, C.mem t u → v ≤ u) ∧ ∀ i, it.i ≤ i → i < it'.i → ¬ Full C s i) ∨
        (it' = stop P M ∧ ∀ i, it.i ≤ i → ¬ Full C s i)) := by
  unfold incrementUnlessTruthy
  rw [if_pos hp]
  have hfull_lt : ∀ i, Full C s i → i < N P := fun i ⟨t, h, _⟩ => (hs.child i t h).1
  have hend : ∀ i, s.iMax < i → incrementLoop P g M s it (N P + 2) i = some (stop P M) := by
    intro i hi
    rw [incrementLoop, if_neg (by omega)]
    simp [invalidate, stop, hp]
  by_cases hi : it.i < N P
  · have h := scanUp_spec s.occupancy (Q P) g it.i (by rw [← N_eq ok]; exact hi)
    unfold seekUp
    cases hu : scanUp s.occupancy (Q P) g it.i with
    | none =>
      rw [hu] at h
      refine ⟨_, hend (N P) hs.max_lt, Or.inr ⟨rfl, ?_⟩⟩
      intro i hi2 hf
      have := h i hi2 (by rw [← N_eq ok]; exact hfull_lt i hf)
      rw [(hs.occ i (hfull_lt i hf)).2 hf] at this
      cases this
    | some k =>
      rw [hu] at h
      obtain ⟨h1, h2, h3, h4⟩ := h
      rw [← N_eq ok] at h2
      obtain ⟨t, ht, v, hv⟩ := (hs.occ k h2).1 h3
      obtain ⟨_, hInv, _, hmax⟩ := hs.child k t ht
      obtain ⟨sub, hf1, hf2⟩ := C.first_spec hInv
      rcases hf2 with ⟨w, hw1, _, hw2⟩ | ⟨_, hne⟩
      · have hval := (C.at_spec hInv hw1).1
        refine ⟨{ it with i := k, sub := sub }, ?_, Or.inl ⟨t, w, hp, h1, ht, hw1,
          fun u hu => hw2 u hu (Nat.zero_le u), ?_⟩⟩
        · simp only [Option.getD_some]
          rw [incrementLoop, if_pos hmax, if_pos h2, ht]
          simp only [hf1, hval, if_true]
        · intro i hi1 hi2 hf
          have := h4 i hi1 hi2
          rw [(hs.occ i (hfull_lt i hf)).2 hf] at this
          cases this
      · exact absurd (hne v hv) (by omega)
  · refine ⟨stop P M, ?_, Or.inr ⟨rfl, ?_⟩⟩
    · apply hend
      have h := scanUp_oob s.occupancy (Q P) g it.i (by rw [← N_eq ok]; omega)
      have hm := hs.max_lt
      unfold seekUp
      cases hu : scanUp s.occupancy (Q P) g it.i with
      | none => simpa using hm
      | some k =>
        rw [hu] at h
        rw [← N_eq ok] at h
        simp only [Option.getD_some]
        omega
    · intro i hi2 hf
      have := hfull_lt i hf
      omega

theorem decr_spec (ok : Ok P) {s : State M} (hs : Inv C s) {it : Iter M} (hp : it.p = true) :
    ∃ it', decrementUnlessTruthy P M s it = some it' ∧
      ((∃ t v, it'.p = true ∧ it'.i ≤ it.i ∧ s.data it'.i = some t ∧ C.At t it'.sub v ∧
          (∀ u, C.mem t u → u ≤ v) ∧ ∀ i, it'.i < i → i ≤ it.i → ¬ Full C s i) ∨
        (valid P M it' = false ∧ ∀ i, i ≤ it.i → ¬ Full C s i)) := by
  unfold decrementUnlessTruthy
  rw [if_pos hp]
  have hfull_lt : ∀ i, Full C s i → i < N P := fun i ⟨t, h, _⟩ => (hs.child i t h).1
  have hN := N_pos (P := P)
  have hNlt := N_lt ok
  have hq : min it.i (N P - 1) / 64 < Q P := by
    have := N_eq ok
    omega
  have h := scanDown_spec s.occupancy (min it.i (N P - 1))
  unfold seekDown
  rw [if_pos hq]
  cases hu : scanDown s.occupancy (min it.i (N P - 1)) with
  | none =>
    rw [hu] at h
    refine ⟨invalidate P M it, ?_, Or.inr ⟨by simp [invalidate, valid], ?_⟩⟩
    · simp only [Option.getD_none]
      rw [decrementLoop, if_neg (by omega)]
    · intro i hi hf
      have := h i (by have := hfull_lt i hf; omega)
      rw [(hs.occ i (hfull_lt i hf)).2 hf] at this
      cases this
  | some k =>
    rw [hu] at h
    obtain ⟨h1, h3, h4⟩ := h
    have h2 : k < N P := by omega
    obtain ⟨t, ht, v, hv⟩ := (hs.occ k h2).1 h3
    obtain ⟨_, hInv, hmin, _⟩ := hs.child k t ht
    obtain ⟨sub, hf1, hf2⟩ := C.last_spec hInv
    rcases hf2 with ⟨w, hw1, _, hw2⟩ | ⟨_, hne⟩
    · have hval := (C.at_spec hInv hw1).1
      refine ⟨{ it with i := k, sub := sub }, ?_, Or.inl ⟨t, w, hp, by simp only; omega, ht, hw1,
        fun u hu => hw2 u hu trivial, ?_⟩⟩
      · simp only [Option.getD_some]
        have hc : sub64 k s.iMin < sub64 (N P) s.iMin := by
          unfold sub64
          have : (k + 2 ^ 64 - s.iMin) % 2 ^ 64 = k - s.iMin := by
            rw [show k + 2 ^ 64 - s.iMin = (k - s.iMin) + 2 ^ 64 by omega, Nat.add_mod_right]
            exact Nat.mod_eq_of_lt (by omega)
          rw [this]
          have : (N P + 2 ^ 64 - s.iMin) % 2 ^ 64 = N P - s.iMin := by
            rw [show N P + 2 ^ 64 - s.iMin = (N P - s.iMin) + 2 ^ 64 by omega, Nat.add_mod_right]
            exact Nat.mod_eq_of_lt (by omega)
          rw [this]
          omega
        rw [decrementLoop, if_pos hc, if_pos h2, ht]
        simp only [hf1, hval, if_true]
      · intro i hi1 hi2 hf
        have hilt := hfull_lt i hf
        have := h4 i hi1 (by omega)
        rw [(hs.occ i hilt).2 hf] at this
        cases this
    · exact absurd trivial (hne v hv)

theorem at_mem {s : State M} (hs : Inv C s) {it : Iter M} {v : Nat} (h : At C s it v) : mem C s v := by
  obtain ⟨_, _, h3, t, h4, h5⟩ := h
  exact ⟨h3, t, h4, (C.at_spec (hs.child _ _ h4).2.1 h5).2.2⟩

/-- From a position found by `incr_spec` to an `Up` statement. -/
theorem incr_up (ok : Ok P) {s : State M} (hs : Inv C s) {it : Iter M} (hp : it.p = true) (low : Nat)
    (h1 : ∀ u, mem C s u → (low ≤ u ↔ it.i ≤ hi P u)) :
    ∃ it', incrementUnlessTruthy P g M s it = some it' ∧ Up (impl P g M) (mem C) (At C) s low it' := by
  obtain ⟨it', e, h⟩ := incr_spec g ok hs hp
  refine ⟨it', e, ?_⟩
  rcases h with ⟨t, v, hp', hle, hd, hat, hmin, hno⟩ | ⟨h2, hno⟩
  · obtain ⟨hN, hInv, _, _⟩ := hs.child _ _ hd
    have hlt : v < 2 ^ P.Es := C.mem_key hInv (C.at_spec hInv hat).2.2
    have hk := key_mk ok hN hlt
    have hAt : At C s it' (mk P it'.i v) := by
      refine ⟨hp', (hi_mk hlt).symm, hk, t, ?_, ?_⟩
      · rw [hi_mk hlt]; exact hd
      · rw [lo_mk hlt]; exact hat
    left
    refine ⟨mk P it'.i v, hAt, ?_, ?_⟩
    · rw [h1 _ (at_mem hs hAt), hi_mk hlt]; exact hle
    · intro u hu hlow
      rw [h1 u hu] at hlow
      rw [le_iff hk hu.1, hi_mk hlt, lo_mk hlt]
      by_cases hc : hi P u < it'.i
      · exact absurd (mem_full hu) (hno _ hlow hc)
      · by_cases he : it'.i = hi P u
        · right
          refine ⟨he, ?_⟩
          obtain ⟨_, t', ht', hm⟩ := hu
          rw [← he, hd] at ht'
          cases ht'
          exact hmin _ hm
        · left; omega
  · right
    refine ⟨h2, ?_⟩
    intro u hu
    apply Classical.byContradiction
    intro hn
    exact hno _ ((h1 u hu).1 (by omega)) (mem_full hu)

theorem decr_down (ok : Ok P) {s : State M} (hs : Inv C s) {it : Iter M} (hp : it.p = true)
    (below : Nat → Prop) (h1 : ∀ u, mem C s u → (below u ↔ hi P u ≤ it.i)) :
    ∃ it', decrementUnlessTruthy P M s it = some it' ∧ Down (impl P g M) (mem C) (At C) s below it' := by
  obtain ⟨it', e, h⟩ := decr_spec ok hs hp
  refine ⟨it', e, ?_⟩
  rcases h with ⟨t, v, hp', hle, hd, hat, hmax, hno⟩ | ⟨h2, hno⟩
  · obtain ⟨hN, hInv, _, _⟩ := hs.child _ _ hd
    have hlt : v < 2 ^ P.Es := C.mem_key hInv (C.at_spec hInv hat).2.2
    have hk := key_mk ok hN hlt
    have hAt : At C s it' (mk P it'.i v) := by
      refine ⟨hp', (hi_mk hlt).symm, hk, t, ?_, ?_⟩
      · rw [hi_mk hlt]; exact hd
      · rw [lo_mk hlt]; exact hat
    left
    refine ⟨mk P it'.i v, hAt, ?_, ?_⟩
    · rw [h1 _ (at_mem hs hAt), hi_mk hlt]; exact hle
    · intro u hu hb
      rw [h1 u hu] at hb
      rw [le_iff hu.1 hk, hi_mk hlt, lo_mk hlt]
      by_cases hc : it'.i < hi P u
      · exact absurd (mem_full hu) (hno _ hc hb)
      · by_cases he : it'.i = hi P u
        · right
          refine ⟨he.symm, ?_⟩
          obtain ⟨_, t', ht', hm⟩ := hu
          rw [← he, hd] at ht'
          cases ht'
          exact hmax _ hm
        · left; omega
  · right
    refine ⟨h2, ?_⟩
    intro u hu hb
    exact hno _ ((h1 u hu).1 hb) (mem_full hu)

theorem upd_same {α : Type} (a : Nat → α) (q : Nat) (v : α) : upd a q v q = v := by simp [upd]
theorem upd_ne {α : Type} (a : Nat → α) {q k : Nat} (v : α) (h : k ≠ q) : upd a q v k = a k := by
  simp [upd, h]

theorem insert_ok (ok : Ok P) {s : State M} (hs : Inv C s) {v : Nat} (hk : Key P v) (hn : ¬ mem C s v) :
    ∃ s', insert P M s v = some s' ∧ Inv C s' ∧ ∀ u, mem C s' u ↔ u = v ∨ mem C s u := by
  have hNi := hi_lt ok hk
  -- the child after the optional allocation
  obtain ⟨s1, t, e1, h1d, h1inv, h1mem⟩ : ∃ (s1 : State M) (t : M.S),
      (match s.data (hi P v) with
        | none => { s with iMin := min s.iMin (hi P v), iMax := max s.iMax (hi P v), data := upd s.data (hi P v) (some M.new) }
        | some _ => s) = s1 ∧ s1.data (hi P v) = some t ∧ Inv C s1 ∧ (∀ u, mem C s1 u ↔ mem C s u) := by
    cases hd : s.data (hi P v) with
    | some t => exact ⟨s, t, rfl, hd, hs, fun u => Iff.rfl⟩
    | none =>
      have hmem : ∀ u, (Key P u ∧ ∃ t, upd s.data (hi P v) (some M.new) (hi P u) = some t ∧ C.mem t (lo P u)) ↔
          mem C s u := by
        intro u
        unfold mem
        by_cases he : hi P u = hi P v
        · rw [he, upd_same, hd]
          constructor
          · rintro ⟨_, t, ht, hm⟩
            cases ht
            exact absurd hm (C.new_mem _)
          · rintro ⟨_, t, ht, _⟩
            cases ht
        · rw [upd_ne _ _ he]
      refine ⟨_, M.new, rfl, upd_same _ _ _, ?_, hmem⟩
      constructor
      · intro i t ht
        simp only at ht ⊢
        by_cases he : i = hi P v
        · subst he
          rw [upd_same] at ht
          cases ht
          exact ⟨hNi, C.new_inv, by omega, by omega⟩
        · rw [upd_ne _ _ he] at ht
          obtain ⟨a, b, c, d⟩ := hs.child i t ht
          exact ⟨a, b, by omega, by omega⟩
      · intro i hi'
        simp only
        rw [hs.occ i hi']
        unfold Full
        simp only
        by_cases he : i = hi P v
        · subst he
          rw [upd_same, hd]
          constructor
          · rintro ⟨t, ht, _⟩; cases ht
          · rintro ⟨t, ht, w, hw⟩; cases ht; exact absurd hw (C.new_mem w)
        · rw [upd_ne _ _ he]
      · have := hs.min_le; simp only; omega
      · have := hs.max_lt; simp only; omega
      · obtain ⟨l, a, b, c⟩ := hs.count
        exact ⟨l, a, fun u => (b u).trans (hmem u).symm, c⟩
  obtain ⟨_, htInv, hmin, hmax⟩ := h1inv.child _ _ h1d
  have hnt : ¬ C.mem t (lo P v) := fun h => hn ((h1mem v).1 ⟨hk, t, h1d, h⟩)
  obtain ⟨t', e2, ht'inv, ht'mem⟩ := C.insert_spec htInv (lo_lt v) hnt
  -- occupancy update
  obtain ⟨s2, e3, h2d, h2occ, h2rest⟩ : ∃ s2 : State M,
      (if M.size t = 0 then
          { s1 with occupancy := upd s1.occupancy (hi P v / 64) (s1.occupancy (hi P v / 64) ||| (1#64 <<< (hi P v % 64))) }
        else s1) = s2 ∧ s2.data = s1.data ∧
      (∀ i, i < N P → (bit s2.occupancy i = true ↔ i = hi P v ∨ Full C s1 i)) ∧
      (s2.iMin = s1.iMin ∧ s2.iMax = s1.iMax ∧ s2.n = s1.n) := by
    by_cases hz : M.size t = 0
    · refine ⟨_, if_pos hz, rfl, ?_, rfl, rfl, rfl⟩
      intro i hi'
      simp only [bit_set, Bool.or_eq_true, decide_eq_true_eq]
      rw [h1inv.occ i hi']
      exact or_comm
    · refine ⟨_, if_neg hz, rfl, ?_, rfl, rfl, rfl⟩
      intro i hi'
      rw [h1inv.occ i hi']
      constructor
      · exact Or.inr
      · rintro (rfl | h)
        · refine ⟨t, h1d, ?_⟩
          rw [C.size_zero htInv] at hz
          apply Classical.byContradiction
          intro hne
          exact hz fun w hw => hne ⟨w, hw⟩
        · exact h
  have hmem' : ∀ u, (Key P u ∧ ∃ t, upd s2.data (hi P v) (some t') (hi P u) = some t ∧ C.mem t (lo P u)) ↔
      u = v ∨ mem C s u := by
    intro u
    by_cases he : hi P u = hi P v
    · rw [he, upd_same]
      constructor
      · rintro ⟨hku, t'', ht'', hm⟩
        cases ht''
        rcases (ht'mem _).1 hm with h | h
        · left; rw [← mk_hi_lo hku, ← mk_hi_lo hk, he, h]
        · right
          rw [← h1mem u]
          exact ⟨hku, t, by rw [he]; exact h1d, h⟩
      · rintro (rfl | h)
        · exact ⟨hk, t', rfl, (ht'mem _).2 (Or.inl rfl)⟩
        · rw [← h1mem u] at h
          obtain ⟨hku, t'', ht'', hm⟩ := h
          rw [he, h1d] at ht''
          cases ht''
          exact ⟨hku, t', rfl, (ht'mem _).2 (Or.inr hm)⟩
    · rw [upd_ne _ _ he, h2d]
      have hne : u ≠ v := fun h => he (by rw [h])
      rw [← h1mem u]
      unfold mem
      simp [hne]
  refine ⟨{ s2 with data := upd s2.data (hi P v) (some t'), n := s2.n + 1 }, ?_, ?_, hmem'⟩
  · unfold insert
    rw [split_eq ok hk]
    simp only [if_pos hNi]
    split at e1
    · rename_i hd
      simp only [hd, e1]
      rw [← e1] at h1d e3 ⊢
      simp only at h1d e3
      simp only [h1d, e2]
      simp only [e3]
    · rename_i hd
      subst e1
      simp only [hd]
      rw [h1d] at hd
      cases hd
      simp only [e2, e3]
  · obtain ⟨r1, r2, r3⟩ := h2rest
    constructor
    · intro i t'' ht''
      simp only at ht'' ⊢
      rw [r1, r2]
      by_cases he : i = hi P v
      · subst he
        rw [upd_same] at ht''
        cases ht''
        exact ⟨hNi, ht'inv, hmin, hmax⟩
      · rw [upd_ne _ _ he, h2d] at ht''
        exact h1inv.child i t'' ht''
    · intro i hi'
      simp only
      rw [h2occ i hi']
      unfold Full
      simp only
      by_cases he : i = hi P v
      · subst he
        rw [upd_same]
        exact ⟨fun _ => ⟨t', rfl, lo P v, (ht'mem _).2 (Or.inl rfl)⟩, fun _ => Or.inl rfl⟩
      · rw [upd_ne _ _ he, h2d]
        simp [he]
    · simp only; rw [r1]; exact h1inv.min_le
    · simp only; rw [r2]; exact h1inv.max_lt
    · obtain ⟨l, a, b, c⟩ := h1inv.count
      refine ⟨v :: l, List.nodup_cons.2 ⟨fun h => hn ((h1mem v).1 ((b v).1 h)), a⟩, ?_, ?_⟩
      · intro u
        rw [List.mem_cons, b u, h1mem u]
        exact (hmem' u).symm
      · simp only [r3, c, List.length_cons]

theorem erase_ok (ok : Ok P) {s : State M} (hs : Inv C s) {v : Nat} (hm : mem C s v) :
    ∃ s', erase P M s v = some s' ∧ Inv C s' ∧ ∀ u, mem C s' u ↔ u ≠ v ∧ mem C s u := by
  have hk := hm.1
  have hNi := hi_lt ok hk
  obtain ⟨_, t, hd, hmt⟩ := id hm
  obtain ⟨_, htInv, hmin, hmax⟩ := hs.child _ _ hd
  obtain ⟨t', e2, ht'inv, ht'mem⟩ := C.erase_spec htInv hmt
  have hmem' : ∀ u, (Key P u ∧ ∃ t, upd s.data (hi P v) (some t') (hi P u) = some t ∧ C.mem t (lo P u)) ↔
      u ≠ v ∧ mem C s u := by
    intro u
    unfold mem
    by_cases he : hi P u = hi P v
    · rw [he, upd_same]
      constructor
      · rintro ⟨hku, t'', ht'', hmm⟩
        cases ht''
        obtain ⟨h1, h2⟩ := (ht'mem _).1 hmm
        exact ⟨fun h => h1 (by rw [h]), hku, t, hd, h2⟩
      · rintro ⟨hne, hku, t'', ht'', hmm⟩
        rw [hd] at ht''
        cases ht''
        refine ⟨hku, t', rfl, (ht'mem _).2 ⟨?_, hmm⟩⟩
        intro hl
        apply hne
        rw [← mk_hi_lo hku, ← mk_hi_lo hk, he, hl]
    · have hne : u ≠ v := fun h => he (by rw [h])
      rw [upd_ne _ _ he]
      simp [hne]
  have hcount : ∃ l : List Nat, l.Nodup ∧ (∀ u, u ∈ l ↔ u ≠ v ∧ mem C s u) ∧ dec64 s.n = l.length := by
    obtain ⟨l, a, b, c⟩ := hs.count
    obtain ⟨e1, e2, e3⟩ := list_erase_spec a v ((b v).2 hm)
    refine ⟨l.erase v, e1, ?_, ?_⟩
    · intro u; rw [e2 u, b u]
    · rw [c, e3]
  have hocc : ∀ i, i < N P → i ≠ hi P v →
      ((∃ t, upd s.data (hi P v) (some t') i = some t ∧ ∃ w, C.mem t w) ↔ Full C s i) := by
    intro i _ he
    rw [upd_ne _ _ he]
    rfl
  by_cases hz : M.size t' = 0
  · refine ⟨{ data := upd s.data (hi P v) (some t'), n := dec64 s.n, iMin := s.iMin, iMax := s.iMax,
              occupancy := upd s.occupancy (hi P v / 64) (s.occupancy (hi P v / 64) &&& ~~~(1#64 <<< (hi P v % 64))) },
      ?_, ?_, hmem'⟩
    · unfold erase
      rw [split_eq ok hk]
      simp only [if_pos hNi, hd, e2, hz, if_true]
    · constructor
      · intro i t'' ht''
        simp only at ht'' ⊢
        by_cases he : i = hi P v
        · subst he
          rw [upd_same] at ht''
          cases ht''
          exact ⟨hNi, ht'inv, hmin, hmax⟩
        · rw [upd_ne _ _ he] at ht''
          exact hs.child i t'' ht''
      · intro i hi'
        simp only [bit_clear, Bool.and_eq_true, Bool.not_eq_true', decide_eq_false_iff_not]
        rw [hs.occ i hi']
        by_cases he : i = hi P v
        · subst he
          unfold Full
          simp only [upd_same]
          constructor
          · rintro ⟨_, h⟩; exact absurd trivial h
          · rintro ⟨t'', ht'', w, hw⟩
            cases ht''
            exact absurd hw ((C.size_zero ht'inv).1 hz w)
        · have := hocc i hi' he
          simp only [he, not_false_eq_true, and_true]
          exact this.symm
      · exact hs.min_le
      · exact hs.max_lt
      · obtain ⟨l, a, b, c⟩ := hcount
        exact ⟨l, a, fun u => (b u).trans (hmem' u).symm, c⟩
  · refine ⟨{ s with data := upd s.data (hi P v) (some t'), n := dec64 s.n }, ?_, ?_, hmem'⟩
    · unfold erase
      rw [split_eq ok hk]
      simp only [if_pos hNi, hd, e2, hz, if_false]
    · constructor
      · intro i t'' ht''
        simp only at ht'' ⊢
        by_cases he : i = hi P v
        · subst he
          rw [upd_same] at ht''
          cases ht''
          exact ⟨hNi, ht'inv, hmin, hmax⟩
        · rw [upd_ne _ _ he] at ht''
          exact hs.child i t'' ht''
      · intro i hi'
        simp only
        rw [hs.occ i hi']
        by_cases he : i = hi P v
        · subst he
          unfold Full
          simp only [upd_same]
          constructor
          · intro _
            rw [C.size_zero ht'inv] at hz
            refine ⟨t', rfl, ?_⟩
            apply Classical.byContradiction
            intro hne
            exact hz fun w hw => hne ⟨w, hw⟩
          · intro _
            exact ⟨t, hd, _, hmt⟩
        · exact (hocc i hi' he).symm
      · exact hs.min_le
      · exact hs.max_lt
      · obtain ⟨l, a, b, c⟩ := hcount
        exact ⟨l, a, fun u => (b u).trans (hmem' u).symm, c⟩

/-- `++` once the iterator of the child has been advanced. -/
theorem inc_from (ok : Ok P) {s : State M} (hs : Inv C s) {it : Iter M} {v : Nat} {t : M.S} {sub : M.I}
    (h1 : it.p = true) (h2 : it.i = hi P v) (h3 : Key P v) (h4 : s.data (hi P v) = some t)
    (e : M.inc t it.sub = some sub) (h : Up M C.mem C.At t (lo P v + 1) sub) :
    ∃ it', inc P g M s it = some it' ∧ Up (impl P g M) (mem C) (At C) s (v + 1) it' := by
  have hNi := hi_lt ok h3
  obtain ⟨_, htInv, _, _⟩ := hs.child _ _ h4
  have hsub : subSet M s it.i = t := by simp [subSet, h2, h4]
  simp only [inc, hsub, e]
  rcases h with ⟨w, hat, hle, hmin⟩ | ⟨rfl, hno⟩
  · have hsp := C.at_spec htInv hat
    have hlt : w < 2 ^ P.Es := C.mem_key htInv hsp.2.2
    rw [if_pos hsp.1]
    have hk' := key_mk ok hNi hlt
    refine ⟨_, rfl, Or.inl ⟨mk P (hi P v) w, ⟨h1, ?_, hk', t, ?_, ?_⟩, ?_, ?_⟩⟩
    · rw [hi_mk hlt]; exact h2
    · rw [hi_mk hlt]; exact h4
    · rw [lo_mk hlt]; exact hat
    · have : v < mk P (hi P v) w := by
        rw [lt_iff h3 hk', hi_mk hlt, lo_mk hlt]
        exact Or.inr ⟨rfl, by omega⟩
      omega
    · intro u hu hvu
      have hvu : v < u := by omega
      rw [lt_iff h3 hu.1] at hvu
      rw [le_iff hk' hu.1, hi_mk hlt, lo_mk hlt]
      rcases hvu with h | ⟨e1, e2⟩
      · exact Or.inl h
      · right
        refine ⟨e1, ?_⟩
        obtain ⟨_, t', ht', hm⟩ := hu
        rw [← e1, h4] at ht'
        cases ht'
        exact hmin _ hm (by omega)
  · rw [if_neg (by rw [C.stop_invalid]; simp)]
    refine incr_up g ok hs (it := { p := it.p, i := it.i + 1, sub := M.stop }) h1 (v + 1) ?_
    intro u hu
    simp only
    rw [h2]
    constructor
    · intro hle
      have : v < u := by omega
      rw [lt_iff h3 hu.1] at this
      rcases this with h | ⟨e1, e2⟩
      · omega
      · obtain ⟨_, t', ht', hm⟩ := hu
        rw [← e1, h4] at ht'
        cases ht'
        have := hno _ hm
        omega
    · intro hle
      have : v < u := by rw [lt_iff h3 hu.1]; left; omega
      omega

/-- A node over a correct child set is correct. -/
def correct (ok : Ok P) (C : Correct M (· < 2 ^ P.Es)) : Correct (impl P g M) (Key P) where
  Inv := Inv C
  mem := mem C
  At := At C
  mem_key := fun _ h => h.1
  new_inv := by
    constructor
    · intro i t h; cases h
    · intro i _
      simp only [impl, bit, Full]
      constructor
      · intro h; simp at h
      · rintro ⟨t, h, _⟩; cases h
    · exact Nat.le_refl _
    · exact N_pos
    · refine ⟨[], List.nodup_nil, ?_, rfl⟩
      intro v
      constructor
      · intro h; simp at h
      · rintro ⟨_, t, h, _⟩; cases h
  new_mem := by rintro v ⟨_, t, h, _⟩; cases h
  size_spec := fun h => h.count
  insert_spec := fun h hk hn => insert_ok ok h hk hn
  erase_spec := fun h hm => erase_ok ok h hm
  contains_spec := by
    intro s v hs hk
    have hNi := hi_lt ok hk
    simp only [impl, contains, split_eq ok hk, if_pos hNi]
    cases hd : s.data (hi P v) with
    | none =>
      refine ⟨false, rfl, ?_⟩
      simp only [Bool.false_eq_true, false_iff]
      rintro ⟨_, t, h, _⟩
      rw [hd] at h
      cases h
    | some t =>
      obtain ⟨b, h1, h2⟩ := C.contains_spec (hs.child _ _ hd).2.1 (lo_lt (P := P) v)
      refine ⟨b, h1, ?_⟩
      rw [h2]
      constructor
      · intro h; exact ⟨hk, t, hd, h⟩
      · rintro ⟨_, t', h, hm⟩
        rw [hd] at h
        cases h
        exact hm
  at_spec := by
    intro s it v hs h
    have hm := at_mem hs h
    obtain ⟨h1, h2, h3, t, h4, h5⟩ := h
    have h6 := C.at_spec (hs.child _ _ h4).2.1 h5
    refine ⟨?_, ?_, hm⟩
    · simp only [impl, valid, h2, decide_eq_true_eq]
      exact hi_lt ok h3
    · have := deref_mk (P := P) (M := M) (i := it.i) (sub := it.sub) (p := it.p) (lo_lt (P := P) v) h6.2.1
      exact this.trans (by rw [h2, mk_hi_lo h3])
  same_spec := by
    rintro s a b u v hs ⟨a1, a2, a3, t, a4, a5⟩ ⟨b1, b2, b3, t', b4, b5⟩
    have hb : valid P M b = true := by simp [valid, b2, hi_lt ok b3]
    simp only [impl, same, hb, if_true, Bool.and_eq_true, beq_iff_eq, a2, b2]
    have hi' := (hs.child _ _ a4).2.1
    constructor
    · rintro ⟨h1, h2⟩
      rw [← h1, a4] at b4
      cases b4
      rw [C.same_spec hi' a5 b5] at h2
      rw [← mk_hi_lo a3, ← mk_hi_lo b3, h1, h2]
    · rintro rfl
      rw [a4] at b4
      cases b4
      exact ⟨rfl, (C.same_spec hi' a5 b5).2 rfl⟩
  same_right := by
    intro a b h
    simp only [impl] at h ⊢
    simp [same, h]
  same_left := by
    intro a b h
    simp only [impl] at h ⊢
    unfold same
    split
    · rename_i hb
      rw [hb]
      simp only [valid, decide_eq_false_iff_not, decide_eq_true_eq] at h hb
      simp only [Bool.not_true, Bool.and_eq_false_iff, beq_eq_false_iff_ne]
      left; omega
    · rename_i hb
      simp only [Bool.not_eq_true] at hb
      rw [h, hb]
  stop_invalid := by simp [impl, valid, stop]
  default_invalid := by simp [impl, valid]
  first_spec := by
    intro s hs
    refine incr_up g ok hs (it := { p := true, i := s.iMin, sub := M.default }) rfl 0 ?_
    intro u hu
    simp only [Nat.zero_le, true_iff]
    obtain ⟨_, t, ht, _⟩ := hu
    exact (hs.child _ _ ht).2.2.1
  lower_spec := by
    intro s v hs hk
    have hNi := hi_lt ok hk
    simp only [impl, lowerBound, split_eq ok hk, if_pos hNi]
    have hnext : ∀ sub, (∀ u, mem C s u → v ≤ u → hi P v + 1 ≤ hi P u) →
        ∃ it, incrementUnlessTruthy P g M s { p := true, i := hi P v + 1, sub := sub } = some it ∧
          Up (impl P g M) (mem C) (At C) s v it := by
      intro sub h
      apply incr_up g ok hs rfl
      intro u hu
      constructor
      · exact h u hu
      · intro hle
        rw [le_iff hk hu.1]
        left; simp only at hle; omega
    cases hd : s.data (hi P v) with
    | none =>
      apply hnext
      intro u hu hle
      rw [le_iff hk hu.1] at hle
      rcases hle with h | ⟨h, _⟩
      · omega
      · obtain ⟨_, t, ht, _⟩ := hu
        rw [← h, hd] at ht
        cases ht
    | some t =>
      obtain ⟨_, htInv, _, _⟩ := hs.child _ _ hd
      obtain ⟨sub, e, h⟩ := C.lower_spec htInv (lo_lt (P := P) v)
      simp only [e]
      rcases h with ⟨w, hat, hle, hmin⟩ | ⟨rfl, hno⟩
      · have hsp := C.at_spec htInv hat
        have hlt : w < 2 ^ P.Es := C.mem_key htInv hsp.2.2
        rw [if_pos hsp.1]
        have hk' := key_mk ok hNi hlt
        refine ⟨_, rfl, Or.inl ⟨mk P (hi P v) w, ⟨rfl, (hi_mk hlt).symm, hk', t, ?_, ?_⟩, ?_, ?_⟩⟩
        · rw [hi_mk hlt]; exact hd
        · rw [lo_mk hlt]; exact hat
        · rw [le_iff hk hk', hi_mk hlt, lo_mk hlt]
          exact Or.inr ⟨rfl, hle⟩
        · intro u hu hvu
          rw [le_iff hk hu.1] at hvu
          rw [le_iff hk' hu.1, hi_mk hlt, lo_mk hlt]
          rcases hvu with h | ⟨h1, h2⟩
          · exact Or.inl h
          · right
            refine ⟨h1, ?_⟩
            obtain ⟨_, t', ht', hm⟩ := hu
            rw [← h1, hd] at ht'
            cases ht'
            exact hmin _ hm h2
      · rw [if_neg (by rw [C.stop_invalid]; simp)]
        apply hnext
        intro u hu hle
        rw [le_iff hk hu.1] at hle
        rcases hle with h | ⟨h1, h2⟩
        · omega
        · obtain ⟨_, t', ht', hm⟩ := hu
          rw [← h1, hd] at ht'
          cases ht'
          have := hno _ hm
          omega
  inc_spec := by
    intro s it v hs h
    obtain ⟨h1, h2, h3, t, h4, h5⟩ := h
    obtain ⟨sub, e, h⟩ := C.inc_spec (hs.child _ _ h4).2.1 h5
    exact inc_from g ok hs h1 h2 h3 h4 e h
  inc_erased := by
    intro s s' it v hs h he
    obtain ⟨s'', he', hs', _⟩ := erase_ok ok hs (at_mem hs h)
    obtain ⟨h1, h2, h3, t, h4, h5⟩ := h
    simp only [impl] at he
    rw [he'] at he
    cases he
    obtain ⟨_, htInv, _, _⟩ := hs.child _ _ h4
    obtain ⟨t', e2, _, _⟩ := C.erase_spec htInv (C.at_spec htInv h5).2.2
    obtain ⟨sub, e, h⟩ := C.inc_erased htInv h5 e2
    have hd : s'.data (hi P v) = some t' := by
      unfold erase at he'
      rw [split_eq ok h3] at he'
      simp only [if_pos (hi_lt ok h3), h4, e2] at he'
      rw [← Option.some.inj he']
      split <;> exact upd_same _ _ _
    exact inc_from g ok hs' h1 h2 h3 hd e h
  last_spec := by
    intro s hs
    refine decr_down g ok hs (it := { p := true, i := s.iMax, sub := M.default }) rfl (fun _ => True) ?_
    intro u hu
    simp only [true_iff]
    obtain ⟨_, t, ht, _⟩ := hu
    exact (hs.child _ _ ht).2.2.2
  dec_spec := by
    intro s it v hs h
    obtain ⟨h1, h2, h3, t, h4, h5⟩ := h
    have hNi := hi_lt ok h3
    have hNlt := N_lt' ok
    obtain ⟨_, htInv, _, _⟩ := hs.child _ _ h4
    obtain ⟨sub, e, h⟩ := C.dec_spec htInv h5
    have hsub : subSet M s it.i = t := by simp [subSet, h2, h4]
    simp only [impl, dec, hsub, e, h1, if_true]
    rcases h with ⟨w, hat, hlt', hmax⟩ | ⟨hinv, hno⟩
    · have hsp := C.at_spec htInv hat
      have hlt : w < 2 ^ P.Es := C.mem_key htInv hsp.2.2
      rw [if_pos hsp.1]
      have hk' := key_mk ok hNi hlt
      refine ⟨_, rfl, Or.inl ⟨mk P (hi P v) w, ⟨rfl, ?_, hk', t, ?_, ?_⟩, ?_, ?_⟩⟩
      · rw [hi_mk hlt]; exact h2
      · rw [hi_mk hlt]; exact h4
      · rw [lo_mk hlt]; exact hat
      · show mk P (hi P v) w < v
        rw [lt_iff hk' h3, hi_mk hlt, lo_mk hlt]
        exact Or.inr ⟨rfl, hlt'⟩
      · intro u hu hvu
        have hvu : u < v := hvu
        rw [lt_iff hu.1 h3] at hvu
        rw [le_iff hu.1 hk', hi_mk hlt, lo_mk hlt]
        rcases hvu with h | ⟨e1, e2⟩
        · exact Or.inl h
        · right
          refine ⟨e1, ?_⟩
          obtain ⟨_, t', ht', hm⟩ := hu
          rw [e1, h4] at ht'
          cases ht'
          exact hmax _ hm e2
    · rw [if_neg (by rw [hinv]; simp)]
      have hsame : ∀ u, mem C s u → u < v → hi P u < hi P v := by
        intro u hu hlt
        rw [lt_iff hu.1 h3] at hlt
        rcases hlt with h | ⟨e1, e2⟩
        · exact h
        · obtain ⟨_, t', ht', hm⟩ := hu
          rw [e1, h4] at ht'
          cases ht'
          exact absurd e2 (hno _ hm)
      by_cases hz : hi P v = 0
      · have hd : dec64 it.i = 2 ^ 64 - 1 := by simp [dec64, h2, hz]
        rw [hd, if_neg (by omega)]
        refine ⟨_, rfl, Or.inr ⟨?_, ?_⟩⟩
        · simp only [valid, decide_eq_false_iff_not]; omega
        · intro u hu hlt
          have := hsame u hu hlt
          omega
      · have hd : dec64 it.i = hi P v - 1 := by simp [dec64, h2, hz]
        rw [hd, if_pos (by omega)]
        apply decr_down g ok hs rfl
        intro u hu
        simp only
        constructor
        · intro h
          have := hsame u hu h
          omega
        · intro h
          rw [lt_iff hu.1 h3]
          left; omega

/-- Decrementing an end iterator of an outermost set: defined because the children are
themselves nodes, whose default iterator has a null set pointer. -/
theorem dec_stop (ok : Ok P) (hdef : ∀ t, ∃ d, M.dec t M.default = some d ∧ M.valid d = false)
    {s : State M} (hs : Inv C s) :
    ∃ it, dec P M s (stop P M) = some it ∧ Down (impl P g M) (mem C) (At C) s (fun _ => True) it := by
  obtain ⟨d, h1, h2⟩ := hdef (subSet M s (N P))
  have hN := N_pos (P := P)
  have hd : dec64 (N P) = N P - 1 := by simp [dec64]; omega
  have e : dec P M s (stop P M) = decrementUnlessTruthy P M s { p := true, i := N P - 1, sub := d } := by
    have h1' : M.dec (subSet M s (stop P M).i) (stop P M).sub = some d := h1
    have h3 : dec64 (stop P M).i = N P - 1 := hd
    have h4 : (stop P M).p = true := rfl
    unfold dec
    simp only [h1', h2, h3, h4, if_true, Bool.false_eq_true, if_false]
    rw [if_pos (by omega)]
  rw [e]
  refine decr_down g ok hs (it := { p := true, i := N P - 1, sub := d }) rfl (fun _ => True) ?_
  intro u hu
  simp only [true_iff]
  have := hi_lt ok hu.1
  omega

theorem dec_default (s : State M) :
    ∃ d, (impl P g M).dec s (impl P g M).default = some d ∧ (impl P g M).valid d = false := by
  refine ⟨(impl P g M).default, ?_, ?_⟩
  · simp [impl, dec]
  · simp [impl, valid]

end Meevax.PointerSet.Node
