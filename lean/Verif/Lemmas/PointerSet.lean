import Verif.Lemmas.PointerSetScan
/-! Correctness of the leaf and node levels of the pointer set. -/
namespace Meevax.PointerSet

/-- `it` stands at the least member `≥ lo`, or at the end if there is none. -/
def Up (M : Impl) (mem : M.S → Nat → Prop) (At : M.S → M.I → Nat → Prop)
    (s : M.S) (lo : Nat) (it : M.I) : Prop :=
  (∃ v, At s it v ∧ lo ≤ v ∧ ∀ u, mem s u → lo ≤ u → v ≤ u) ∨
  (it = M.stop ∧ ∀ u, mem s u → u < lo)

/-- `it` stands at the greatest member satisfying the downward-closed bound `below`, or is
invalid if there is none. -/
def Down (M : Impl) (mem : M.S → Nat → Prop) (At : M.S → M.I → Nat → Prop)
    (s : M.S) (below : Nat → Prop) (it : M.I) : Prop :=
  (∃ v, At s it v ∧ below v ∧ ∀ u, mem s u → below u → u ≤ v) ∨
  (M.valid it = false ∧ ∀ u, mem s u → ¬ below u)

/-- A set implementation refines a finite set of keys. -/
structure Correct (M : Impl) (key : Nat → Prop) where
  Inv : M.S → Prop
  mem : M.S → Nat → Prop
  At : M.S → M.I → Nat → Prop
  mem_key : ∀ {s v}, Inv s → mem s v → key v
  new_inv : Inv M.new
  new_mem : ∀ v, ¬ mem M.new v
  size_spec : ∀ {s}, Inv s → ∃ l : List Nat, l.Nodup ∧ (∀ v, v ∈ l ↔ mem s v) ∧ M.size s = l.length
  insert_spec : ∀ {s v}, Inv s → key v → ¬ mem s v →
    ∃ s', M.insert s v = some s' ∧ Inv s' ∧ ∀ u, mem s' u ↔ u = v ∨ mem s u
  erase_spec : ∀ {s v}, Inv s → mem s v →
    ∃ s', M.erase s v = some s' ∧ Inv s' ∧ ∀ u, mem s' u ↔ u ≠ v ∧ mem s u
  contains_spec : ∀ {s v}, Inv s → key v →
    ∃ b, M.contains s v = some b ∧ (b = true ↔ mem s v)
  at_spec : ∀ {s it v}, Inv s → At s it v → M.valid it = true ∧ M.deref it = v ∧ mem s v
  stop_invalid : M.valid M.stop = false
  same_spec : ∀ {s a b u v}, Inv s → At s a u → At s b v → (M.same a b = true ↔ u = v)
  same_right : ∀ {a b}, M.valid b = false → M.same a b = !M.valid a
  same_left : ∀ {a b}, M.valid a = false → M.same a b = !M.valid b
  default_invalid : M.valid M.default = false
  first_spec : ∀ {s}, Inv s → ∃ it, M.first s = some it ∧ Up M mem At s 0 it
  lower_spec : ∀ {s v}, Inv s → key v → ∃ it, M.lowerBound s v = some it ∧ Up M mem At s v it
  inc_spec : ∀ {s it v}, Inv s → At s it v → ∃ it', M.inc s it = some it' ∧ Up M mem At s (v + 1) it'
  /-- Erasing the element an iterator stands at does not disturb the iterator. -/
  inc_erased : ∀ {s s' it v}, Inv s → At s it v → M.erase s v = some s' →
    ∃ it', M.inc s' it = some it' ∧ Up M mem At s' (v + 1) it'
  last_spec : ∀ {s}, Inv s → ∃ it, M.last s = some it ∧ Down M mem At s (fun _ => True) it
  dec_spec : ∀ {s it v}, Inv s → At s it v → ∃ it', M.dec s it = some it' ∧ Down M mem At s (· < v) it'

theorem Correct.size_zero {M : Impl} {key : Nat → Prop} (C : Correct M key) {s : M.S} (h : C.Inv s) :
    M.size s = 0 ↔ ∀ v, ¬ C.mem s v := by
  obtain ⟨l, _, h2, h3⟩ := C.size_spec h
  rw [h3, List.length_eq_zero_iff]
  constructor
  · rintro rfl v hv
    exact absurd ((h2 v).2 hv) (by simp)
  · intro hn
    cases l with
    | nil => rfl
    | cons a l => exact absurd ((h2 a).1 (by simp)) (hn a)

theorem list_erase_spec {l : List Nat} (hl : l.Nodup) (v : Nat) (hv : v ∈ l) :
    (l.erase v).Nodup ∧ (∀ u, u ∈ l.erase v ↔ u ≠ v ∧ u ∈ l) ∧ dec64 l.length = (l.erase v).length := by
  refine ⟨hl.erase v, fun u => hl.mem_erase_iff, ?_⟩
  have : l.length ≠ 0 := by intro h; rw [List.length_eq_zero_iff] at h; subst h; simp at hv
  rw [List.length_erase_of_mem hv]
  simp [dec64, this]

namespace Leaf

variable (E : Nat) (g : Word)

theorem N_eq (hE : 6 ≤ E) : N E = Q E * 64 := by
  unfold Q N
  obtain ⟨k, rfl⟩ := Nat.exists_eq_add_of_le hE
  rw [Nat.pow_add]
  omega

def mem (s : State) (v : Nat) : Prop := v < N E ∧ bit s.data v = true
def Inv (s : State) : Prop := ∃ l : List Nat, l.Nodup ∧ (∀ v, v ∈ l ↔ mem E s v) ∧ s.n = l.length
def At (s : State) (it : Iter) (v : Nat) : Prop := it = { p := true, i := v } ∧ mem E s v

theorem incr_spec (hE : 6 ≤ E) (s : State) (i : Nat) :
    ∃ it, incrementUnlessTruthy E g s { p := true, i := i } = some it ∧
      Up (impl E g) (mem E) (At E) s i it := by
  unfold incrementUnlessTruthy
  by_cases hi : i < N E
  · have hv : valid E { p := true, i := i } = true := by simpa [valid] using hi
    rw [if_pos hv]
    simp only [if_true]
    have hs := scanUp_spec s.data (Q E) g i (by rw [← N_eq E hE]; exact hi)
    cases hu : scanUp s.data (Q E) g i with
    | some k =>
      rw [hu] at hs
      obtain ⟨h1, h2, h3, h4⟩ := hs
      rw [← N_eq E hE] at h2
      refine ⟨_, rfl, Or.inl ⟨k, ⟨rfl, h2, h3⟩, h1, ?_⟩⟩
      intro u hu1 hu2
      by_cases hlt : u < k
      · have := h4 u hu2 hlt
        rw [hu1.2] at this; cases this
      · omega
    | none =>
      rw [hu] at hs
      refine ⟨_, rfl, Or.inr ⟨rfl, ?_⟩⟩
      intro u hu1
      apply Classical.byContradiction
      intro hn
      have := hs u (by omega) (by rw [← N_eq E hE]; exact hu1.1)
      rw [hu1.2] at this; cases this
  · have hv : valid E { p := true, i := i } = false := by simpa [valid] using hi
    rw [if_neg (by rw [hv]; simp)]
    refine ⟨_, rfl, Or.inr ⟨rfl, ?_⟩⟩
    intro u hu
    have := hu.1
    omega

theorem decr_spec (s : State) (i : Nat) (below : Nat → Prop)
    (hb : ∀ u, u < N E → (below u ↔ u ≤ i ∧ i < N E)) :
    ∃ it, decrementUnlessTruthy E s { p := true, i := i } = some it ∧
      Down (impl E g) (mem E) (At E) s below it := by
  unfold decrementUnlessTruthy
  by_cases hi : i < N E
  · have hv : valid E { p := true, i := i } = true := by simpa [valid] using hi
    rw [if_pos hv]
    simp only [if_true]
    have hs := scanDown_spec s.data i
    cases hu : scanDown s.data i with
    | some k =>
      rw [hu] at hs
      obtain ⟨h1, h3, h4⟩ := hs
      refine ⟨_, rfl, Or.inl ⟨k, ⟨rfl, by omega, h3⟩, (hb k (by omega)).2 ⟨h1, hi⟩, ?_⟩⟩
      intro u hu1 hu2
      have hu2 := ((hb u hu1.1).1 hu2).1
      by_cases hlt : k < u
      · have := h4 u hlt hu2
        rw [hu1.2] at this; cases this
      · omega
    | none =>
      rw [hu] at hs
      refine ⟨_, rfl, Or.inr ⟨by simp [impl, valid], ?_⟩⟩
      intro u hu1 hn
      have := hs u ((hb u hu1.1).1 hn).1
      rw [hu1.2] at this; cases this
  · have hv : valid E { p := true, i := i } = false := by simpa [valid] using hi
    rw [if_neg (by rw [hv]; simp)]
    refine ⟨_, rfl, Or.inr ⟨by simp [impl, valid], ?_⟩⟩
    intro u hu hn
    exact hi ((hb u hu.1).1 hn).2

def correct (hE : 6 ≤ E) (hE2 : E < 64) : Correct (impl E g) (· < 2 ^ E) where
  Inv := Inv E
  mem := mem E
  At := At E
  mem_key := fun _ h => h.1
  new_inv := ⟨[], List.nodup_nil, by intro v; simp [mem, impl, bit], rfl⟩
  new_mem := by intro v h; simp [mem, impl, bit] at h
  size_spec := fun h => h
  insert_spec := by
    intro s v ⟨l, hl1, hl2, hl3⟩ hv hn
    have hi : index E v = v := Nat.mod_eq_of_lt hv
    have hm : ∀ u, mem E (insert E s v) u ↔ u = v ∨ mem E s u := by
      intro u
      simp only [mem, insert, hi, bit_set]
      have hv' : v < N E := hv
      constructor
      · rintro ⟨h1, h2⟩
        simp only [Bool.or_eq_true, decide_eq_true_eq] at h2
        rcases h2 with h2 | h2
        · exact Or.inr ⟨h1, h2⟩
        · exact Or.inl h2
      · rintro (rfl | ⟨h1, h2⟩)
        · exact ⟨hv', by simp⟩
        · exact ⟨h1, by simp [h2]⟩
    refine ⟨_, rfl, ⟨v :: l, ?_, ?_, ?_⟩, hm⟩
    · exact List.nodup_cons.2 ⟨fun h => hn ((hl2 v).1 h), hl1⟩
    · intro u; rw [hm u, List.mem_cons, hl2 u]
    · simp [insert, hl3]
  erase_spec := by
    intro s v ⟨l, hl1, hl2, hl3⟩ hv
    have hi : index E v = v := Nat.mod_eq_of_lt hv.1
    have hm : ∀ u, mem E (erase E s v) u ↔ u ≠ v ∧ mem E s u := by
      intro u
      simp only [mem, erase, hi, bit_clear]
      constructor
      · rintro ⟨h1, h2⟩
        simp only [Bool.and_eq_true, Bool.not_eq_true', decide_eq_false_iff_not] at h2
        exact ⟨h2.2, h1, h2.1⟩
      · rintro ⟨h0, h1, h2⟩
        exact ⟨h1, by simp [h2, h0]⟩
    obtain ⟨e1, e2, e3⟩ := list_erase_spec hl1 v ((hl2 v).2 hv)
    refine ⟨_, rfl, ⟨l.erase v, e1, ?_, ?_⟩, hm⟩
    · intro u; rw [hm u, e2 u, hl2 u]
    · simp only [erase, hl3, e3]
  contains_spec := by
    intro s v _ hv
    have hi : index E v = v := Nat.mod_eq_of_lt hv
    refine ⟨_, rfl, ?_⟩
    simp only [contains, hi, test_bit, mem]
    exact ⟨fun h => ⟨hv, h⟩, fun h => h.2⟩
  at_spec := by
    rintro s it v _ ⟨rfl, hm⟩
    exact ⟨by simpa [impl, valid] using hm.1, rfl, hm⟩
  same_spec := by
    rintro s a b u v _ ⟨rfl, h1, _⟩ ⟨rfl, h2, _⟩
    simp [impl, same, valid, h2]
  same_right := by
    intro a b h
    simp only [impl] at h ⊢
    simp [same, h]
  same_left := by
    intro a b h
    simp only [impl] at h ⊢
    unfold same
    split
    · rename_i hb
      rw [hb]
      simp only [valid, decide_eq_false_iff_not, decide_eq_true_eq] at h hb
      simp only [Bool.not_true, beq_eq_false_iff_ne]
      omega
    · rename_i hb
      simp only [Bool.not_eq_true] at hb
      rw [h, hb]
  stop_invalid := by simp [impl, valid, stop]
  default_invalid := by simp [impl, valid]
  first_spec := fun {s} _ => incr_spec E g hE s 0
  lower_spec := by
    intro s v _ hv
    have hi : index E v = v := Nat.mod_eq_of_lt hv
    have := incr_spec E g hE s v
    simpa [impl, lowerBound, hi] using this
  inc_spec := by
    rintro s it v _ ⟨rfl, hm⟩
    exact incr_spec E g hE s (v + 1)
  inc_erased := by
    rintro s s' it v _ ⟨rfl, hm⟩ _
    exact incr_spec E g hE s' (v + 1)
  last_spec := by
    intro s _
    have hp : 0 < N E := Nat.two_pow_pos E
    exact decr_spec E g s (N E - 1) _ (by intro u hu; simp; omega)
  dec_spec := by
    rintro s it v _ ⟨rfl, hm⟩
    have hN : N E < 2 ^ 64 := Nat.pow_lt_pow_right (by omega) hE2
    apply decr_spec E g s (dec64 v) _
    intro u hu
    have := hm.1
    unfold dec64
    split <;> omega

end Leaf

end Meevax.PointerSet
